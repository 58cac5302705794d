import Verif.Props.Time
/-
C68: how deeply destructors nest.
-/
namespace Abu

/-- C68: destructors nest as deeply as the text does. The parser object of
`x := '(' >> x >> ')' | 'x'`, given `k` opening parentheses and waiting for more, takes more than
`k` nested calls to destroy. -/
theorem C68_destructors_nest (k : Nat) (m : Mem) : ∃ st w,
    Evals parenEnv (topParser (.recur 0 false)) .nil .nil .recurNone
      (⟨⟨List.replicate k 40, 0, [], false⟩, m⟩ : World Cursor Mem) (.ok ((.PARTIAL, st), w)) ∧
    k < st.height := by
  obtain ⟨N, S', hN⟩ := paren_opens m k k 0 [] (by omega)
  refine ⟨_, _, ⟨(by simp), N, hN N (Nat.le_refl _)⟩, ?_⟩
  have : ∀ j, j < (parenState j).height := by
    intro j
    induction j with
    | zero => simp [parenState, PState.height]
    | succ j ih => simp only [parenState, PState.height]; omega
  exact this k

/-- C68: the room that was asked for is there. On a stack with room for `d` calls, a call of
`consume` that returns was given, and leaves, an object that takes at most `d` nested calls to
destroy. -/
theorem C68_room_for_destructors {σ : Type} [DataSource σ] (env : Env) (d : Nat) (p : Prog)
    (dst bnd : Ref) (st st' : PState) (w w' : World σ Mem) (r : Res)
    (h : EvalsBy (runDes env d) p dst bnd st w (.ok ((r, st'), w'))) :
    st.height ≤ d ∧ st'.height ≤ d := by
  obtain ⟨_, n, h⟩ := h
  induction n generalizing st w with
  | zero => rw [runDes] at h; cases h
  | succ n ih =>
    rw [runDes_succ] at h
    split at h
    · cases h
    · refine ⟨by omega, ?_⟩
      cases hx : exec (callDes env n d) (body env p dst bnd st) w with
      | error e => rw [hx] at h; cases h
      | ok y =>
        obtain ⟨s, w1⟩ := y
        rw [hx] at h
        cases s with
        | ret r' st1 =>
          simp only at h
          split at h
          · cases h
          · cases h; omega
        | cont st1 => exact (ih _ _ h).2

/-- A call that returns, with room for four calls: `x` read by the pattern above. -/
example (m : Mem) : EvalsBy (runDes parenEnv 4) (.recur 0 .fail) .nil .nil .recurNone
    (⟨⟨[120], 0, [], true⟩, m⟩ : World Cursor Mem)
    (.ok ((.SUCCESS, .recurSome (.alt 1 .unit)), ⟨⟨[120], 1, [], true⟩, m⟩)) :=
  ⟨by simp, 20, rfl⟩

/-- The object in `C68_destructors_nest` is a newly constructed one. -/
example (m : Mem) : construct (topParser (.recur 0 false)) .nil .nil
    (⟨⟨[40, 40], 0, [], false⟩, m⟩ : World Cursor Mem) =
    .ok (.recurNone, ⟨⟨[40, 40], 0, [], false⟩, m⟩) := rfl

end Abu
