import Verif.Proofs.TimePoly
import Verif.Proofs.Apply
/-
From the ghost machine to `parse`.
-/
namespace Abu

section
variable {env : Env}

/-- The number of iterations of `parse` is that of the ghost machine, unless a destination meets
undefined behaviour; then it is at most that. -/
theorem parse_ghost {p : Pat} (hp : Comp (topParser p)) {dst m t st} {w : World SingleForward Mem}
    (hc : construct (topParser p) dst dst
      (⟨SingleForward.make t, m⟩ : World SingleForward Mem) = .ok (st, w)) (n : Nat) :
    steps env n (topParser p) dst dst st w ≤
      steps env n (topParser p) .nil .nil (fresh (topParser p))
        (gw t 0 (List.replicate (marks (topParser p)) 0)) ∧
    (∀ a, run env n (topParser p) dst dst st w = .ok a → steps env n (topParser p) dst dst st w =
      steps env n (topParser p) .nil .nil (fresh (topParser p))
        (gw t 0 (List.replicate (marks (topParser p)) 0))) := by
  have hsim := construct_sim SingleForward.dsSim (topParser p) dst dst m (SingleForward.rel_make t)
  rw [hc] at hsim
  generalize hs : construct (topParser p) dst dst (⟨Cursor.whole t, m⟩ : World Cursor Mem) = y at hsim
  cases hsim with
  | @ok st s c m' hr =>
    have hce := construct_er (g := id) (topParser p) dst dst (⟨Cursor.whole t, m⟩ : World Cursor Mem)
    rw [hs, Prog.mapAct_id] at hce
    have hgc : construct (topParser p) .nil .nil (⟨Cursor.whole t, ()⟩ : World Cursor Unit) =
        .ok (fresh (topParser p), gw t 0 (List.replicate (marks (topParser p)) 0)) := by
      have := exec_mk (call := fun _ _ _ _ _ => .error .stuck) hp
        (⟨Cursor.whole t, ()⟩ : World Cursor Unit)
      rw [construct, this, push]
      simp [gw, Cursor.whole]
    simp only at hce
    rw [hgc] at hce
    generalize hx : (Except.ok (fresh (topParser p), gw t 0 (List.replicate (marks (topParser p)) 0)) :
      Out Cursor Unit PState) = x at hce
    cases hce with
    | ok =>
      simp only [Except.ok.injEq, Prod.mk.injEq] at hx
      obtain ⟨hx1, hx2⟩ := hx
      have he := steps_er (g := id) (fun _ => rfl) env n (topParser p) dst dst st
        (⟨c, m'⟩ : World Cursor Mem)
      rw [Prog.mapAct_id, Env.mapAct_id, ← hx1] at he
      simp only at he
      rw [← hx2] at he
      have hst := steps_sim SingleForward.dsSim env n (topParser p) dst dst st m' hr
      rw [hst]
      refine ⟨he.1, fun a ha => ?_⟩
      have hrs := run_sim SingleForward.dsSim env n (topParser p) dst dst st m' hr
      rw [ha] at hrs
      generalize hz : run env n (topParser p) dst dst st (⟨c, m'⟩ : World Cursor Mem) = z at hrs
      cases hrs with
      | ok => exact he.2 _ hz

/-- A bound for the ghost machine is one for `parse`. -/
theorem parseSteps_le {env0 : Env} {p : Pat} {t B} (hp : Comp (topParser p))
    (h : EndsBy env0 t (topParser p) (fresh (topParser p)) 0
      (List.replicate (marks (topParser p)) 0) B)
    (hsub : ∀ id q, env0 id = some q → env id = some q)
    (henv : ∀ id q sk, env0 id = some q → Comp sk → Comp (elabP sk RecurChildReqs q))
    (n dst m) : parseSteps env n p dst m t ≤ B := by
  obtain ⟨r, i', S', k, hb, hk⟩ := h
  obtain ⟨N, st', hr, hs⟩ := run_of_bigIn_env hb hsub (fun hl n st w => run_leaf_env hl n st w) henv hp
    (.refl _)
  unfold parseSteps
  split
  · rename_i st w hc
    refine Nat.le_trans (parse_ghost hp hc n).1 (Nat.le_trans (steps_le env ?_) (hs ▸ hk))
    rw [hr]; simp
  · exact Nat.zero_le _

/-- What the derivation says about `parse`. -/
theorem parsesIn_of_bigIn {p : Pat} {t r i' S' k dst m m' rest} (hp : Comp (topParser p))
    (henv : ∀ id q sk, env id = some q → Comp sk → Comp (elabP sk RecurChildReqs q))
    (h : BigIn env t (topParser p) (fresh (topParser p)) 0
      (List.replicate (marks (topParser p)) 0) r i' S' k)
    (hok : Parses env p dst m t (.ok (r, m', rest))) : ParsesIn env p dst m t r k := by
  obtain ⟨N, st', hr, hs⟩ := run_of_bigIn h henv hp
  cases hok with
  | ok hc he _ =>
    obtain ⟨_, n, hn⟩ := he
    have hn' := run_mono env (Nat.le_max_left n N) _ _ _ _ _ (by rw [hn]; simp)
    rw [hn] at hn'
    refine ⟨max n N, _, _, _, _, hc, hn', ?_⟩
    rw [(parse_ghost hp hc _).2 _ hn', (steps_mono env (Nat.le_max_right n N)).eq _ _ _ _ _
      (by rw [hr]; simp), hs]

theorem ParsesIn.unique {p : Pat} {dst m t r k r' k'} (h : ParsesIn env p dst m t r k)
    (h' : ParsesIn env p dst m t r' k') : r = r' ∧ k = k' := by
  obtain ⟨n, st, w, a, w', h1, h2, h3⟩ := h
  obtain ⟨n', st', w1, a', w1', h1', h2', h3'⟩ := h'
  rw [h1] at h1'
  cases h1'
  have hu := Evals.unique (env := env) ⟨by simp, n, h2⟩ ⟨by simp, n', h2'⟩
  cases hu
  exact ⟨rfl, h3.symm.trans ((steps_unique env (by rw [h2]; simp) (by rw [h2']; simp)).trans h3')⟩

theorem ParsesIn.steps {p : Pat} {dst m t r k} (h : ParsesIn env p dst m t r k) (n : Nat) :
    parseSteps env n p dst m t ≤ k := by
  obtain ⟨N, st, w, a, w', h1, h2, h3⟩ := h
  unfold parseSteps
  rw [h1]
  rw [← h3]
  exact steps_le env (by rw [h2]; simp)

theorem ParsesIn.reaches {p : Pat} {dst m t r k} (h : ParsesIn env p dst m t r k) :
    ∃ n, parseSteps env n p dst m t = k := by
  obtain ⟨N, st, w, a, w', h1, h2, h3⟩ := h
  refine ⟨N, ?_⟩
  unfold parseSteps
  rw [h1]
  exact h3

/-- There is a number of iterations for every parse that returns. -/
theorem ParsesIn.of_parses {p : Pat} {dst m t r m' rest}
    (h : Parses env p dst m t (.ok (r, m', rest))) : ∃ k, ParsesIn env p dst m t r k := by
  cases h with
  | ok hc he _ =>
    obtain ⟨_, n, hn⟩ := he
    exact ⟨_, n, _, _, _, _, hc, hn, rfl⟩

end
end Abu
