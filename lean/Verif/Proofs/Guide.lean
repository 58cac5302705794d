import Verif.Model.Guide
import Verif.Spec.Guide
import Verif.Proofs.ReadmeRect
import Verif.Props.Leaf
/-
What the parsers of the user guide do.
-/
namespace Abu

section
variable {env : Env} {P : Prog} {dst bnd : Ref} {t : List Ch} {j i : Nat} {m : Mem} {r : Res}
  {i' : Nat} {m' : Mem}

/-! ### More rules -/

theorem Ends.lexeme (h : Ends env P dst bnd t j i m r i' m') :
    Ends env (.lexeme P) dst bnd t j i m r i' m' := by
  obtain ⟨st, m1, hb, hr⟩ := h
  refine ⟨_, _, hb.lexeme, ?_⟩
  simp only [marks]
  exact hr.forward (by simp only [Abu.body])

theorem Ends.uint_built {o p B mn mx k} {m1 : Mem} (h0 : m.zero (.at o p (.num k)) = .ok m1) {r i' m'}
    (h : ∃ f st', run env f (.uint B mn mx) (.at o p (.num k)) bnd (.uint 0) (cw t i [] m1) =
      .ok ((r, st'), cw t i' [] m')) :
    Ends env (.uint B mn mx) (.at o p (.num k)) bnd t j i m r i' m' := by
  refine ⟨.uint 0, m1, fun call S => ?_, ?_⟩
  · simp only [mk]
    rw [exec_mem]
    rw [show Store.op (MemOp.zero (.at o p (.num k))) (cw t j S m).mem = .ok m1 from h0]
    rfl
  · obtain ⟨f, st', hf⟩ := h
    obtain ⟨i2, L2, m2, heq, hr⟩ := Runs.of_run hf
    unfold cw at heq
    simp only [World.mk.injEq, Cursor.mk.injEq, true_and, and_true] at heq
    obtain ⟨⟨rfl, rfl⟩, rfl⟩ := heq
    exact hr

/-- An unsigned destination gets the value modulo its range. -/
theorem Ends.uint {o p B mn mx w ds rs rest} (h2 : 2 ≤ B) (h35 : B ≤ 35)
    (hrun : LongestRun B mx ds rs rest) (ht : t.drop i = ds ++ rest) (hm : Has m o p) :
    ∃ m', Ends env (.uint B mn mx) (.at o p (.num (.unsigned w))) bnd t j i m
        (digitRes mn mx 0 ds.length) (i + ds.length) m' ∧
      Sets m o p (.num ((positional B rs : Int) % 2 ^ w)) m' := by
  obtain ⟨m1, h0, h1⟩ := zero_sets (k := .unsigned w) hm
  have hacc : (NumKind.unsigned w).accums (B : Nat) (ds.map (digitValue B)) 0 =
      .ok ((positional B rs : Int) % 2 ^ w) := by
    rw [hrun.digits.values h35]
    exact accums_unsigned rs 0 0 (by simp)
  obtain ⟨m2, h3, h4⟩ := opRun_digits_sets h1 hacc
  refine ⟨m2, Ends.uint_built h0 ?_, h4⟩
  obtain ⟨f, st', hf⟩ := run_uint (env := env) (S := []) (t := t) B mn mx
    (.at o p (.num (.unsigned w))) bnd (ds ++ rest) i 0 m1 ht (by omega)
  rw [Nat.sub_zero, hrun.digitRun h2 h35, List.take_left] at hf
  refine ⟨f, st', ?_⟩
  unfold cw
  rw [hf, h3]
  rfl

end

/-! ### Pairs of digits -/

theorem elab_guidePairs : topParser guidePairs = .rep 0 0 (.clean (.atomic (.uint 10 2 2))) := by rfl

theorem pair_or_none (l : List Ch) (hl : ∀ c ∈ l, IsChar c) :
    (∃ a b c d s, a < 10 ∧ b < 10 ∧ IsDigitSymbol a c ∧ IsDigitSymbol b d ∧ l = c :: d :: s) ∨
    ∃ ds rs rest, ds.length < 2 ∧ LongestRun 10 2 ds rs rest ∧ l = ds ++ rest := by
  by_cases h : TwoDigits l
  · exact .inl h
  · right
    obtain ⟨ds, rs, rest, rfl, h1⟩ := C10_longest_run_exists 10 2 l hl
    refine ⟨ds, rs, rest, ?_, h1, rfl⟩
    have hbd := h1.bound (by decide)
    refine Classical.byContradiction fun hn => ?_
    have h2 : ds.length = 2 := by omega
    obtain ⟨hd, _, _⟩ := h1
    cases hd with
    | nil => simp at h2
    | cons ha hc hd =>
      cases hd with
      | nil => simp at h2
      | cons hb hd' hd'' => exact h ⟨_, _, _, _, _, ha, hb, hc, hd', rfl⟩

/-- Two digits are a number of two digits. -/
theorem longest_pair {a b : Nat} {c d : Ch} {s : List Ch} (ha : a < 10) (hb : b < 10)
    (hc : IsDigitSymbol a c) (hd : IsDigitSymbol b d) : LongestRun 10 2 [c, d] [a, b] s :=
  ⟨.cons ha hc (.cons hb hd .nil), fun _ => Nat.le_refl _, .inl ⟨by decide, rfl⟩⟩

section
variable {env : Env} {bnd : Ref} {t : List Ch} {j i : Nat} {m : Mem} {o : Nat} {p : List Nat}

/-- Appending to a collection. -/
theorem push_sets {ty : Ty} {v e : Val} {vs : List Val} (hc : ty.convert v = .ok e)
    (hr : m.read (.at o p .nil) = .ok (.coll vs)) :
    ∃ m', m.assign (.at o p (.coll ty)) v = .ok m' ∧ Sets m o p (.coll (vs ++ [e])) m' := by
  obtain ⟨m2, h3, h4⟩ := modify_sets (f := fun v => match v with
    | .coll vs => .ok (.coll (vs ++ [e]))
    | _ => .error .noCompile) (b := .coll (vs ++ [e])) hr rfl
  refine ⟨m2, ?_, h4⟩
  simp only [Mem.assign, hc]
  exact h3

theorem read_lt {ty v} (hr : m.read (.at o p ty) = .ok v) : o < m.objs.length := by
  simp only [Mem.read] at hr
  cases ho : m.objs[o]? with
  | none => rw [ho] at hr; cases hr
  | some w => exact lt_of_getElem? ho

theorem Grows.read {m1 ty ty' v} (h : Grows m m1) (hr : m.read (.at o p ty) = .ok v) :
    m1.read (.at o p ty') = .ok v := by
  have ho := read_lt hr
  simp only [Mem.read, h o ho] at hr ⊢
  exact hr

theorem pair_ends {a b : Nat} {c d : Ch} {s vs} (ha : a < 10) (hb : b < 10)
    (hc : IsDigitSymbol a c) (hd : IsDigitSymbol b d) (ht : t.drop i = c :: d :: s)
    (hr : m.read (.at o p .nil) = .ok (.coll vs)) :
    ∃ m', Ends env (.clean (.atomic (.uint 10 2 2))) (.at o p (.coll (.num (.unsigned 16)))) bnd t j i m
        .SUCCESS (i + 2) m' ∧ Sets m o p (.coll (vs ++ [.num (10 * a + b : Nat)])) m' := by
  obtain ⟨m1, h1, h2⟩ := Ends.uint (env := env) (bnd := bnd) (j := j) (w := 16) (mn := 2) (by decide) (by decide)
    (longest_pair (s := s) ha hb hc hd) ht (alloc_has (m := m) (w := .indet))
  have hv : ((positional 10 [a, b] : Int) % 2 ^ 16) = (10 * a + b : Nat) := by
    simp only [positional, List.foldl]
    omega
  rw [hv] at h2
  have hg : Grows m m1 := grows_append.fresh (Nat.le_refl _) h2
  obtain ⟨m2, h3, h4⟩ := push_sets (ty := .num (.unsigned 16)) (v := .num (10 * a + b : Nat))
    (e := .num (10 * a + b : Nat)) (by simp only [Ty.convert, NumKind.wrap, Except.ok.injEq, Val.num.injEq]; omega)
    (hg.read hr)
  refine ⟨m2, .clean (.atomic (m1 := m1) h1 ?_), hg.sets (read_lt hr) h4⟩
  show m1.assignFrom (.at o p (.coll (.num (.unsigned 16)))) (.at m.objs.length [] (.num (.unsigned 16))) = .ok m2
  simp only [Mem.assignFrom, h2.read]
  exact h3

theorem pair_fails {ds rs rest} (hl : ds.length < 2) (hrun : LongestRun 10 2 ds rs rest)
    (ht : t.drop i = ds ++ rest) :
    ∃ m', Ends env (.clean (.atomic (.uint 10 2 2))) (.at o p (.coll (.num (.unsigned 16)))) bnd t j i m
        .FAILURE j m' ∧ Grows m m' := by
  obtain ⟨m1, h1, h2⟩ := Ends.uint (env := env) (bnd := bnd) (j := j) (w := 16) (mn := 2) (by decide) (by decide)
    hrun ht (alloc_has (m := m) (w := .indet))
  rw [digitRes_no hl (.inr (by decide))] at h1
  exact ⟨m1, .clean_fail (.atomic_fail h1), grows_append.fresh (Nat.le_refl _) h2⟩

theorem Pairs.ends {ns s} (h : Pairs ns s) : ∀ {i m vs rest}, t.drop i = s ++ rest →
    (∀ c ∈ t, IsChar c) → ¬ TwoDigits rest → m.read (.at o p .nil) = .ok (.coll vs) →
    ∃ m', StarEnds env (.clean (.atomic (.uint 10 2 2))) (.at o p (.coll (.num (.unsigned 16)))) bnd t i i m
      (i + s.length) m' ∧ Sets m o p (.coll (vs ++ ns.map fun n : Nat => .num n)) m' := by
  induction h with
  | nil =>
    intro i m vs rest hd ht hn hr
    rcases pair_or_none (t.drop i) fun c hc => ht c (List.mem_of_mem_drop hc) with hp | ⟨ds, rs, rest', h1, h2, h3⟩
    · rw [hd] at hp
      exact absurd hp hn
    · obtain ⟨m', h4, h5⟩ := pair_fails (env := env) (bnd := bnd) (o := o) (p := p) (j := i) (m := m) h1 h2 h3
      exact ⟨m', .stop h4, by simpa using h5.same hr⟩
  | @cons a b c d ns s ha hb hc hdd _ ih =>
    intro i m vs rest hd ht hn hr
    obtain ⟨m1, h1, h2⟩ := pair_ends (env := env) (bnd := bnd) (j := i) ha hb hc hdd hd hr
    have hd' : t.drop (i + 2) = s ++ rest := by
      rw [← List.drop_drop, hd]; rfl
    obtain ⟨m2, h3, h4⟩ := ih hd' ht hn (h2.read _)
    refine ⟨m2, .more h1 ?_, by simpa using h2.trans h4⟩
    have e : i + (c :: d :: s).length = i + 2 + s.length := by simp only [List.length_cons]; omega
    rw [e]
    exact h3

theorem exists_pairs : ∀ (n : Nat) (l : List Ch), l.length ≤ n → (∀ c ∈ l, IsChar c) →
    ∃ ns s rest, l = s ++ rest ∧ Pairs ns s ∧ ¬ TwoDigits rest := by
  intro n
  induction n with
  | zero =>
    intro l hl _
    refine ⟨[], [], l, rfl, .nil, ?_⟩
    rintro ⟨_, _, _, _, _, _, _, _, _, rfl⟩
    simp at hl
  | succ n ih =>
    intro l hl hc
    by_cases h : TwoDigits l
    · obtain ⟨a, b, c, d, s, h1, h2, h3, h4, rfl⟩ := h
      obtain ⟨ns, s', rest, rfl, h5, h6⟩ := ih s (by simp only [List.length_cons] at hl; omega)
        fun c h => hc c (by simp [h])
      exact ⟨_, _, rest, rfl, .cons h1 h2 h3 h4 h5, h6⟩
    · exact ⟨[], [], l, rfl, .nil, h⟩

end
end Abu
