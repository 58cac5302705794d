import Verif.Model.Readme
import Verif.Spec.Readme
import Verif.Proofs.CalculatorText
/-
What the parsers of the README do.
-/
namespace Abu

section
variable {env : Env} {P : Prog} {dst bnd : Ref} {t : List Ch} {j i : Nat} {m : Mem} {r : Res}
  {i' : Nat} {m' : Mem}

/-! ### More rules -/

theorem Ends.atomic {m1 m2}
    (h : Ends env P (m.alloc dst.valueType).1 bnd t j i (m.alloc dst.valueType).2 .SUCCESS i' m1)
    (ha : m1.assignFrom dst (m.alloc dst.valueType).1 = .ok m2) :
    Ends env (.atomic P) dst bnd t j i m .SUCCESS i' m2 := by
  obtain ⟨st, m0, hb, hr⟩ := h
  refine ⟨_, _, hb.atomic, .body ?_⟩
  simp only [marks, Abu.body]
  rw [← List.append_nil (List.replicate _ _)]
  refine Fin.call hr fun c' => ?_
  exact Fin.mem ha .ret

theorem Ends.atomic_fail
    (h : Ends env P (m.alloc dst.valueType).1 bnd t j i (m.alloc dst.valueType).2 .FAILURE i' m') :
    Ends env (.atomic P) dst bnd t j i m .FAILURE i' m' := by
  obtain ⟨st, m0, hb, hr⟩ := h
  refine ⟨_, _, hb.atomic, .body ?_⟩
  simp only [marks, Abu.body]
  rw [← List.append_nil (List.replicate _ _)]
  refine Fin.call hr fun c' => ?_
  exact .ret

theorem Ends.construct {tys m1 m2}
    (h : Ends env P (m.alloc (.tup tys)).1 bnd t j i (m.alloc (.tup tys)).2 .SUCCESS i' m1)
    (ha : m1.construct dst (m.alloc (.tup tys)).1 = .ok m2) :
    Ends env (.construct tys P) dst bnd t j i m .SUCCESS i' m2 := by
  obtain ⟨st, m0, hb, hr⟩ := h
  refine ⟨_, _, hb.construct, .body ?_⟩
  simp only [marks, Abu.body]
  rw [← List.append_nil (List.replicate _ _)]
  refine Fin.call hr fun c' => ?_
  exact Fin.mem ha .ret

theorem Ends.construct_fail {tys}
    (h : Ends env P (m.alloc (.tup tys)).1 bnd t j i (m.alloc (.tup tys)).2 .FAILURE i' m') :
    Ends env (.construct tys P) dst bnd t j i m .FAILURE i' m' := by
  obtain ⟨st, m0, hb, hr⟩ := h
  refine ⟨_, _, hb.construct, .body ?_⟩
  simp only [marks, Abu.body]
  rw [← List.append_nil (List.replicate _ _)]
  refine Fin.call hr fun c' => ?_
  exact .ret

end

/-- The items (`false`) and separators (`true`) of a list, from one that was constructed at `j`; the
list has a rollback point at `g`. -/
inductive ListEnds (env : Env) (P S : Prog) (dst bnd : Ref) (t : List Ch) : Bool → Nat → Nat → Nat →
    Mem → Nat → Mem → Prop
  | noItem {g j i m i' m'} : Ends env P dst bnd t j i m .FAILURE i' m' →
      ListEnds env P S dst bnd t false g j i m g m'
  | item {g j i m i1 m1 i' m'} : Ends env P dst bnd t j i m .SUCCESS i1 m1 →
      ListEnds env P S dst bnd t true i1 i1 i1 m1 i' m' → ListEnds env P S dst bnd t false g j i m i' m'
  | noSep {g j i m i' m'} : Ends env S .nil bnd t j i m .FAILURE i' m' →
      ListEnds env P S dst bnd t true g j i m g m'
  | sep {g j i m i1 m1 i' m'} : Ends env S .nil bnd t j i m .SUCCESS i1 m1 →
      ListEnds env P S dst bnd t false g i1 i1 m1 i' m' → ListEnds env P S dst bnd t true g j i m i' m'

section
variable {env : Env} {P S : Prog} {dst bnd : Ref} {t : List Ch} {g j i : Nat} {m : Mem} {r : Res}
  {i' : Nat} {m' : Mem}

theorem ListEnds.runs {b} (hP : marks P = 0) (hS : marks S = 0)
    (h : ListEnds env P S dst bnd t b g j i m i' m') :
    ∃ c m1, Built (if b then S else P) (if b then .nil else dst) bnd t j m c m1 ∧
      Runs env (.list P S) dst bnd (.list b c) t i [g] m1 .SUCCESS i' [] m' := by
  induction h with
  | noItem h =>
    obtain ⟨c, m1, hb, hrun⟩ := h
    refine ⟨c, m1, hb, .body ?_⟩
    simp only [Abu.body]
    rw [hP] at hrun
    rw [← List.nil_append [_]]
    refine Fin.call hrun fun c' => ?_
    exact .commit .ret
  | item h _ ih =>
    obtain ⟨c, m1, hb, hrun⟩ := h
    obtain ⟨c2, m2, hb2, hrun2⟩ := ih
    refine ⟨c, m1, hb, .body ?_⟩
    simp only [Abu.body]
    rw [hP] at hrun
    rw [← List.nil_append [_]]
    refine Fin.call hrun fun c' => ?_
    refine .cancel (.prepare (Fin.mk hb2 (.cont ?_)))
    simp only [if_true, hS, List.replicate_zero, List.nil_append]
    exact hrun2
  | noSep h =>
    obtain ⟨c, m1, hb, hrun⟩ := h
    refine ⟨c, m1, hb, .body ?_⟩
    simp only [Abu.body]
    rw [hS] at hrun
    rw [← List.nil_append [_]]
    refine Fin.call hrun fun c' => ?_
    exact .commit .ret
  | sep h _ ih =>
    obtain ⟨c, m1, hb, hrun⟩ := h
    obtain ⟨c2, m2, hb2, hrun2⟩ := ih
    refine ⟨c, m1, hb, .body ?_⟩
    simp only [Abu.body]
    rw [hS] at hrun
    rw [← List.nil_append [_]]
    refine Fin.call hrun fun c' => ?_
    refine Fin.mk hb2 (.cont ?_)
    simp only [Bool.false_eq_true, if_false, hP, List.replicate_zero, List.nil_append]
    exact hrun2

theorem ListEnds.ends (hP : marks P = 0) (hS : marks S = 0)
    (h : ListEnds env P S dst bnd t false j j i m i' m') :
    Ends env (.list P S) dst bnd t j i m .SUCCESS i' m' := by
  obtain ⟨c, m1, hb, hrun⟩ := h.runs hP hS
  refine ⟨_, _, Built.list hb, ?_⟩
  simp only [marks, hP]
  exact hrun

end

/-! ### Spaces -/

/-- The skipper. -/
def spaceP : Prog := .char (setOfCString [32, 9, 13, 10, 0])

theorem valid_space {c : Ch} (hc : IsChar c) :
    (setOfCString [32, 9, 13, 10, 0]).isValid c = true ↔ Space c := by
  rw [show ([32, 9, 13, 10, 0] : List Ch) = [32, 9, 13, 10] ++ [0] from rfl, valid_set (by decide) hc]
  simp [Space]

/-- The spaces from `i` on end at `k`. -/
inductive Over (t : List Ch) : Nat → Nat → Prop
  | here {i : Nat} : (∀ c, t[i]? = some c → ¬ Space c) → Over t i i
  | more {i k : Nat} {c : Ch} : t[i]? = some c → Space c → Over t (i + 1) k → Over t i k

section
variable {env : Env} {dst bnd : Ref} {t : List Ch} {j i : Nat} {m m' : Mem}

theorem space_stateless : Stateless spaceP .unit := ⟨rfl, fun _ _ _ _ _ => rfl⟩

theorem Ends.runs_space {r i'} (h : Ends env spaceP .nil .nil t i i m r i' m') :
    Runs env spaceP .nil .nil .unit t i [] m r i' [] m' := by
  obtain ⟨st, m1, hb, hr⟩ := h
  have h1 := hb (fun _ _ _ _ _ => .error .stuck) []
  have h2 := space_stateless.built t i m (fun _ _ _ _ _ => .error .stuck) []
  rw [h1] at h2
  simp only [Except.ok.injEq, Prod.mk.injEq, cw, World.mk.injEq] at h2
  obtain ⟨rfl, _, rfl⟩ := h2
  exact hr

theorem Over.skips {k} (ht : ∀ c ∈ t, IsChar c) (h : Over t i k) : Skips env spaceP .unit t i k := by
  induction h with
  | here h =>
    refine .stop fun m => Ends.runs_space (Ends.char_fail fun c hc => ?_)
    rw [Bool.eq_false_iff, ne_eq, valid_space (ht c (List.mem_of_getElem? hc))]
    exact h c hc
  | more h hs _ ih =>
    exact .more (fun m => Ends.runs_space (Ends.char h
      ((valid_space (ht _ (List.mem_of_getElem? h))).2 hs) rfl)) ih

theorem Over.end_at {k} (h : Over t i k) : Over t k k := by
  induction h with
  | here h => exact .here h
  | more _ _ _ ih => exact ih

theorem over_spaces : ∀ {w rest : List Ch} {i : Nat}, t.drop i = w ++ rest → Spaces w →
    (∀ c, t[i + w.length]? = some c → ¬ Space c) → Over t i (i + w.length)
  | [], rest, i, _, _, hn => .here hn
  | c :: w, rest, i, h, hw, hn => by
    obtain ⟨h1, h2, _⟩ := drop_cons h
    have hl : i + (c :: w : List Ch).length = i + 1 + w.length := by simp only [List.length_cons]; omega
    rw [hl] at hn ⊢
    exact .more h1 (hw c (by simp)) (over_spaces h2 (fun c hc => hw c (by simp [hc])) hn)

/-- There are finitely many spaces. -/
theorem exists_over (t : List Ch) (i : Nat) :
    ∃ w, t.drop i = w ++ t.drop (i + w.length) ∧ Spaces w ∧ Over t i (i + w.length) := by
  generalize hl : t.drop i = l
  induction l generalizing i with
  | nil =>
    exact ⟨[], by simp [hl], fun _ h => (by cases h), .here (by simp [(drop_nil hl).2])⟩
  | cons c l ih =>
    obtain ⟨h1, h2, _⟩ := drop_cons hl
    by_cases hc : Space c
    · obtain ⟨w, h3, h4, h6⟩ := ih (i + 1) h2
      have e : i + (c :: w : List Ch).length = i + 1 + w.length := by simp only [List.length_cons]; omega
      refine ⟨c :: w, ?_, ?_, by rw [e]; exact .more h1 hc h6⟩
      · rw [e, List.cons_append, ← h3]
      · intro c' hc'
        rcases List.mem_cons.1 hc' with h | h
        · rw [h]; exact hc
        · exact h4 c' h
    · refine ⟨[], by simp [hl], fun _ h => (by cases h), .here ?_⟩
      intro c' h
      simp only [h1, Option.some.injEq] at h
      rw [← h]; exact hc

theorem over_to {w rest : List Ch} {c : Ch} {x} (ht : t.drop x = w ++ c :: rest) (hw : Spaces w)
    (hc : ¬ Space c) : Over t x (x + w.length) ∧ t[x + w.length]? = some c := by
  have h := (drop_cons (drop_add ht)).1
  refine ⟨over_spaces ht hw ?_, h⟩
  rw [h]
  intro c' h'
  cases h'
  exact hc

theorem Ends.over {P k r i'} (ht : ∀ c ∈ t, IsChar c) (hk : Over t i k)
    (h : Ends env P dst bnd t j k m r i' m') : Ends env (.skip spaceP P) dst bnd t j i m r i' m' :=
  Ends.skip space_stateless (hk.skips ht) h

/-- A literal character. -/
def litW (c : Ch) : Prog := .skip spaceP (.discard (.skip spaceP (.char (.single c))))

theorem Ends.litW {c k} (ht : ∀ c ∈ t, IsChar c) (hk : Over t i k) (hc : t[k]? = some c) :
    Ends env (litW c) .nil bnd t j i m .SUCCESS (k + 1) m :=
  .over ht hk (.discard (.over ht hk.end_at (.char hc (by simp [CharSet.isValid]) rfl)))

theorem Ends.litW_fail {c k} (ht : ∀ c ∈ t, IsChar c) (hk : Over t i k) (hc : t[k]? ≠ some c) :
    Ends env (Abu.litW c) .nil bnd t j i m .FAILURE k m := by
  refine .over ht hk (.discard (.over ht hk.end_at (.char_fail fun c' h => ?_)))
  have : c' ≠ c := by rintro rfl; exact hc h
  simp [CharSet.isValid, this]

/-! ### Numbers -/

theorem Numeral.head {n s} (h : Numeral n s) : ∃ c s', s = c :: s' ∧ ¬ Space c := by
  obtain ⟨sg, neg, ds, rs, hs, hd, hne, _, rfl⟩ := h
  cases hs with
  | none =>
    cases hd with
    | nil => exact absurd rfl hne
    | @cons c r ds rs hr hc _ =>
      have := digit_range hr hc
      refine ⟨c, ds, rfl, ?_⟩
      unfold Space; omega
  | plus => exact ⟨_, _, rfl, by decide⟩
  | minus => exact ⟨_, _, rfl, by decide⟩

theorem noDigit_spaces {w rest : List Ch} {c : Ch} (hw : Spaces w) (hc : IsChar c)
    (hd : ∀ r, r < 10 → ¬ IsDigitSymbol r c) : NoDigitNext 10 (w ++ c :: rest) := by
  intro a l h
  cases w with
  | nil =>
    simp only [List.nil_append, List.cons.injEq] at h
    obtain ⟨rfl, _⟩ := h
    exact ⟨hc, hd⟩
  | cons b w =>
    simp only [List.cons_append, List.cons.injEq] at h
    obtain ⟨rfl, _⟩ := h
    have hb : Space b := hw b (by simp)
    unfold Space at hb
    refine ⟨by unfold IsChar; omega, fun r hr h => ?_⟩
    have := digit_range hr h
    omega

theorem noDigit_char {c : Ch} (h : c = 44 ∨ c = 93) : IsChar c ∧ ¬ Space c ∧
    ∀ r, r < 10 → ¬ IsDigitSymbol r c := by
  refine ⟨by unfold IsChar; omega, by unfold Space; omega, fun r hr hd => ?_⟩
  have := digit_range hr hd
  omega

theorem withSign_natAbs {neg : Bool} {k : Nat} : (withSign neg k).natAbs = k := by
  cases neg <;> simp [withSign]

theorem Ends.numeral {o p k n s rest} (h : Numeral n s) (hv : fitsInt n.natAbs = true)
    (ht : t.drop k = s ++ rest) (hn : NoDigitNext 10 rest) (hm : Has m o p) :
    ∃ m', Ends env (.int 10 1 0) (.at o p .int) bnd t j k m .SUCCESS (k + s.length) m' ∧
      Sets m o p (.num n) m' := by
  obtain ⟨sg, neg, ds, rs, hs, hd, hne, rfl, rfl⟩ := h
  rw [withSign_natAbs] at hv
  exact Ends.int hs hd hne hv ht hn hm

/-- The longest run of digits. -/
theorem exists_digits (l : List Ch) (hl : ∀ c ∈ l, IsChar c) :
    ∃ ds rs rest, l = ds ++ rest ∧ DigitString 10 ds rs ∧ NoDigitNext 10 rest := by
  induction l with
  | nil => exact ⟨[], [], [], rfl, .nil, fun _ _ h => by cases h⟩
  | cons c l ih =>
    by_cases hc : ∃ r, r < 10 ∧ IsDigitSymbol r c
    · obtain ⟨r, hr, hc⟩ := hc
      obtain ⟨ds, rs, rest, rfl, h2, h3⟩ := ih fun c hc => hl c (by simp [hc])
      exact ⟨c :: ds, r :: rs, rest, rfl, .cons hr hc h2, h3⟩
    · refine ⟨[], [], c :: l, rfl, .nil, fun c' l' h => ?_⟩
      cases h
      exact ⟨hl c (by simp), fun r hr h => hc ⟨r, hr, h⟩⟩

/-- Either a number comes next or none does. -/
theorem number_or_none (l : List Ch) (hl : ∀ c ∈ l, IsChar c) :
    (∃ n s rest, l = s ++ rest ∧ Numeral n s ∧ NoDigitNext 10 rest) ∨ NoNumber l := by
  by_cases h : NoNumber l
  · exact .inr h
  · left
    unfold NoNumber at h
    simp only [Classical.not_forall, Classical.not_not] at h
    obtain ⟨sg, neg, c, t', rfl, hs, r, hr, hc⟩ := h
    obtain ⟨ds, rs, rest, rfl, h2, h3⟩ := exists_digits t' fun c hc => hl c (by simp [hc])
    exact ⟨_, sg ++ c :: ds, rest, by simp, ⟨sg, neg, c :: ds, r :: rs, hs, .cons hr hc h2, by simp, rfl, rfl⟩, h3⟩

end
end Abu
