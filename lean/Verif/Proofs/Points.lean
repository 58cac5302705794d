import Verif.Spec.Points
import Verif.Proofs.StackRun
/-
Patterns without optionals remove all the rollback points they create, optionals leave at most one
each, and bounds on how many there are at a time.
-/
namespace Abu

/-! ### Classes without `Optional` -/

mutual
/-- There is no `Optional` in the class. -/
def Prog.noOpt : Prog → Prop
  | .seq _ ps => Prog.noOpts ps
  | .alt ps => Prog.noOpts ps
  | .rep _ _ p => p.noOpt
  | .opt _ => False
  | .not p => p.noOpt
  | .discard p => p.noOpt
  | .lexeme p => p.noOpt
  | .bindDst p => p.noOpt
  | .construct _ p => p.noOpt
  | .action _ p => p.noOpt
  | .except op neg => op.noOpt ∧ neg.noOpt
  | .list op sep => op.noOpt ∧ sep.noOpt
  | .withSkipper p => p.noOpt
  | .recur _ sk => sk.noOpt
  | .atomic p => p.noOpt
  | .clean p => p.noOpt
  | .skip s p => s.noOpt ∧ p.noOpt
  | _ => True
def Prog.noOpts : List Prog → Prop
  | [] => True
  | p :: ps => p.noOpt ∧ Prog.noOpts ps
end

theorem Prog.noOpts_get {ps : List Prog} {k : Nat} {p : Prog} (h : Prog.noOpts ps)
    (hk : ps[k]? = some p) : p.noOpt := by
  induction ps generalizing k with
  | nil => cases hk
  | cons q ps ih =>
    cases k with
    | zero => cases hk; exact h.1
    | succ k => exact ih h.2 hk

theorem adapt_noOpt {sk : Prog} (hs : sk.noOpt) (a b : Bool) {raw : Prog} (h : raw.noOpt) :
    (adapt sk a b raw).noOpt := by
  cases hf : sk.isFail <;> cases a <;> cases b <;>
    simp only [adapt, hf, Prog.noOpt, if_true, if_false, Bool.false_eq_true, hs, h, and_self]

theorem Req.skipper_noOpt {sk : Prog} (r : Req) (h : sk.noOpt) : (r.skipper sk).noOpt := by
  unfold Req.skipper; split
  · trivial
  · exact h

mutual
theorem elabP_noOpt : ∀ (p : Pat) (sk : Prog) (r : Req), sk.noOpt → p.noOptional = true →
    (elabP sk r p).noOpt
  | .char _, sk, r, hs, h | .charSymbol _, sk, r, hs, h | .strLit _, sk, r, hs, h
  | .symbol _, sk, r, hs, h | .int .., sk, r, hs, h | .uint .., sk, r, hs, h | .eoi, sk, r, hs, h
  | .pass, sk, r, hs, h | .fail, sk, r, hs, h => by
    rw [elabP]; exact adapt_noOpt (r.skipper_noOpt hs) _ _ trivial
  | .recur id b, sk, r, hs, h => by
    rw [elabP]; exact adapt_noOpt (r.skipper_noOpt hs) _ _ hs
  | .seq ps, sk, r, hs, h => by
    rw [elabP]; exact adapt_noOpt (r.skipper_noOpt hs) _ _ (elabPs_noOpt ps sk _ hs h)
  | .alt ps, sk, r, hs, h => by
    rw [elabP]; exact adapt_noOpt (r.skipper_noOpt hs) _ _ (elabPs_noOpt ps sk _ hs h)
  | .rep mn mx p, sk, r, hs, h => by
    rw [elabP]; exact adapt_noOpt (r.skipper_noOpt hs) _ _ (elabP_noOpt p _ _ hs h)
  | .opt p, sk, r, hs, h => by cases h
  | .not p, sk, r, hs, h => by
    rw [elabP]; exact adapt_noOpt (r.skipper_noOpt hs) _ _ (elabP_noOpt p _ _ hs h)
  | .discard p, sk, r, hs, h => by
    rw [elabP]; exact adapt_noOpt (r.skipper_noOpt hs) _ _ (elabP_noOpt p _ _ hs h)
  | .lexeme p, sk, r, hs, h => by
    rw [elabP]; exact adapt_noOpt (r.skipper_noOpt hs) _ _ (elabP_noOpt p _ _ trivial h)
  | .bindDst p, sk, r, hs, h => by
    rw [elabP]; exact adapt_noOpt (r.skipper_noOpt hs) _ _ (elabP_noOpt p _ _ hs h)
  | .construct _ p, sk, r, hs, h => by
    rw [elabP]; exact adapt_noOpt (r.skipper_noOpt hs) _ _ (elabP_noOpt p _ _ hs h)
  | .action _ p, sk, r, hs, h => by
    rw [elabP]; exact adapt_noOpt (r.skipper_noOpt hs) _ _ (elabP_noOpt p _ _ hs h)
  | .except op neg, sk, r, hs, h => by
    rw [Pat.noOptional, Bool.and_eq_true] at h
    rw [elabP]
    exact adapt_noOpt (r.skipper_noOpt hs) _ _
      ⟨elabP_noOpt op _ _ hs h.1, elabP_noOpt neg _ _ hs h.2⟩
  | .list op sep, sk, r, hs, h => by
    rw [Pat.noOptional, Bool.and_eq_true] at h
    rw [elabP]
    exact adapt_noOpt (r.skipper_noOpt hs) _ _
      ⟨elabP_noOpt op _ _ hs h.1, elabP_noOpt sep _ _ hs h.2⟩
  | .withSkipper p s, sk, r, hs, h => by
    rw [Pat.noOptional, Bool.and_eq_true] at h
    rw [elabP]
    exact adapt_noOpt (r.skipper_noOpt hs) _ _
      (elabP_noOpt p _ _ (elabP_noOpt s _ _ trivial h.2) h.1)
theorem elabPs_noOpt : ∀ (ps : List Pat) (sk : Prog) (r : Req), sk.noOpt →
    Pat.noOptionals ps = true → Prog.noOpts (elabPs sk r ps)
  | [], _, _, _, _ => trivial
  | p :: ps, sk, r, hs, h => by
    rw [Pat.noOptionals, Bool.and_eq_true] at h
    rw [elabPs]
    exact ⟨elabP_noOpt p _ _ hs h.1, elabPs_noOpt ps _ _ hs h.2⟩
end

/-! ### Classes with `Optional` outside loops -/

mutual
/-- There is no `Optional` in what is run repeatedly. -/
def Prog.fewOpt : Prog → Prop
  | .seq _ ps => Prog.fewOpts ps
  | .alt ps => Prog.fewOpts ps
  | .rep _ _ p => p.noOpt
  | .opt p => p.fewOpt
  | .not p => p.fewOpt
  | .discard p => p.fewOpt
  | .lexeme p => p.fewOpt
  | .bindDst p => p.fewOpt
  | .construct _ p => p.fewOpt
  | .action _ p => p.fewOpt
  | .except op neg => op.fewOpt ∧ neg.fewOpt
  | .list op sep => op.noOpt ∧ sep.noOpt
  | .withSkipper p => p.fewOpt
  | .recur _ sk => sk.noOpt
  | .atomic p => p.fewOpt
  | .clean p => p.fewOpt
  | .skip s p => s.noOpt ∧ p.fewOpt
  | _ => True
def Prog.fewOpts : List Prog → Prop
  | [] => True
  | p :: ps => p.fewOpt ∧ Prog.fewOpts ps
end

mutual
/-- How many rollback points the class may leave behind. -/
def Prog.stale : Prog → Nat
  | .seq _ ps => Prog.staleAll ps
  | .alt ps => Prog.staleAll ps
  | .opt p => p.stale + 1
  | .not p => p.stale
  | .discard p => p.stale
  | .lexeme p => p.stale
  | .bindDst p => p.stale
  | .construct _ p => p.stale
  | .action _ p => p.stale
  | .except op neg => op.stale + neg.stale
  | .withSkipper p => p.stale
  | .atomic p => p.stale
  | .clean p => p.stale
  | .skip _ p => p.stale
  | _ => 0
def Prog.staleAll : List Prog → Nat
  | [] => 0
  | p :: ps => p.stale + Prog.staleAll ps
end

theorem Prog.fewOpts_get {ps : List Prog} {k : Nat} {p : Prog} (h : Prog.fewOpts ps)
    (hk : ps[k]? = some p) : p.fewOpt := by
  induction ps generalizing k with
  | nil => cases hk
  | cons q ps ih =>
    cases k with
    | zero => cases hk; exact h.1
    | succ k => exact ih h.2 hk

mutual
theorem Prog.fewOpt_of_noOpt : ∀ (p : Prog), p.noOpt → p.fewOpt ∧ p.stale = 0
  | .char _, _ | .charSymbol _, _ | .strLit _, _ | .symbol _, _ | .int .., _ | .uint .., _
  | .eoi, _ | .pass, _ | .fail, _ => ⟨trivial, rfl⟩
  | .seq _ ps, h => Prog.fewOpts_of_noOpts ps h
  | .alt ps, h => Prog.fewOpts_of_noOpts ps h
  | .rep _ _ p, h => ⟨h, rfl⟩
  | .opt p, h => absurd h fun h => h
  | .not p, h => Prog.fewOpt_of_noOpt p h
  | .discard p, h => Prog.fewOpt_of_noOpt p h
  | .lexeme p, h => Prog.fewOpt_of_noOpt p h
  | .bindDst p, h => Prog.fewOpt_of_noOpt p h
  | .construct _ p, h => Prog.fewOpt_of_noOpt p h
  | .action _ p, h => Prog.fewOpt_of_noOpt p h
  | .except op neg, h => by
    have h1 := Prog.fewOpt_of_noOpt op h.1
    have h2 := Prog.fewOpt_of_noOpt neg h.2
    exact ⟨⟨h1.1, h2.1⟩, by rw [Prog.stale, h1.2, h2.2]⟩
  | .list op sep, h => ⟨h, rfl⟩
  | .withSkipper p, h => Prog.fewOpt_of_noOpt p h
  | .recur _ _, h => ⟨h, rfl⟩
  | .atomic p, h => Prog.fewOpt_of_noOpt p h
  | .clean p, h => Prog.fewOpt_of_noOpt p h
  | .skip s p, h => by
    have h2 := Prog.fewOpt_of_noOpt p h.2
    exact ⟨⟨h.1, h2.1⟩, h2.2⟩
theorem Prog.fewOpts_of_noOpts : ∀ (ps : List Prog), Prog.noOpts ps →
    Prog.fewOpts ps ∧ Prog.staleAll ps = 0
  | [], _ => ⟨trivial, rfl⟩
  | p :: ps, h => by
    have h1 := Prog.fewOpt_of_noOpt p h.1
    have h2 := Prog.fewOpts_of_noOpts ps h.2
    exact ⟨⟨h1.1, h2.1⟩, by rw [Prog.staleAll, h1.2, h2.2]⟩
end

mutual
theorem Prog.stale_lt_weight (f : Nat → Nat) : ∀ (p : Prog), p.stale + 1 ≤ p.weight f
  | .char _ | .charSymbol _ | .strLit _ | .symbol _ | .int .. | .uint ..
  | .eoi | .pass | .fail => by simp [Prog.stale, Prog.weight]
  | .seq _ ps => by
    have := Prog.staleAll_le_weight f ps
    rw [Prog.stale, Prog.weight]; omega
  | .alt ps => by
    have := Prog.staleAll_le_weight f ps
    rw [Prog.stale, Prog.weight]; omega
  | .rep _ _ p => by simp [Prog.stale, Prog.weight]
  | .opt p | .not p | .discard p | .lexeme p | .bindDst p | .construct _ p | .action _ p
  | .withSkipper p | .atomic p | .clean p => by
    have := Prog.stale_lt_weight f p
    rw [Prog.stale, Prog.weight]; omega
  | .except op neg => by
    have := Prog.stale_lt_weight f op
    have := Prog.stale_lt_weight f neg
    rw [Prog.stale, Prog.weight]; omega
  | .list op sep => by simp [Prog.stale, Prog.weight]
  | .recur _ _ => by simp [Prog.stale, Prog.weight]
  | .skip s p => by
    have := Prog.stale_lt_weight f p
    rw [Prog.stale, Prog.weight]; omega
theorem Prog.staleAll_le_weight (f : Nat → Nat) : ∀ (ps : List Prog),
    Prog.staleAll ps ≤ Prog.weightAll f ps
  | [] => Nat.le_refl _
  | p :: ps => by
    have := Prog.stale_lt_weight f p
    have := Prog.staleAll_le_weight f ps
    rw [Prog.staleAll, Prog.weightAll]; omega
end

/-- What the first `i` classes may leave behind. -/
abbrev Prog.staleTo (ps : List Prog) (i : Nat) : Nat := Prog.staleAll (ps.take i)

theorem Prog.staleTo_succ {ps : List Prog} {i : Nat} {p : Prog} (h : ps[i]? = some p) :
    Prog.staleTo ps (i + 1) = Prog.staleTo ps i + p.stale := by
  unfold Prog.staleTo
  induction ps generalizing i with
  | nil => cases h
  | cons q ps ih =>
    cases i with
    | zero => cases h; simp [Prog.staleAll]
    | succ i =>
      rw [List.take_succ_cons, List.take_succ_cons, Prog.staleAll, Prog.staleAll, ih h, Nat.add_assoc]

theorem Prog.staleTo_le {ps : List Prog} {i : Nat} {p : Prog} (h : ps[i]? = some p) :
    Prog.staleTo ps i + p.stale ≤ Prog.staleAll ps := by
  unfold Prog.staleTo
  induction ps generalizing i with
  | nil => cases h
  | cons q ps ih =>
    cases i with
    | zero => cases h; simp [Prog.staleAll]
    | succ i =>
      have := ih (i := i) h
      rw [List.take_succ_cons, Prog.staleAll, Prog.staleAll]; omega

theorem Prog.staleTo_weight (f : Nat → Nat) {ps : List Prog} {i : Nat} {p : Prog}
    (h : ps[i]? = some p) : Prog.staleTo ps i + p.weight f ≤ Prog.weightAll f ps := by
  unfold Prog.staleTo
  induction ps generalizing i with
  | nil => cases h
  | cons q ps ih =>
    cases i with
    | zero => cases h; simp [Prog.staleAll, Prog.weightAll]
    | succ i =>
      have := ih (i := i) h
      have := Prog.stale_lt_weight f q
      rw [List.take_succ_cons, Prog.staleAll, Prog.weightAll]; omega

theorem adapt_fewOpt {sk : Prog} (hs : sk.noOpt) (a b : Bool) {raw : Prog} {n : Nat}
    (h : raw.fewOpt ∧ raw.stale ≤ n) :
    (adapt sk a b raw).fewOpt ∧ (adapt sk a b raw).stale ≤ n := by
  cases hf : sk.isFail <;> cases a <;> cases b <;>
    simp only [adapt, hf, Prog.fewOpt, Prog.stale, if_true, if_false, Bool.false_eq_true, hs, h,
      and_self]

mutual
theorem elabP_fewOpt : ∀ (p : Pat) (sk : Prog) (r : Req), sk.noOpt →
    p.optionalsOutsideLoops = true →
    (elabP sk r p).fewOpt ∧ (elabP sk r p).stale ≤ p.optionals
  | .char _, sk, r, hs, h | .charSymbol _, sk, r, hs, h | .strLit _, sk, r, hs, h
  | .symbol _, sk, r, hs, h | .int .., sk, r, hs, h | .uint .., sk, r, hs, h | .eoi, sk, r, hs, h
  | .pass, sk, r, hs, h | .fail, sk, r, hs, h => by
    rw [elabP]; exact adapt_fewOpt (r.skipper_noOpt hs) _ _ ⟨trivial, Nat.zero_le _⟩
  | .recur id b, sk, r, hs, h => by
    rw [elabP]; exact adapt_fewOpt (r.skipper_noOpt hs) _ _ (⟨hs, Nat.zero_le _⟩)
  | .seq ps, sk, r, hs, h => by
    rw [elabP]; exact adapt_fewOpt (r.skipper_noOpt hs) _ _ (elabPs_fewOpt ps sk _ hs h)
  | .alt ps, sk, r, hs, h => by
    rw [elabP]; exact adapt_fewOpt (r.skipper_noOpt hs) _ _ (elabPs_fewOpt ps sk _ hs h)
  | .rep mn mx p, sk, r, hs, h => by
    rw [elabP]; exact adapt_fewOpt (r.skipper_noOpt hs) _ _ (⟨elabP_noOpt p _ _ hs h, Nat.zero_le _⟩)
  | .opt p, sk, r, hs, h => by
    have := elabP_fewOpt p sk ⟨true, false, r.CONSUMES, false⟩ hs h
    rw [elabP]
    exact adapt_fewOpt (r.skipper_noOpt hs) _ _ ⟨this.1, Nat.succ_le_succ this.2⟩
  | .not p, sk, r, hs, h => by
    rw [elabP]; exact adapt_fewOpt (r.skipper_noOpt hs) _ _ (elabP_fewOpt p _ _ hs h)
  | .discard p, sk, r, hs, h => by
    rw [elabP]; exact adapt_fewOpt (r.skipper_noOpt hs) _ _ (elabP_fewOpt p _ _ hs h)
  | .bindDst p, sk, r, hs, h => by
    rw [elabP]; exact adapt_fewOpt (r.skipper_noOpt hs) _ _ (elabP_fewOpt p _ _ hs h)
  | .construct _ p, sk, r, hs, h => by
    rw [elabP]; exact adapt_fewOpt (r.skipper_noOpt hs) _ _ (elabP_fewOpt p _ _ hs h)
  | .action _ p, sk, r, hs, h => by
    rw [elabP]; exact adapt_fewOpt (r.skipper_noOpt hs) _ _ (elabP_fewOpt p _ _ hs h)
  | .lexeme p, sk, r, hs, h => by
    rw [elabP]; exact adapt_fewOpt (r.skipper_noOpt hs) _ _ (elabP_fewOpt p _ _ trivial h)
  | .except op neg, sk, r, hs, h => by
    rw [Pat.optionalsOutsideLoops, Bool.and_eq_true] at h
    rw [elabP]
    have h1 := fun r => elabP_fewOpt op sk r hs h.1
    have h2 := fun r => elabP_fewOpt neg sk r hs h.2
    exact adapt_fewOpt (r.skipper_noOpt hs) _ _
      ⟨⟨(h1 _).1, (h2 _).1⟩, Nat.add_le_add (h1 _).2 (h2 _).2⟩
  | .list op sep, sk, r, hs, h => by
    rw [Pat.optionalsOutsideLoops, Bool.and_eq_true] at h
    rw [elabP]
    exact adapt_fewOpt (r.skipper_noOpt hs) _ _
      ⟨⟨elabP_noOpt op _ _ hs h.1, elabP_noOpt sep _ _ hs h.2⟩, Nat.zero_le _⟩
  | .withSkipper p s, sk, r, hs, h => by
    rw [Pat.optionalsOutsideLoops, Bool.and_eq_true] at h
    rw [elabP]
    have h1 := fun r => elabP_fewOpt p _ r (elabP_noOpt s .fail SkipReqs trivial h.2) h.1
    exact adapt_fewOpt (r.skipper_noOpt hs) _ _
      ⟨(h1 _).1, Nat.le_trans (h1 _).2 (Nat.le_add_right _ _)⟩
theorem elabPs_fewOpt : ∀ (ps : List Pat) (sk : Prog) (r : Req), sk.noOpt →
    Pat.optionalsOutsideLoopsAll ps = true →
    Prog.fewOpts (elabPs sk r ps) ∧ Prog.staleAll (elabPs sk r ps) ≤ Pat.optionalsAll ps
  | [], _, _, _, _ => ⟨trivial, Nat.le_refl _⟩
  | p :: ps, sk, r, hs, h => by
    rw [Pat.optionalsOutsideLoopsAll, Bool.and_eq_true] at h
    have h1 := elabP_fewOpt p sk r hs h.1
    have h2 := elabPs_fewOpt ps sk r hs h.2
    rw [elabPs]
    exact ⟨⟨h1.1, h2.1⟩, Nat.add_le_add h1.2 h2.2⟩
end

mutual
theorem Pat.few_of_noOptional : ∀ (p : Pat), p.noOptional = true →
    p.optionalsOutsideLoops = true ∧ p.optionals = 0
  | .char _, _ | .charSymbol _, _ | .strLit _, _ | .symbol _, _ | .int .., _ | .uint .., _
  | .eoi, _ | .pass, _ | .fail, _ | .recur .., _ => ⟨rfl, rfl⟩
  | .seq ps, h => Pat.few_of_noOptionals ps h
  | .alt ps, h => Pat.few_of_noOptionals ps h
  | .rep _ _ p, h => ⟨h, (Pat.few_of_noOptional p h).2⟩
  | .opt p, h => by cases h
  | .not p, h => Pat.few_of_noOptional p h
  | .discard p, h => Pat.few_of_noOptional p h
  | .lexeme p, h => Pat.few_of_noOptional p h
  | .bindDst p, h => Pat.few_of_noOptional p h
  | .construct _ p, h => Pat.few_of_noOptional p h
  | .action _ p, h => Pat.few_of_noOptional p h
  | .except op neg, h => by
    rw [Pat.noOptional, Bool.and_eq_true] at h
    have h1 := Pat.few_of_noOptional op h.1
    have h2 := Pat.few_of_noOptional neg h.2
    exact ⟨by rw [Pat.optionalsOutsideLoops, h1.1, h2.1]; rfl, by rw [Pat.optionals, h1.2, h2.2]⟩
  | .list op sep, h => by
    have h' := h
    rw [Pat.noOptional, Bool.and_eq_true] at h
    exact ⟨h', by rw [Pat.optionals, (Pat.few_of_noOptional op h.1).2,
      (Pat.few_of_noOptional sep h.2).2]⟩
  | .withSkipper p s, h => by
    rw [Pat.noOptional, Bool.and_eq_true] at h
    have h1 := Pat.few_of_noOptional p h.1
    have h2 := Pat.few_of_noOptional s h.2
    exact ⟨by rw [Pat.optionalsOutsideLoops, h1.1, h.2]; rfl, by rw [Pat.optionals, h1.2, h2.2]⟩
theorem Pat.few_of_noOptionals : ∀ (ps : List Pat), Pat.noOptionals ps = true →
    Pat.optionalsOutsideLoopsAll ps = true ∧ Pat.optionalsAll ps = 0
  | [], _ => ⟨rfl, rfl⟩
  | p :: ps, h => by
    rw [Pat.noOptionals, Bool.and_eq_true] at h
    have h1 := Pat.few_of_noOptional p h.1
    have h2 := Pat.few_of_noOptionals ps h.2
    exact ⟨by rw [Pat.optionalsOutsideLoopsAll, h1.1, h2.1]; rfl,
      by rw [Pat.optionalsAll, h1.2, h2.2]⟩
end

/-! ### States -/

/-- `PointsHeld env f p st n`: `st` is a possible state of a parser object of class `p`, which has
created at most `n` rollback points that are still there: those it still has to remove, and those
its finished parts may have left. What follows a skipper has not been called yet. -/
inductive PointsHeld (env : Env) (f : Nat → Nat) : Prog → PState → Nat → Prop
  | char {s} : PointsHeld env f (.char s) .unit 0
  | charSymbol {m} : PointsHeld env f (.charSymbol m) .unit 0
  | strLit {s k} : PointsHeld env f (.strLit s) (.strLit k) 0
  | symbolNone {r n} : PointsHeld env f (.symbol r) (.symbol n none) 0
  | symbolSome {r n v} : PointsHeld env f (.symbol r) (.symbol n (some v)) 1
  | int {b mn mx n l g} : PointsHeld env f (.int b mn mx) (.int n l g) 0
  | uint {b mn mx n} : PointsHeld env f (.uint b mn mx) (.uint n) 0
  | eoi : PointsHeld env f .eoi .unit 0
  | pass : PointsHeld env f .pass .unit 0
  | fail : PointsHeld env f .fail .unit 0
  | seq {slots ps i p s c n} : ps[i]? = some p → slots[i]? = some s → PointsHeld env f p c n →
      PointsHeld env f (.seq slots ps) (.seq i c) (n + Prog.staleTo ps i)
  | alt {ps i p c n} : ps[i]? = some p → PointsHeld env f p c n →
      PointsHeld env f (.alt ps) (.alt i c) (n + Prog.staleTo ps i)
  | rep {mn mx p k c n} : PointsHeld env f p c n → PointsHeld env f (.rep mn mx p) (.rep k c) n
  | opt {p c n} : PointsHeld env f p c n → PointsHeld env f (.opt p) (.wrap c) (n + 1)
  | not {p c n} : PointsHeld env f p c n → PointsHeld env f (.not p) (.wrap c) (n + 1)
  | discard {p c n} : PointsHeld env f p c n → PointsHeld env f (.discard p) (.wrap c) n
  | lexeme {p c n} : PointsHeld env f p c n → PointsHeld env f (.lexeme p) (.wrap c) n
  | bindDst {p c n} : PointsHeld env f p c n → PointsHeld env f (.bindDst p) (.wrap c) n
  | construct {tys p b c n} : PointsHeld env f p c n → PointsHeld env f (.construct tys p) (.buffered b c) n
  | action {a p b c n} : PointsHeld env f p c n → PointsHeld env f (.action a p) (.buffered b c) n
  | exceptNeg {op neg c n} : PointsHeld env f neg c n → PointsHeld env f (.except op neg) (.except false c) n
  | exceptOp {op neg c n} : PointsHeld env f op c n →
      PointsHeld env f (.except op neg) (.except true c) (n + neg.stale)
  | listOp {op sep c n} : PointsHeld env f op c n → PointsHeld env f (.list op sep) (.list false c) (n + 1)
  | listSep {op sep c n} : PointsHeld env f sep c n → PointsHeld env f (.list op sep) (.list true c) (n + 1)
  | withSkipper {p c n} : PointsHeld env f p c n → PointsHeld env f (.withSkipper p) (.wrap c) n
  | recurNone {id sk} : PointsHeld env f (.recur id sk) .recurNone 0
  | recurSome {id sk q c n} : env id = some q → PointsHeld env f (elabP sk RecurChildReqs q) c n →
      PointsHeld env f (.recur id sk) (.recurSome c) n
  | atomic {p b c n} : PointsHeld env f p c n → PointsHeld env f (.atomic p) (.buffered b c) n
  | clean {p c n} : PointsHeld env f p c n → PointsHeld env f (.clean p) (.wrap c) (n + 1)
  | skipping {s p sc c n k} : PointsHeld env f s sc n → PointsHeld env f p c k → k ≤ p.weight f →
      PointsHeld env f (.skip s p) (.skip false sc c) (n + k)
  | skipped {s p sc c k} : PointsHeld env f p c k → PointsHeld env f (.skip s p) (.skip true sc c) k

/-- How the number of rollback points, and the largest there has been, follow the operations. -/
structure Gauge (σ : Type) [DataSource σ] where
  pts : σ → Nat
  peak : σ → Nat
  advance : ∀ {s s'}, DataSource.advance s = some s' → pts s' = pts s ∧ peak s' = peak s
  prepare : ∀ s, pts (DataSource.prepare s) = pts s + 1 ∧
    peak (DataSource.prepare s) = max (peak s) (pts s + 1)
  commit : ∀ {s s'}, DataSource.commit s = some s' → pts s = pts s' + 1 ∧ peak s' = peak s
  cancel : ∀ {s s'}, DataSource.cancel s = some s' → pts s = pts s' + 1 ∧ peak s' = peak s

section
variable {σ μ : Type} [DataSource σ] [Store μ]
  {call : Prog → Ref → Ref → PState → World σ μ → Out σ μ (Res × PState)}

/-- If there is an outcome, it satisfies the postcondition. -/
def Then {α : Type} (Q : α → World σ μ → Prop) (out : Out σ μ α) : Prop :=
  ∀ a w, out = .ok (a, w) → Q a w

theorem Then.ok {α : Type} {Q : α → World σ μ → Prop} {a w} (h : Q a w) : Then Q (.ok (a, w)) := by
  intro a' w' he; cases he; exact h

theorem Then.error {α : Type} {Q : α → World σ μ → Prop} {e} : Then Q (.error e) := by
  intro a' w' he; cases he

theorem Then.imp {α : Type} {Q Q' : α → World σ μ → Prop} {x : Out σ μ α} (h : Then Q x)
    (hQ : ∀ a w, Q a w → Q' a w) : Then Q' x := fun a w he => hQ a w (h a w he)

theorem then_bind {α β : Type} {Q : β → World σ μ → Prop} {x : Cmd α} {f : α → Cmd β}
    {w : World σ μ} (h : Then (fun a w' => Then Q (exec call (f a) w')) (exec call x w)) :
    Then Q (exec call (x.bind f) w) := by
  rw [exec_bind]
  cases hx : exec call x w with
  | error e => exact .error
  | ok y => obtain ⟨a, w'⟩ := y; exact h _ _ hx

theorem then_mem {α : Type} {Q : α → World σ μ → Prop} {o : MemOp} {k : Cmd α} {w : World σ μ}
    (h : ∀ m, Then Q (exec call k ⟨w.ds, m⟩)) : Then Q (exec call (.mem o k) w) := by
  simp only [exec]
  cases hx : Store.op o w.mem with
  | error e => exact .error
  | ok m => exact h m

theorem then_call {α : Type} {Q : α → World σ μ → Prop} {p d b st} {k : Res → PState → Cmd α}
    {w : World σ μ} (h : Then (fun x w' => Then Q (exec call (k x.1 x.2) w')) (call p d b st w)) :
    Then Q (exec call (.call p d b st k) w) := by
  simp only [exec]
  cases hx : call p d b st w with
  | error e => exact .error
  | ok y => obtain ⟨⟨r, s⟩, w'⟩ := y; exact h _ _ hx

theorem then_guarded {Q : Step → World σ μ → Prop} {st A B} {w : World σ μ}
    (hA : Then Q (exec call A w)) (hP : Q (.ret .PARTIAL st) w)
    (hB : ∀ c, Then Q (exec call (B c) w)) : Then Q (exec call (guarded st A B) w) := by
  simp only [guarded, exec]
  cases DataSource.empty w.ds
  · simp only [Bool.false_eq_true, if_false, exec]
    cases DataSource.next w.ds with
    | none => exact .error
    | some c => exact hB c
  · simp only [if_true, exec]
    cases DataSource.final w.ds
    · simp only [Bool.false_eq_true, if_false, exec]; exact .ok hP
    · simp only [if_true]; exact hA

/-- There are at most `n` rollback points, and there have never been more than `P`. -/
def Gauge.At (g : Gauge σ) (P n : Nat) (w : World σ μ) : Prop :=
  g.pts w.ds ≤ n ∧ g.peak w.ds ≤ P ∧ g.pts w.ds ≤ g.peak w.ds

theorem Gauge.At.mono {g : Gauge σ} {P n n' : Nat} {w : World σ μ} (h : g.At P n w) (hn : n ≤ n') :
    g.At P n' w := ⟨Nat.le_trans h.1 hn, h.2⟩

variable {g : Gauge σ} {P : Nat}

theorem then_advance {α : Type} {Q : α → World σ μ → Prop} {k : Cmd α} {w : World σ μ} {n}
    (h0 : g.At P n w) (h : ∀ w', g.At P n w' → Then Q (exec call k w')) :
    Then Q (exec call (.advance k) w) := by
  simp only [exec]
  cases hx : DataSource.advance w.ds with
  | none => exact .error
  | some s =>
    have := g.advance hx
    have h1 := h0.1
    have h2 := h0.2
    exact h _ ⟨by show g.pts s ≤ n; omega, by show g.peak s ≤ P; omega,
      by show g.pts s ≤ g.peak s; omega⟩

theorem then_prepare {α : Type} {Q : α → World σ μ → Prop} {k : Cmd α} {w : World σ μ} {n}
    (h0 : g.At P n w) (hn : n + 1 ≤ P) (h : ∀ w', g.At P (n + 1) w' → Then Q (exec call k w')) :
    Then Q (exec call (.prepare k) w) := by
  simp only [exec]
  have := g.prepare w.ds
  have h1 := h0.1
  have h2 := h0.2
  refine h _ ⟨?_, ?_, ?_⟩
  · show g.pts (DataSource.prepare w.ds) ≤ n + 1; omega
  · show g.peak (DataSource.prepare w.ds) ≤ P; omega
  · show g.pts (DataSource.prepare w.ds) ≤ g.peak (DataSource.prepare w.ds); omega

theorem then_commit {α : Type} {Q : α → World σ μ → Prop} {k : Cmd α} {w : World σ μ} {n}
    (h0 : g.At P (n + 1) w) (h : ∀ w', g.At P n w' → Then Q (exec call k w')) :
    Then Q (exec call (.commit k) w) := by
  simp only [exec]
  cases hx : DataSource.commit w.ds with
  | none => exact .error
  | some s =>
    have := g.commit hx
    have h1 := h0.1
    have h2 := h0.2
    exact h _ ⟨by show g.pts s ≤ n; omega, by show g.peak s ≤ P; omega,
      by show g.pts s ≤ g.peak s; omega⟩

theorem then_cancel {α : Type} {Q : α → World σ μ → Prop} {k : Cmd α} {w : World σ μ} {n}
    (h0 : g.At P (n + 1) w) (h : ∀ w', g.At P n w' → Then Q (exec call k w')) :
    Then Q (exec call (.cancel k) w) := by
  simp only [exec]
  cases hx : DataSource.cancel w.ds with
  | none => exact .error
  | some s =>
    have := g.cancel hx
    have h1 := h0.1
    have h2 := h0.2
    exact h _ ⟨by show g.pts s ≤ n; omega, by show g.peak s ≤ P; omega,
      by show g.pts s ≤ g.peak s; omega⟩

variable {env : Env} {f : Nat → Nat}

/-- Construction. -/
theorem mk_holds (p : Prog) : ∀ dst bnd (w : World σ μ) (k : Nat), p.fewOpt → g.At P k w →
    k + p.weight f ≤ P →
    Then (fun st w' => ∃ n, PointsHeld env f p st n ∧ n ≤ p.weight f ∧ g.At P (n + k) w')
      (exec call (mk p dst bnd) w) := by
  have one : ∀ {p dst bnd} {h : PState → PState} {q} {w : World σ μ} {k : Nat},
      (∀ (w : World σ μ) (k : Nat), p.fewOpt → g.At P k w → k + p.weight f ≤ P →
        Then (fun st w' => ∃ n, PointsHeld env f p st n ∧ n ≤ p.weight f ∧ g.At P (n + k) w')
          (exec call (mk p dst bnd) w)) →
      p.fewOpt → g.At P k w → k + q.weight f ≤ P → p.weight f ≤ q.weight f →
      (∀ {c n}, PointsHeld env f p c n → PointsHeld env f q (h c) n) →
      Then (fun st w' => ∃ n, PointsHeld env f q st n ∧ n ≤ q.weight f ∧ g.At P (n + k) w')
        (exec call ((mk p dst bnd).bind fun c => .pure (h c)) w) := by
    intro p dst bnd h q w k hm hno h0 hk hpq hf
    refine then_bind ((hm w k hno h0 (by omega)).imp fun c w' ⟨n, h1, h2, h3⟩ => ?_)
    exact .ok ⟨n, hf h1, by omega, h3⟩
  have two : ∀ {p dst bnd} {h : PState → PState} {q} {w : World σ μ} {k : Nat},
      (∀ (w : World σ μ) (k : Nat), p.fewOpt → g.At P k w → k + p.weight f ≤ P →
        Then (fun st w' => ∃ n, PointsHeld env f p st n ∧ n ≤ p.weight f ∧ g.At P (n + k) w')
          (exec call (mk p dst bnd) w)) →
      p.fewOpt → g.At P k w → k + q.weight f ≤ P → p.weight f + 1 ≤ q.weight f →
      (∀ {c n}, PointsHeld env f p c n → PointsHeld env f q (h c) (n + 1)) →
      Then (fun st w' => ∃ n, PointsHeld env f q st n ∧ n ≤ q.weight f ∧ g.At P (n + k) w')
        (exec call ((mk p dst bnd).bind fun c => .prepare (.pure (h c))) w) := by
    intro p dst bnd h q w k hm hno h0 hk hpq hf
    refine then_bind ((hm w k hno h0 (by omega)).imp fun c w' ⟨n, h1, h2, h3⟩ => ?_)
    refine then_prepare h3 (by omega) fun w'' h4 => .ok ⟨n + 1, hf h1, by omega, ?_⟩
    rw [Nat.add_right_comm]; exact h4
  intro dst bnd
  fun_induction mk p dst bnd with
  | case1 => intro w k _ h _; exact .ok ⟨0, .char, by omega, by rw [Nat.zero_add]; exact h⟩
  | case2 => intro w k _ h _; exact .ok ⟨0, .charSymbol, by omega, by rw [Nat.zero_add]; exact h⟩
  | case3 => intro w k _ h _; exact .ok ⟨0, .strLit, by omega, by rw [Nat.zero_add]; exact h⟩
  | case4 => intro w k _ h _; exact .ok ⟨0, .symbolNone, by omega, by rw [Nat.zero_add]; exact h⟩
  | case5 =>
    intro w k _ h _
    exact then_mem fun m => .ok ⟨0, .int, by omega, by rw [Nat.zero_add]; exact h⟩
  | case6 =>
    intro w k _ h _
    exact then_mem fun m => .ok ⟨0, .uint, by omega, by rw [Nat.zero_add]; exact h⟩
  | case7 => intro w k _ h _; exact .ok ⟨0, .eoi, by omega, by rw [Nat.zero_add]; exact h⟩
  | case8 => intro w k _ h _; exact .ok ⟨0, .pass, by omega, by rw [Nat.zero_add]; exact h⟩
  | case9 => intro w k _ h _; exact .ok ⟨0, .fail, by omega, by rw [Nat.zero_add]; exact h⟩
  | case10 => intro w k _ h _; exact .error
  | case11 s ss p ps dst bnd d hd ih =>
    intro w k hn h hk
    exact one ih hn.1 h hk (by rw [Prog.weight, Prog.weightAll]; omega)
      fun h => .seq (i := 0) (p := p) (s := s) rfl rfl h
  | case12 => intro w k _ h _; exact .error
  | case13 p ps dst bnd ih =>
    intro w k hn h hk
    exact one ih hn.1 h hk (by rw [Prog.weight, Prog.weightAll]; omega)
      fun h => .alt (i := 0) (p := p) rfl h
  | case14 => intro w k _ h _; exact .error
  | case15 _ _ _ _ _ ih =>
    intro w k hn h hk
    exact one ih (Prog.fewOpt_of_noOpt _ hn).1 h hk (by rw [Prog.weight]; omega) .rep
  | case16 _ _ _ ih =>
    intro w k hn h hk
    exact two ih hn h hk (by rw [Prog.weight]; omega) .opt
  | case17 _ _ _ ih =>
    intro w k hn h hk
    exact two ih hn h hk (by rw [Prog.weight]; omega) .not
  | case18 _ _ _ ih =>
    intro w k hn h hk
    exact one ih hn h hk (by rw [Prog.weight]; omega) .discard
  | case19 _ _ _ ih =>
    intro w k hn h hk
    exact one ih hn h hk (by rw [Prog.weight]; omega) .lexeme
  | case20 _ _ _ ih =>
    intro w k hn h hk
    exact one ih hn h hk (by rw [Prog.weight]; omega) .bindDst
  | case21 tys p dst bnd ih =>
    intro w k hn h hk
    exact one (h := fun c => PState.buffered _ c) (w := ⟨w.ds, _⟩) (ih _) hn h hk
      (by rw [Prog.weight]; omega) .construct
  | case22 a p dst bnd ih =>
    intro w k hn h hk
    exact one (h := fun c => PState.buffered _ c) (w := ⟨w.ds, _⟩) (ih _) hn h hk
      (by rw [Prog.weight]; omega) .action
  | case23 _ _ _ _ ih =>
    intro w k hn h hk
    exact one ih hn.2 h hk (by rw [Prog.weight]; omega) .exceptNeg
  | case24 _ _ _ _ ih =>
    intro w k hn h hk
    exact two ih (Prog.fewOpt_of_noOpt _ hn.1).1 h hk (by rw [Prog.weight]; omega) .listOp
  | case25 _ _ _ ih =>
    intro w k hn h hk
    exact one ih hn h hk (by rw [Prog.weight]; omega) .withSkipper
  | case26 => intro w k _ h _; exact .ok ⟨0, .recurNone, by omega, by rw [Nat.zero_add]; exact h⟩
  | case27 p dst bnd ih =>
    intro w k hn h hk
    exact one (h := fun c => PState.buffered _ c) (w := ⟨w.ds, _⟩) (ih _) hn h hk
      (by rw [Prog.weight]; omega) .atomic
  | case28 _ _ _ ih =>
    intro w k hn h hk
    exact two ih hn h hk (by rw [Prog.weight]; omega) .clean
  | case29 s p dst bnd ih1 ih2 =>
    intro w k hn h hk
    have hw : (Prog.skip s p).weight f = s.weight f + p.weight f + 1 := by rw [Prog.weight]
    refine then_bind ((ih1 w k (Prog.fewOpt_of_noOpt _ hn.1).1 h (by omega)).imp fun c w' ⟨n, h1, h2, h3⟩ => ?_)
    refine then_bind ((ih2 w' (n + k) hn.2 h3 (by omega)).imp fun c' w'' ⟨n', h1', h2', h3'⟩ => ?_)
    refine .ok ⟨n + n', .skipping h1 h1' h2', by omega, ?_⟩
    rw [show n + n' + k = n' + (n + k) by omega]; exact h3'

/-- What a parser does to the number of rollback points: when it finishes, those it created are
gone except for those optionals leave, when it suspends they are there. -/
def Left (g : Gauge σ) (env : Env) (f : Nat → Nat) (P : Nat) (p : Prog) (k : Nat) (r : Res)
    (st : PState) (w : World σ μ) : Prop :=
  (r ≠ .PARTIAL → g.At P (k + p.stale) w) ∧ (r = .PARTIAL → ∃ n, PointsHeld env f p st n ∧ g.At P (n + k) w)

/-- The same for one iteration. -/
def LeftStep (g : Gauge σ) (env : Env) (f : Nat → Nat) (P : Nat) (p : Prog) (k : Nat) :
    Step → World σ μ → Prop
  | .ret r st, w => Left g env f P p k r st w
  | .cont st, w => ∃ n, PointsHeld env f p st n ∧ g.At P (n + k) w

theorem Left.ends {p k r st m} {w : World σ μ} (hr : r ≠ .PARTIAL) (h : g.At P m w)
    (hm : m ≤ k + p.stale) : Left g env f P p k r st w :=
  ⟨fun _ => h.mono hm, fun h => absurd h hr⟩

theorem Left.done {p k r st} {w : World σ μ} (hr : r ≠ .PARTIAL) (h : g.At P k w) :
    Left g env f P p k r st w := .ends hr h (Nat.le_add_right _ _)

theorem Left.wait {p k st n} {w : World σ μ} (ho : PointsHeld env f p st n) (h : g.At P (n + k) w) :
    Left g env f P p k .PARTIAL st w := ⟨fun hn => absurd rfl hn, fun _ => ⟨n, ho, h⟩⟩

/-- Children: `D` is how many rollback points a call may need. -/
def CallLeaves (g : Gauge σ) (env : Env) (f : Nat → Nat) (P : Nat) (ok : Prog → Prop) (D : Nat)
    (call : Prog → Ref → Ref → PState → World σ μ → Out σ μ (Res × PState)) : Prop :=
  ∀ p d b st w n k, ok p → PointsHeld env f p st n → g.At P (n + k) w → k + D ≤ P →
    Then (fun x w' => Left g env f P p k x.1 x.2 w') (call p d b st w)

theorem left_commit {p k r st m} {w : World σ μ} (hr : r ≠ .PARTIAL) (h : g.At P m w)
    (hm : m ≤ k + p.stale + 1) :
    Then (LeftStep g env f P p k) (exec call (.commit (retS r st)) w) :=
  then_commit (h.mono hm) fun _ h => .ok (.ends hr h (Nat.le_refl _))

theorem left_cancel {p k r st m} {w : World σ μ} (hr : r ≠ .PARTIAL) (h : g.At P m w)
    (hm : m ≤ k + p.stale + 1) :
    Then (LeftStep g env f P p k) (exec call (.cancel (retS r st)) w) :=
  then_cancel (h.mono hm) fun _ h => .ok (.ends hr h (Nat.le_refl _))

theorem left_mk {p k q dst bnd} {h : PState → PState} {w : World σ μ} (e : Nat) (hq : q.fewOpt)
    (h0 : g.At P (k + e) w) (hP : k + e + q.weight f ≤ P)
    (hf : ∀ {c n}, PointsHeld env f q c n → n ≤ q.weight f → PointsHeld env f p (h c) (n + e)) :
    Then (LeftStep g env f P p k) (exec call ((mk q dst bnd).bind fun c => contS (h c)) w) := by
  refine then_bind ((mk_holds (env := env) q dst bnd w (k + e) hq h0 hP).imp fun c w' ⟨n, h1, h2, h3⟩ => ?_)
  exact .ok ⟨n + e, hf h1 h2, by rw [show n + e + k = n + (k + e) by omega]; exact h3⟩

variable {ok : Prog → Prop} {D : Nat}

theorem left_call {p cp d b c n k e kk} {w : World σ μ} (hc : CallLeaves g env f P ok D call)
    (hok : ok cp) (ho : PointsHeld env f cp c n) (h0 : g.At P (n + e + k) w) (hP : k + e + D ≤ P)
    (hk : ∀ r c' (w' : World σ μ), Left g env f P cp (k + e) r c' w' →
      Then (LeftStep g env f P p k) (exec call (kk r c') w')) :
    Then (LeftStep g env f P p k) (exec call (.call cp d b c kk) w) := by
  refine then_call ((hc cp d b c w n (k + e) hok ho ?_ (by omega)).imp ?_)
  · rw [show n + (k + e) = n + e + k by omega]; exact h0
  · intro x w' h; exact hk _ _ _ h

theorem Left.part {p cp k e c} {st : PState} {w : World σ μ}
    (h : Left g env f P cp (k + e) .PARTIAL c w)
    (hf : ∀ {n}, PointsHeld env f cp c n → PointsHeld env f p st (n + e)) :
    Left g env f P p k .PARTIAL st w := by
  obtain ⟨n, h1, h2⟩ := h.2 rfl
  exact .wait (hf h1) (by rw [show n + e + k = n + (k + e) by omega]; exact h2)

theorem Left.at {p k r st} {w : World σ μ} (h : Left g env f P p k r st w) (hr : r ≠ .PARTIAL) :
    g.At P (k + p.stale) w := h.1 hr

/-- A child with nothing to do afterwards. -/
theorem left_fwd {p cp d b c n k} {h : PState → PState} {w : World σ μ}
    (hc : CallLeaves g env f P ok D call) (hok : ok cp) (ho : PointsHeld env f cp c n)
    (h0 : g.At P (n + k) w) (hP : k + D ≤ P)
    (hs : cp.stale ≤ p.stale)
    (hf : ∀ {c n}, PointsHeld env f cp c n → PointsHeld env f p (h c) n) :
    Then (LeftStep g env f P p k) (exec call (.call cp d b c fun r c' => retS r (h c')) w) := by
  refine left_call (e := 0) hc hok ho h0 hP fun r c' w' hl => .ok ?_
  exact ⟨fun hr => (hl.1 hr).mono (by omega), fun hr => by
    subst hr; exact (hl.part (e := 0) (st := h c') fun h => hf h).2 rfl⟩

/-- A set of classes without `Optional` in loops and of size at most `M`, with all the classes they
use. -/
structure Usable (env : Env) (f : Nat → Nat) (M : Nat) (ok : Prog → Prop) : Prop where
  size : ∀ p, ok p → p.weight f ≤ M
  fewOpt : ∀ p, ok p → p.fewOpt
  target : ∀ {id sk q}, ok (.recur id sk) → env id = some q →
    (elabP sk RecurChildReqs q).stale = 0
  child : ∀ {p q}, ok p → CalledIn env (fun _ => false) 0 p 1 q ∨
    CalledIn env (fun _ => false) 0 p 0 q → ok q

theorem body_leaves {M : Nat} (hU : Usable env f M ok) (hc : CallLeaves g env f P ok D call)
    {p st n} (hok : ok p) (ho : PointsHeld env f p st n) (dst bnd : Ref) (w : World σ μ) (k : Nat)
    (h0 : g.At P (n + k) w) (hP : k + (D + (M + 1)) ≤ P) :
    Then (LeftStep g env f P p k) (exec call (body env p dst bnd st) w) := by
  have hw := hU.size p hok
  have hno := hU.fewOpt p hok
  have hz : ∀ {w : World σ μ}, g.At P (0 + k) w → g.At P k w := by
    intro w h; rw [Nat.zero_add] at h; exact h
  cases ho with
  | char =>
    refine then_guarded (.ok (.done (by simp) (hz h0))) (.wait .char h0) fun c => ?_
    split
    · exact then_mem fun m => then_advance (w := ⟨w.ds, m⟩) h0 fun w' h => .ok (.done (by simp) (hz h))
    · exact .ok (.done (by simp) (hz h0))
  | charSymbol =>
    refine then_guarded (.ok (.done (by simp) (hz h0))) (.wait .charSymbol h0) fun c => ?_
    split
    · exact .ok (.done (by simp) (hz h0))
    · exact then_mem fun m => .ok (.done (by simp) (hz (w := ⟨w.ds, m⟩) h0))
  | @strLit s j =>
    simp only [body]
    split
    · exact .ok (.done (by simp) (hz h0))
    · refine then_guarded (.ok (.done (by simp) (hz h0))) (.wait .strLit h0) fun c => ?_
      split
      · exact then_advance h0 fun w' h => .ok ⟨0, .strLit, h⟩
      · exact .ok (.done (by simp) (hz h0))
  | @symbolNone r nd =>
    simp only [body]
    refine then_guarded (.ok (.done (by simp) (hz h0))) (.wait .symbolNone h0) fun c => ?_
    split
    · exact .ok (.done (by simp) (hz h0))
    · refine then_advance h0 fun w' h => ?_
      split
      · exact .ok ⟨0, .symbolNone, h⟩
      · simp only [Option.isSome_none, Bool.false_eq_true, if_false]
        split
        · exact then_mem fun m => .ok (.done (by simp) (hz (w := ⟨w'.ds, m⟩) h))
        · exact then_prepare (hz h) (by omega) fun w'' h => .ok ⟨1, .symbolSome, by
            rw [Nat.add_comm]; exact h⟩
  | @symbolSome r nd v =>
    rw [Nat.add_comm] at h0
    have hstop : Then (LeftStep g env f P (.symbol r) k) (exec call
        (.mem (.assign dst v) (.commit (retS .SUCCESS (.symbol nd (some v))))) w) :=
      then_mem fun m => left_commit (w := ⟨w.ds, m⟩) (by simp) h0 (Nat.succ_le_succ (Nat.le_add_right _ _))
    simp only [body]
    refine then_guarded hstop (.wait .symbolSome (by rw [Nat.add_comm]; exact h0)) fun c => ?_
    split
    · exact hstop
    · refine then_advance h0 fun w' h => ?_
      split
      · exact .ok ⟨1, .symbolSome, by rw [Nat.add_comm]; exact h⟩
      · simp only [Option.isSome_some, if_true]
        refine then_cancel h fun w'' h => ?_
        split
        · exact then_mem fun m => .ok (.done (by simp) h)
        · exact then_prepare h (by omega) fun w'' h => .ok ⟨1, .symbolSome, by
            rw [Nat.add_comm]; exact h⟩
  | @int b mn mx j l gg =>
    simp only [body]
    have hneg : ∀ {st : PState} {r : Res} (w' : World σ μ), g.At P (0 + k) w' → r ≠ .PARTIAL →
        Then (LeftStep g env f P (.int b mn mx) k) (exec call (negIf gg dst (retS r st)) w') := by
      intro st r w' h hr
      unfold negIf
      split
      · exact then_mem fun m => .ok (.done hr (hz (w := ⟨w'.ds, m⟩) h))
      · exact .ok (.done hr (hz h))
    refine then_guarded (hneg w h0 (enough_ne _ _)) (.wait .int h0) fun c => ?_
    split
    · exact then_advance h0 fun w' h => .ok ⟨0, .int, h⟩
    · split
      · exact then_advance h0 fun w' h => .ok ⟨0, .int, h⟩
      · split
        · refine then_mem fun m => then_advance (w := ⟨w.ds, m⟩) h0 fun w' h => ?_
          split
          · exact hneg _ h (by simp)
          · exact .ok ⟨0, .int, h⟩
        · exact hneg w h0 (enough_ne _ _)
  | @uint b mn mx j =>
    simp only [body]
    refine then_guarded (.ok (.done (enough_ne _ _) (hz h0))) (.wait .uint h0) fun c => ?_
    split
    · refine then_mem fun m => then_advance (w := ⟨w.ds, m⟩) h0 fun w' h => ?_
      split
      · exact .ok (.done (by simp) (hz h))
      · exact .ok ⟨0, .uint, h⟩
    · exact .ok (.done (enough_ne _ _) (hz h0))
  | eoi =>
    exact then_guarded (.ok (.done (by simp) (hz h0))) (.wait .eoi h0)
      fun _ => .ok (.done (by simp) (hz h0))
  | pass => exact .ok (.done (by simp) (hz h0))
  | fail => exact .ok (.done (by simp) (hz h0))
  | @seq slots ps i p s c _ hp hs ho =>
    simp only [body, hp, hs]
    rw [Prog.weight] at hw
    have hi := Prog.staleTo_weight f hp
    have hle : Prog.staleTo ps i + p.stale ≤ (Prog.seq slots ps).stale := Prog.staleTo_le hp
    split
    · exact .error
    · refine left_call (e := Prog.staleTo ps i) hc
        (hU.child hok (.inl (.seq hp (by omega) fun _ _ _ _ _ => by omega))) ho h0 (by omega)
        fun r c' w' h => ?_
      cases r with
      | SUCCESS =>
        simp only
        split
        · rename_i p' s' hp' hs'
          split
          · exact .error
          · have := Prog.staleTo_weight f hp'
            have he := Prog.staleTo_succ hp
            exact left_mk (Prog.staleTo ps (i + 1)) (Prog.fewOpts_get hno hp')
              ((h.at (by simp)).mono (by omega)) (by omega) fun h _ => .seq hp' hs' h
        · exact .ok (.ends (by simp) (h.at (by simp)) (by omega))
      | FAILURE => exact .ok (.ends (by simp) (h.at (by simp)) (by omega))
      | PARTIAL => exact .ok (h.part (e := Prog.staleTo ps i) fun h => .seq hp hs h)
  | @alt ps i p c _ hp ho =>
    simp only [body, hp]
    rw [Prog.weight] at hw
    have hi := Prog.staleTo_weight f hp
    have hle : Prog.staleTo ps i + p.stale ≤ (Prog.alt ps).stale := Prog.staleTo_le hp
    refine left_call (e := Prog.staleTo ps i) hc (hU.child hok (.inl (.alt hp (by omega)))) ho h0
      (by omega) fun r c' w' h => ?_
    cases r with
    | FAILURE =>
      simp only
      split
      · rename_i p' hp'
        have := Prog.staleTo_weight f hp'
        have he := Prog.staleTo_succ hp
        exact left_mk (Prog.staleTo ps (i + 1)) (Prog.fewOpts_get hno hp')
          ((h.at (by simp)).mono (by omega)) (by omega) fun h _ => .alt hp' h
      · exact .ok (.ends (by simp) (h.at (by simp)) (by omega))
    | SUCCESS => exact .ok (.ends (by simp) (h.at (by simp)) (by omega))
    | PARTIAL => exact .ok (h.part (e := Prog.staleTo ps i) fun h => .alt hp h)
  | rep ho =>
    simp only [body]
    obtain ⟨hfew, hst⟩ := Prog.fewOpt_of_noOpt _ hno
    refine left_call (e := 0) hc (hU.child hok (.inl (.rep (by omega)))) ho h0 (by omega)
      fun r c' w' h => ?_
    cases r with
    | SUCCESS =>
      have h := h.at (by simp)
      rw [hst] at h
      simp only
      split
      · exact .ok (.done (by simp) h)
      · rw [Prog.weight] at hw
        exact left_mk 0 hfew h (by omega) fun h _ => .rep h
    | FAILURE =>
      have h := h.at (by simp)
      rw [hst] at h
      exact .ok (.done (enough_ne _ _) h)
    | PARTIAL => exact .ok (h.part (e := 0) .rep)
  | @opt p c _ ho =>
    simp only [body]
    have hs : (Prog.opt p).stale = p.stale + 1 := rfl
    refine left_call (e := 1) hc (hU.child hok (.inr .opt)) ho h0 (by omega) fun r c' w' h => ?_
    cases r with
    | SUCCESS => exact .ok (.ends (by simp) (h.at (by simp)) (by omega))
    | FAILURE => exact left_commit (by simp) (h.at (by simp)) (by omega)
    | PARTIAL => exact .ok (h.part (e := 1) .opt)
  | @not p c _ ho =>
    simp only [body]
    have hs : (Prog.not p).stale = p.stale := rfl
    refine left_call (e := 1) hc (hU.child hok (.inr .not)) ho h0 (by omega) fun r c' w' h => ?_
    cases r with
    | SUCCESS => exact left_commit (by simp) (h.at (by simp)) (by omega)
    | FAILURE => exact left_commit (by simp) (h.at (by simp)) (by omega)
    | PARTIAL => exact .ok (h.part (e := 1) .not)
  | discard ho => exact left_fwd hc (hU.child hok (.inr .discard)) ho h0 (by omega) (Nat.le_refl _) .discard
  | lexeme ho => exact left_fwd hc (hU.child hok (.inr .lexeme)) ho h0 (by omega) (Nat.le_refl _) .lexeme
  | bindDst ho => exact left_fwd hc (hU.child hok (.inr .bindDst)) ho h0 (by omega) (Nat.le_refl _) .bindDst
  | construct ho =>
    simp only [body]
    refine left_call (e := 0) hc (hU.child hok (.inr .construct)) ho h0 (by omega)
      fun r c' w' h => ?_
    cases r with
    | SUCCESS => exact then_mem fun m => .ok (.ends (by simp) (h.at (by simp)) (Nat.le_refl _))
    | FAILURE => exact .ok (.ends (by simp) (h.at (by simp)) (Nat.le_refl _))
    | PARTIAL => exact .ok (h.part (e := 0) .construct)
  | action ho =>
    simp only [body]
    refine left_call (e := 0) hc (hU.child hok (.inr .action)) ho h0 (by omega)
      fun r c' w' h => ?_
    cases r with
    | SUCCESS => exact then_mem fun m => .ok (.ends (by simp) (h.at (by simp)) (Nat.le_refl _))
    | FAILURE => exact .ok (.ends (by simp) (h.at (by simp)) (Nat.le_refl _))
    | PARTIAL => exact .ok (h.part (e := 0) .action)
  | @exceptNeg op neg c _ ho =>
    simp only [body]
    have hs : (Prog.except op neg).stale = op.stale + neg.stale := rfl
    refine left_call (e := 0) hc (hU.child hok (.inr .exceptNeg)) ho h0 (by omega)
      fun r c' w' h => ?_
    cases r with
    | SUCCESS => exact .ok (.ends (by simp) (h.at (by simp)) (by omega))
    | FAILURE =>
      rw [Prog.weight] at hw
      have := Prog.stale_lt_weight f neg
      exact left_mk neg.stale hno.1 (h.at (by simp)) (by omega) fun h _ => .exceptOp h
    | PARTIAL => exact .ok (h.part (e := 0) .exceptNeg)
  | @exceptOp op neg c _ ho =>
    simp only [body]
    have hs : (Prog.except op neg).stale = op.stale + neg.stale := rfl
    rw [Prog.weight] at hw
    have := Prog.stale_lt_weight f neg
    refine left_call (e := neg.stale) hc (hU.child hok (.inl (.exceptOp (by omega)))) ho h0 (by omega)
      fun r c' w' h => .ok ?_
    cases r with
    | SUCCESS => exact .ends (by simp) (h.at (by simp)) (by omega)
    | FAILURE => exact .ends (by simp) (h.at (by simp)) (by omega)
    | PARTIAL => exact h.part (e := neg.stale) .exceptOp
  | @listOp op sep c _ ho =>
    simp only [body]
    rw [Prog.weight] at hw
    obtain ⟨_, hst⟩ := Prog.fewOpt_of_noOpt _ hno.1
    obtain ⟨hfew, _⟩ := Prog.fewOpt_of_noOpt _ hno.2
    refine left_call (e := 1) hc (hU.child hok (.inl (.listOp (by omega)))) ho h0 (by omega)
      fun r c' w' h => ?_
    cases r with
    | SUCCESS =>
      have h := h.at (by simp)
      rw [hst] at h
      refine then_cancel h fun w'' h => then_prepare h (by omega) fun w3 h => ?_
      exact left_mk 1 hfew h (by omega) fun h _ => .listSep h
    | FAILURE => exact left_commit (by simp) (h.at (by simp)) (by omega)
    | PARTIAL => exact .ok (h.part (e := 1) .listOp)
  | @listSep op sep c _ ho =>
    simp only [body]
    rw [Prog.weight] at hw
    obtain ⟨_, hst⟩ := Prog.fewOpt_of_noOpt _ hno.2
    obtain ⟨hfew, _⟩ := Prog.fewOpt_of_noOpt _ hno.1
    refine left_call (e := 1) hc (hU.child hok (.inl (.listSep (by omega) fun _ => by omega))) ho h0
      (by omega) fun r c' w' h => ?_
    cases r with
    | SUCCESS =>
      have h := h.at (by simp)
      rw [hst] at h
      exact left_mk 1 hfew h (by omega) fun h _ => .listOp h
    | FAILURE => exact left_commit (by simp) (h.at (by simp)) (by omega)
    | PARTIAL => exact .ok (h.part (e := 1) .listSep)
  | withSkipper ho =>
    exact left_fwd hc (hU.child hok (.inr .withSkipper)) ho h0 (by omega) (Nat.le_refl _) .withSkipper
  | @recurNone id sk =>
    simp only [body]
    split
    · exact .error
    · rename_i q hq
      have hok' := hU.child hok (.inr (.recur hq))
      have := hU.size _ hok'
      exact left_mk 0 (hU.fewOpt _ hok') (hz h0) (by omega) fun h _ => .recurSome hq h
  | recurSome hq ho =>
    simp only [body, hq]
    exact left_fwd hc (hU.child hok (.inr (.recur hq))) ho h0 (by omega)
      (by rw [hU.target hok hq]; exact Nat.zero_le _) fun h => .recurSome hq h
  | atomic ho =>
    simp only [body]
    refine left_call (e := 0) hc (hU.child hok (.inr .atomic)) ho h0 (by omega)
      fun r c' w' h => ?_
    cases r with
    | SUCCESS => exact then_mem fun m => .ok (.ends (by simp) (h.at (by simp)) (Nat.le_refl _))
    | FAILURE => exact .ok (.ends (by simp) (h.at (by simp)) (Nat.le_refl _))
    | PARTIAL => exact .ok (h.part (e := 0) .atomic)
  | @clean p c _ ho =>
    simp only [body]
    have hs : (Prog.clean p).stale = p.stale := rfl
    refine left_call (e := 1) hc (hU.child hok (.inr .clean)) ho h0 (by omega)
      fun r c' w' h => ?_
    cases r with
    | SUCCESS => exact left_cancel (by simp) (h.at (by simp)) (by omega)
    | FAILURE => exact left_commit (by simp) (h.at (by simp)) (by omega)
    | PARTIAL => exact .ok (h.part (e := 1) .clean)
  | @skipping s p sc c n1 n2 ho1 ho2 hle =>
    simp only [body]
    rw [Prog.weight] at hw
    obtain ⟨hfew, hst⟩ := Prog.fewOpt_of_noOpt _ hno.1
    refine left_call (e := n2) hc (hU.child hok (.inl (.skipper (by omega)))) ho1 h0 (by omega)
      fun r c' w' h => ?_
    cases r with
    | SUCCESS =>
      have h := h.at (by simp)
      rw [hst] at h
      exact left_mk n2 hfew h (by omega) fun h _ => .skipping h ho2 hle
    | FAILURE =>
      have h := h.at (by simp)
      rw [hst] at h
      exact .ok ⟨n2, .skipped ho2, by rw [Nat.add_comm]; exact h⟩
    | PARTIAL => exact .ok (h.part (e := n2) fun h => .skipping h ho2 hle)
  | skipped ho => exact left_fwd hc (hU.child hok (.inr .skipped)) ho h0 (by omega) (Nat.le_refl _) .skipped

theorem runStk_leaves {M : Nat} (hU : Usable env f M ok) (n d : Nat) :
    CallLeaves g env f P ok ((d + 1) * (M + 1)) (runStk env d n : _ → _ → _ → _ → World σ μ → _) := by
  induction n generalizing d with
  | zero => intro p e b st w n k _ _ _ _; rw [runStk]; exact .error
  | succ n ih =>
    have hc : CallLeaves g env f P ok (d * (M + 1)) (callStk env n d : _ → _ → _ → _ → World σ μ → _) := by
      cases d with
      | zero => intro p e b st w n k _ _ _ _; exact .error
      | succ d => exact ih d
    intro p e b st w m k hok ho h0 hP
    have h := body_leaves hU hc hok ho e b w k h0 (by rw [Nat.add_mul, Nat.one_mul] at hP; exact hP)
    rw [runStk_succ]
    cases hx : exec (callStk env n d) (body env p e b st) w with
    | error e => exact .error
    | ok y =>
      obtain ⟨s, w'⟩ := y
      have h := h _ _ hx
      cases s with
      | ret r st' => exact .ok h
      | cont st' =>
        obtain ⟨m', h1, h2⟩ := h
        exact ih d _ _ _ _ _ m' k hok h1 h2 hP

end
end Abu
