import Verif.Model.CharSet
import Verif.Model.Digits
import Verif.Spec.Number
/-
C06, C07: character sets and digits.
-/
namespace Abu

/-! ### C06 -/

/-- What a user writes to build a character set. -/
inductive SetExpr
  | any
  | single (c : Ch)
  | range (a b : Ch)
  /-- `set("...")` -/
  | set (s : List Ch)
  /-- `set(b, e)` -/
  | iter (s : List Ch)
  | pred (f : Ch → Bool)
  | not (e : SetExpr)
  | or (l r : SetExpr)

/-- The documented meaning. -/
def SetExpr.denotes : SetExpr → Ch → Prop
  | .any, _ => True
  | .single c, x => x = c
  | .range a b, x => a ≤ x ∧ x ≤ b
  | .set s, x => x ∈ s
  | .iter s, x => x ∈ s
  | .pred f, x => f x = true
  | .not e, x => ¬ e.denotes x
  | .or l r, x => l.denotes x ∨ r.denotes x

/-- The object the library builds. -/
def SetExpr.build : SetExpr → CharSet
  | .any => .any
  | .single c => .single c
  | .range a b => .range a b
  | .set s => setOfCString (s ++ [0])
  | .iter s => setOfRange s
  | .pred f => .delegated f
  | .not e => .not e.build
  | .or l r => .or l.build r.build

/-- A C string literal holds `char`s and no NUL, the iterators are of `char`s; `range` asserts that its bounds are ordered. -/
def SetExpr.Legal : SetExpr → Prop
  | .set s => ∀ c ∈ s, IsChar c ∧ c ≠ 0
  | .iter s => ∀ c ∈ s, IsChar c
  | .range a b => a ≤ b
  | .not e => e.Legal
  | .or l r => l.Legal ∧ r.Legal
  | _ => True

theorem asIndex_inj {a b : Ch} (ha : IsChar a) (hb : IsChar b) (h : asIndex a = asIndex b) :
    a = b := by
  unfold asIndex IsChar at *; omega

theorem indexedSet_test (cs : List Ch) (b : BitSet) (i : Nat) :
    (cs.foldl (fun b c => b.set (asIndex c)) b).test i = true ↔
      b.test i = true ∨ ∃ c ∈ cs, asIndex c = i := by
  induction cs generalizing b with
  | nil => simp
  | cons c cs ih =>
    simp only [List.foldl_cons, ih, List.mem_cons, exists_eq_or_imp]
    have : (b.set (asIndex c)).test i = true ↔ asIndex c = i ∨ b.test i = true := by
      simp only [BitSet.set, BitSet.test]
      by_cases h : i = asIndex c <;> simp [h]
      intro h'; exact absurd h'.symm h
    rw [this]
    constructor
    · rintro ((h | h) | h)
      · exact .inr (.inl h)
      · exact .inl h
      · exact .inr (.inr h)
    · rintro (h | h | h)
      · exact .inl (.inr h)
      · exact .inl (.inl h)
      · exact .inr h

theorem takeWhile_all {s : List Ch} (h : ∀ c ∈ s, c ≠ 0) : (s ++ [0]).takeWhile (· ≠ 0) = s := by
  induction s with
  | nil => rfl
  | cons a s ih =>
    rw [List.cons_append, List.takeWhile_cons_of_pos (by simpa using h a (by simp)),
      ih (fun c hc => h c (by simp [hc]))]

/-- C06: the set object accepts a `char` exactly when the expression denotes it, for every
nesting of the operators. -/
theorem C06_char_sets_denote (e : SetExpr) (h : e.Legal) (x : Ch) (hx : IsChar x) :
    e.build.isValid x = true ↔ e.denotes x := by
  induction e with
  | any => simp [SetExpr.build, CharSet.isValid, SetExpr.denotes]
  | single c => simp [SetExpr.build, CharSet.isValid, SetExpr.denotes]
  | range a b => simp [SetExpr.build, CharSet.isValid, SetExpr.denotes]
  | set s =>
    have h0 : ∀ c ∈ s, c ≠ 0 := fun c hc => (h c hc).2
    simp only [SetExpr.build, setOfCString, CharSet.isValid, SetExpr.denotes, indexedSet,
      takeWhile_all h0, indexedSet_test]
    constructor
    · rintro (h1 | ⟨c, hc, he⟩)
      · simp [BitSet.none, BitSet.test] at h1
      · rw [← asIndex_inj (h c hc).1 hx he]; exact hc
    · intro hm; exact .inr ⟨x, hm, rfl⟩
  | iter s =>
    simp only [SetExpr.build, setOfRange, CharSet.isValid, SetExpr.denotes, indexedSet,
      indexedSet_test]
    constructor
    · rintro (h1 | ⟨c, hc, he⟩)
      · simp [BitSet.none, BitSet.test] at h1
      · rw [← asIndex_inj (h c hc) hx he]; exact hc
    · intro hm; exact .inr ⟨x, hm, rfl⟩
  | pred f => simp [SetExpr.build, CharSet.isValid, SetExpr.denotes]
  | not e ih =>
    have := ih h
    simp only [SetExpr.build, CharSet.isValid, SetExpr.denotes, ← this]; simp
  | or l r ihl ihr =>
    simp only [SetExpr.build, CharSet.isValid, SetExpr.denotes, ← ihl h.1, ← ihr h.2]; simp

/-- C06, wide characters: sets not built from a `char` bit set need no restriction on the
character. -/
def SetExpr.NoBitSet : SetExpr → Prop
  | .set _ => False
  | .iter _ => False
  | .not e => e.NoBitSet
  | .or l r => l.NoBitSet ∧ r.NoBitSet
  | _ => True

theorem C06_char_sets_denote_wide (e : SetExpr) (h : e.NoBitSet) (x : Ch) :
    e.build.isValid x = true ↔ e.denotes x := by
  induction e with
  | any => simp [SetExpr.build, CharSet.isValid, SetExpr.denotes]
  | single c => simp [SetExpr.build, CharSet.isValid, SetExpr.denotes]
  | range a b => simp [SetExpr.build, CharSet.isValid, SetExpr.denotes]
  | set s => exact h.elim
  | iter s => exact h.elim
  | pred f => simp [SetExpr.build, CharSet.isValid, SetExpr.denotes]
  | not e ih =>
    simp only [SetExpr.build, CharSet.isValid, SetExpr.denotes, ← ih h]; simp
  | or l r ihl ihr =>
    simp only [SetExpr.build, CharSet.isValid, SetExpr.denotes, ← ihl h.1, ← ihr h.2]; simp

/-- The hypotheses are met, with negative characters in the set: `~(set("é,") | range('0','9'))`
in a one-byte encoding. -/
example : SetExpr.Legal (.not (.or (.set [-23, 44]) (.range 48 57))) ∧ IsChar (-23) :=
  ⟨⟨by show ∀ c ∈ [(-23 : Int), 44], IsChar c ∧ c ≠ 0; decide, by show (48 : Int) ≤ 57; decide⟩, by decide⟩

/-- `set(b, e)` may hold NUL. -/
example : SetExpr.Legal (.iter [0, -23]) ∧ IsChar 0 :=
  ⟨by show ∀ c ∈ [(0 : Int), -23], IsChar c; decide, by decide⟩

/-! ### C07 -/

theorem lowerDigits_code (r : Nat) (h : r < 36) :
    ∃ h : r < lowerDigits.length, (lowerDigits[r].toNat : Int) =
      if r < 10 then 48 + (r : Int) else 87 + r := by
  have : ∀ r : Fin 36, ∃ h : r.1 < lowerDigits.length, (lowerDigits[r.1].toNat : Int) =
      if r.1 < 10 then 48 + (r.1 : Int) else 87 + r.1 := by decide
  exact this ⟨r, h⟩

theorem upperDigits_code (r : Nat) (h : r < 36) :
    ∃ h : r < upperDigits.length, (upperDigits[r].toNat : Int) =
      if r < 10 then 48 + (r : Int) else 55 + r := by
  have : ∀ r : Fin 36, ∃ h : r.1 < upperDigits.length, (upperDigits[r.1].toNat : Int) =
      if r.1 < 10 then 48 + (r.1 : Int) else 55 + r.1 := by decide
  exact this ⟨r, h⟩

theorem isDigitSymbol_iff (r : Nat) (c : Ch) (h : r < 36) : IsDigitSymbol r c ↔
    (if r < 10 then c = 48 + (r : Int) else c = 87 + r ∨ c = 55 + r) := by
  obtain ⟨h1, e1⟩ := lowerDigits_code r h
  obtain ⟨h2, e2⟩ := upperDigits_code r h
  unfold IsDigitSymbol
  constructor
  · rintro (⟨_, rfl⟩ | ⟨_, rfl⟩)
    · rw [e1]; split <;> simp
    · rw [e2]; split <;> simp
  · intro hc
    split at hc
    · left; refine ⟨h1, ?_⟩; rw [e1]; simp [*]
    · rcases hc with hc | hc
      · left; refine ⟨h1, ?_⟩; rw [e1]; simp [*]
      · right; refine ⟨h2, ?_⟩; rw [e2]; simp [*]

theorem narrow_of_isChar {c : Ch} (h : IsChar c) : narrow c = c := by
  unfold narrow IsChar at *; omega

/-- C07, for texts of `char` (the claim is false for wider characters, see `C07_refuted`): a
character is accepted as a base `B` digit iff it is one of the first `B` digit
symbols, in either case. -/
theorem C07_digits_recognised_partial (B : Nat) (h2 : 2 ≤ B) (h35 : B ≤ 35) (c : Ch) (hc : IsChar c) :
    digitValid B c = true ↔ ∃ r, r < B ∧ IsDigitSymbol r c := by
  have hsym : (∃ r, r < B ∧ IsDigitSymbol r c) ↔ (∃ r : Nat, r < B ∧
      (if r < 10 then c = 48 + (r : Int) else c = 87 + r ∨ c = 55 + r)) := by
    constructor
    · rintro ⟨r, hr, h⟩; exact ⟨r, hr, (isDigitSymbol_iff r c (by omega)).mp h⟩
    · rintro ⟨r, hr, h⟩; exact ⟨r, hr, (isDigitSymbol_iff r c (by omega)).mpr h⟩
  rw [hsym]
  unfold digitValid
  rw [narrow_of_isChar hc]
  constructor
  · intro h
    simp only at h
    split at h
    · simp at h
      refine ⟨(c - 48).toNat, by omega, ?_⟩
      rw [if_pos (by omega)]; omega
    · simp at h
      rcases h with (h | h) | h
      · refine ⟨(c - 48).toNat, by omega, ?_⟩
        rw [if_pos (by omega)]; omega
      · refine ⟨(c - 87).toNat, by omega, ?_⟩
        rw [if_neg (by omega)]; omega
      · refine ⟨(c - 55).toNat, by omega, ?_⟩
        rw [if_neg (by omega)]; omega
  · rintro ⟨r, hr, h⟩
    simp only
    split at h <;> split <;> simp <;> omega

/-- C07: the value of a digit is the rank of its symbol. -/
theorem C07_digit_value (B : Nat) (h35 : B ≤ 35) (c : Ch)
    (r : Nat) (hr : r < B) (h : IsDigitSymbol r c) : digitValue B c = r := by
  rw [isDigitSymbol_iff r c (by omega)] at h
  have hc : IsChar c := by
    unfold IsChar
    split at h <;> omega
  unfold digitValue
  rw [narrow_of_isChar hc]
  simp only
  split at h
  · split
    · omega
    · rw [if_pos (by omega)]; omega
  · split
    · omega
    · rcases h with h | h
      · rw [if_neg (by omega), if_pos (by omega)]; omega
      · rw [if_neg (by omega), if_neg (by omega), if_pos (by omega)]; omega

/-- C07: values of accepted characters are in `[0, B)`, for every character type. -/
theorem C07_digit_value_range (B : Nat) (h2 : 2 ≤ B) (h35 : B ≤ 35) (c : Ch)
    (h : digitValid B c = true) : 0 ≤ digitValue B c ∧ digitValue B c < B := by
  unfold digitValid at h
  unfold digitValue
  simp only at h ⊢
  split at h
  · simp at h; rw [if_pos (by assumption)]; omega
  · simp at h
    rw [if_neg (by assumption)]
    split
    · omega
    · split
      · omega
      · split <;> omega

/-- C07 fails for wide characters: the digit tests take a `char`, so U+0130 is accepted as
the digit zero. -/
theorem C07_refuted :
    ¬ ∀ (c : Ch), digitValid 10 c = true → ∃ r, r < 10 ∧ IsDigitSymbol r c := by
  intro h
  obtain ⟨r, hr, hs⟩ := h 0x130 (by decide)
  rw [isDigitSymbol_iff r _ (by omega), if_pos hr] at hs
  omega

example : IsChar 70 ∧ digitValid 16 70 = true ∧ digitValue 16 70 = 15 ∧ IsDigitSymbol 15 70 :=
  ⟨by decide, by decide, by decide, .inr ⟨by decide, by decide⟩⟩

end Abu
