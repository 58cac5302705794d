import Verif.Spec.Readme
/-
Specification of the texts read by the examples of the user guide.
-/
namespace Abu

/-- Pairs of decimal digits and the numbers they stand for. -/
inductive Pairs : List Nat → List Ch → Prop
  | nil : Pairs [] []
  | cons {a b c d ns s} : a < 10 → b < 10 → IsDigitSymbol a c → IsDigitSymbol b d → Pairs ns s →
      Pairs ((10 * a + b) :: ns) (c :: d :: s)

/-- The text starts with two decimal digits. -/
def TwoDigits (t : List Ch) : Prop :=
  ∃ a b c d s, a < 10 ∧ b < 10 ∧ IsDigitSymbol a c ∧ IsDigitSymbol b d ∧ t = c :: d :: s

/-- An ASCII letter or digit. -/
def Alnum (c : Ch) : Prop := 97 ≤ c ∧ c ≤ 122 ∨ 65 ≤ c ∧ c ≤ 90 ∨ 48 ≤ c ∧ c ≤ 57

instance (c : Ch) : Decidable (Alnum c) := inferInstanceAs (Decidable (_ ∨ _ ∨ _))

/-- A name: one or more letters or digits. -/
def Name (s : List Ch) : Prop := s ≠ [] ∧ ∀ c ∈ s, Alnum c

/-- `s` is a line with two names and a score, separated by spaces. -/
inductive PlayerLine : List Ch → List Ch → Nat → List Ch → Prop
  | mk {w1 first w2 last w3 ds rs} : Spaces w1 → Name first → Spaces w2 → w2 ≠ [] → Name last →
      Spaces w3 → w3 ≠ [] → DigitString 10 ds rs → ds ≠ [] →
      PlayerLine first last (positional 10 rs) (w1 ++ (first ++ (w2 ++ (last ++ (w3 ++ ds)))))

mutual
/-- A number, or a list in parentheses. -/
inductive Nested : List Ch → Prop
  | number {n s} : Numeral n s → Nested s
  | empty : Nested [40, 41]
  | list {s} : NestedItems s → Nested (40 :: (s ++ [41]))
/-- Such things separated by commas. -/
inductive NestedItems : List Ch → Prop
  | one {s} : Nested s → NestedItems s
  | more {s u} : Nested s → NestedItems u → NestedItems (s ++ 44 :: u)
end

/-- Text that starts with spaces and a number. -/
def NumberNext (t : List Ch) : Prop := ∃ w n s r, Spaces w ∧ Numeral n s ∧ t = w ++ (s ++ r)

/-- `ns` are the numbers at the start of a text, each with spaces before it, as many digits as there
are being taken for a number; `rest` is the text after the last one. -/
inductive Ints : List Int → List Ch → List Ch → Prop
  | stop {t} : ¬ NumberNext t → Ints [] t t
  | more {w n s ns t rest} : Spaces w → Numeral n s → NoDigitNext 10 t → Ints ns t rest →
      Ints (n :: ns) (w ++ (s ++ t)) rest

end Abu
