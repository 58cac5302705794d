import Verif.Spec.Calculator
/-
Specification of lists of numbers in brackets, as in the README.
-/
namespace Abu

/-- Blank, tabulator, carriage return or line feed. -/
def Space (c : Ch) : Prop := c = 32 ∨ c = 9 ∨ c = 13 ∨ c = 10

instance (c : Ch) : Decidable (Space c) := inferInstanceAs (Decidable (_ ∨ _))

/-- Any number of them. -/
def Spaces (w : List Ch) : Prop := ∀ c ∈ w, Space c

/-- `s` is a way to write the number `n`. -/
def Numeral (n : Int) (s : List Ch) : Prop :=
  ∃ sg neg ds rs, Sign sg neg ∧ DigitString 10 ds rs ∧ ds ≠ [] ∧
    n = withSign neg (positional 10 rs) ∧ s = sg ++ ds

/-- Numbers separated by commas, with spaces in front of numbers and commas. -/
inductive Listed : List Int → List Ch → Prop
  | one {w n s} : Spaces w → Numeral n s → Listed [n] (w ++ s)
  | more {w n s w' ns u} : Spaces w → Numeral n s → Spaces w' → Listed ns u →
      Listed (n :: ns) (w ++ s ++ w' ++ 44 :: u)

/-- Such a list in brackets, possibly empty, with spaces in front of the brackets. -/
inductive Bracketed : List Int → List Ch → Prop
  | none {w w'} : Spaces w → Spaces w' → Bracketed [] (w ++ 91 :: (w' ++ [93]))
  | some {w ns s w'} : Spaces w → Listed ns s → Spaces w' → Bracketed ns (w ++ 91 :: (s ++ w' ++ [93]))

/-- The magnitude of every number written anywhere in the text fits an `int`. -/
def NumbersFit (t : List Ch) : Prop :=
  ∀ a s b n, t = a ++ s ++ b → Numeral n s → fitsInt n.natAbs

/-- The text starts, possibly after spaces, with an opening bracket and numbers separated by commas, and
the magnitude of one of these numbers does not fit an `int`. -/
def MeetsBigNumber (t : List Ch) : Prop :=
  ∃ w ns s rest, t = w ++ 91 :: (s ++ rest) ∧ Spaces w ∧ Listed ns s ∧ NoDigitNext 10 rest ∧
    ∃ n ∈ ns, ¬ fitsInt n.natAbs

/-- The same, one of the first four numbers. -/
def MeetsBigCoordinate (t : List Ch) : Prop :=
  ∃ w ns s rest, t = w ++ 91 :: (s ++ rest) ∧ Spaces w ∧ Listed ns s ∧ ns.length ≤ 4 ∧ NoDigitNext 10 rest ∧
    ∃ n ∈ ns, ¬ fitsInt n.natAbs

/-- Values of an `int` but the least. -/
def IntButLeast (n : Int) : Prop := -2147483648 < n ∧ n ≤ 2147483647

end Abu
