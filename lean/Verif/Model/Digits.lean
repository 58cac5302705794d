import Verif.Model.CharSet
/-
Digit values: /repo/include/abulafia/parsers/helpers/digit_values.h
-/
namespace Abu

/-- digit_values.h:28 and 38-41 `DigitValues<BASE>::is_valid(char c)`; the argument is
narrowed to `char` by the call. -/
def digitValid (base : Nat) (x : Ch) : Bool :=
  let c := narrow x
  if base ≤ 10 then
    decide (48 ≤ c) && decide (c ≤ 48 + (base : Int) - 1)
  else
    (decide (48 ≤ c) && decide (c ≤ 57)) ||
    (decide (97 ≤ c) && decide (c ≤ 97 + (base : Int) - 11)) ||
    (decide (65 ≤ c) && decide (c ≤ 65 + (base : Int) - 11))

/-- digit_values.h:29 and 43-54 `DigitValues<BASE>::value(char c)`. -/
def digitValue (base : Nat) (x : Ch) : Int :=
  let c := narrow x
  if base ≤ 10 then c - 48
  else if 48 ≤ c ∧ c ≤ 57 then c - 48
  else if 97 ≤ c ∧ c ≤ 122 then 10 + c - 97
  else if 65 ≤ c ∧ c ≤ 90 then 10 + c - 65
  else 0

end Abu
