import Verif.Model.CharSet
/-
Specification of numbers in positional notation.
-/
namespace Abu

/-- The digit symbols in the order of their values. -/
def lowerDigits : List Char := "0123456789abcdefghijklmnopqrstuvwxyz".toList
/-- The same with capital letters. -/
def upperDigits : List Char := "0123456789ABCDEFGHIJKLMNOPQRSTUVWXYZ".toList

/-- Character `c` is the digit symbol of value `r`. -/
def IsDigitSymbol (r : Nat) (c : Ch) : Prop :=
  (∃ h : r < lowerDigits.length, c = (lowerDigits[r].toNat : Int)) ∨
  (∃ h : r < upperDigits.length, c = (upperDigits[r].toNat : Int))

/-- The characters `ds` are base `B` digits with values `rs`. -/
inductive DigitString (B : Nat) : List Ch → List Nat → Prop
  | nil : DigitString B [] []
  | cons {c r ds rs} : r < B → IsDigitSymbol r c → DigitString B ds rs →
      DigitString B (c :: ds) (r :: rs)

/-- The number written with digits of values `rs`, most significant first. -/
def positional (B : Nat) (rs : List Nat) : Nat := rs.foldl (fun a d => a * B + d) 0

/-- The text goes on with something else than a base `B` digit. -/
def NoDigitNext (B : Nat) (t : List Ch) : Prop :=
  ∀ c t', t = c :: t' → IsChar c ∧ ∀ r, r < B → ¬ IsDigitSymbol r c

/-- `ds` is the longest run of at most `mx` base `B` digits (`0`: of any length) at the start of
the text `ds ++ rest`, and `rs` are the values of its digits. -/
structure LongestRun (B mx : Nat) (ds : List Ch) (rs : List Nat) (rest : List Ch) : Prop where
  digits : DigitString B ds rs
  bound : mx ≠ 0 → ds.length ≤ mx
  longest : (mx ≠ 0 ∧ ds.length = mx) ∨ NoDigitNext B rest

/-- An optional sign, and whether it is a minus. -/
inductive Sign : List Ch → Bool → Prop
  | none : Sign [] false
  | plus : Sign [43] false
  | minus : Sign [45] true

/-- The number with magnitude `n` and the given sign. -/
def withSign (neg : Bool) (n : Nat) : Int := if neg then -(n : Int) else n

end Abu
