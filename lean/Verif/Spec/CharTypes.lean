import Verif.Model.TextTypes
/-
Specification vocabulary for characters of different types.
-/
namespace Abu

/-- The values of the type: `char` is signed and has 8 bits, `char32_t` is unsigned and has 32. -/
def CharTy.Holds : CharTy → Int → Prop
  | .char, x => -128 ≤ x ∧ x ≤ 127
  | .wide, x => 0 ≤ x ∧ x ≤ 4294967295

/-- The number of values of the type. -/
def CharTy.count : CharTy → Int
  | .char => 256
  | .wide => 4294967296

/-- `e` is what the C++ conversion to the type `k` makes of `c`: the only value of the type that
differs from it by a multiple of the number of values. -/
def Converted (k : CharTy) (c e : Int) : Prop := k.Holds e ∧ ∃ n : Int, c = e + n * k.count

/-- The same for texts. -/
inductive ConvertedText (k : CharTy) : List Int → List Int → Prop
  | nil : ConvertedText k [] []
  | cons {c e cs es} : Converted k c e → ConvertedText k cs es → ConvertedText k (c :: cs) (e :: es)

end Abu
