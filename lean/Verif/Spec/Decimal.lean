import Verif.Model.Digits
/-
Integers written in decimal notation.
-/
namespace Abu

/-- The decimal digits of a natural number. -/
def decimal (n : Nat) : List Ch :=
  if n < 10 then [48 + (n : Int)] else decimal (n / 10) ++ [48 + ((n % 10 : Nat) : Int)]

/-- An integer in decimal notation. -/
def written (n : Int) : List Ch := if n < 0 then 45 :: decimal n.natAbs else decimal n.natAbs

/-- Integers in decimal notation, separated by commas. -/
def commaSeparated : List Int → List Ch
  | [] => []
  | [n] => written n
  | n :: ns => written n ++ 44 :: commaSeparated ns

/-- The same between brackets. -/
def bracketed (ns : List Int) : List Ch := 91 :: commaSeparated ns ++ [93]

end Abu
