import Verif.Spec.Calculator
import Verif.Spec.Decimal
/-
Specification of how expressions are printed, for C86.
-/
namespace Abu

/-- The level that an operation belongs to. -/
def Op.level : Op → Prec
  | .add => .sum
  | .sub => .sum
  | .mul => .product
  | .div => .product

/-- An operation of the second level can stand where one of the first can. -/
def Prec.admits : Prec → Prec → Bool
  | .sum, _ => true
  | .product, .product => true
  | _, _ => false

/-- The expression in decimal notation, without blanks and with parentheses only where precedence and
association to the left require them. -/
def Arith.print : Prec → Arith → List Ch
  | _, .num i => written i
  | L, .bin op a b =>
    if L.admits op.level then a.print op.level ++ op.symbol :: b.print op.level.inner
    else 40 :: (a.print op.level ++ op.symbol :: b.print op.level.inner ++ [41])

end Abu
