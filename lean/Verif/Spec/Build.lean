import Verif.Model.Pattern
/-
Expressions written with one binary operator and parentheses.
-/
namespace Abu

/-- An expression made of operands and one binary operator, with its grouping. -/
inductive Expr where
  | operand (p : Pat)
  | op (l r : Expr)

/-- The operands from left to right. -/
def Expr.operands : Expr → List Pat
  | .operand p => [p]
  | .op l r => l.operands ++ r.operands

/-- The value of the expression when the operator is `f`. -/
def Expr.eval (f : Pat → Pat → Pat) : Expr → Pat
  | .operand p => p
  | .op l r => f (l.eval f) (r.eval f)

/-- Is the expression more than a lone operand? -/
def Expr.compound : Expr → Prop
  | .operand _ => False
  | .op .. => True

/-- The elements of a sequence; any other pattern counts as one element. -/
def Pat.elements : Pat → List Pat
  | .seq ps => ps
  | p => [p]

/-- The choices of an alternative; any other pattern counts as one choice. -/
def Pat.choices : Pat → List Pat
  | .alt ps => ps
  | p => [p]

end Abu
