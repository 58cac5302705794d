import Verif.Spec.Calculator
import Verif.Model.CalculatorMain
/-
Specification vocabulary for the program around the calculator (C85).
-/
namespace Abu

/-- The lines of an input, up to the first empty one. The last one may have no newline. -/
inductive Lines : List Ch → List (List Ch) → Prop
  | done : Lines [] []
  | blank {s} : Lines (10 :: s) []
  | line {l s ls} : l ≠ [] → 10 ∉ l → Lines s ls → Lines (l ++ 10 :: s) (l :: ls)
  | last {l} : l ≠ [] → 10 ∉ l → Lines l [l]

/-- The right thing to print for a line: the value of the longest expression that it starts with, if there
is one. -/
inductive Reply : List Ch → Printed → Prop
  | value {l w e s rest v} : LongestExpr l w e s rest → e.value = some v → InnerValues rest →
      Reply l (.value v)
  | failure {l} : ¬ StartsWithExpr l → InnerValues l → Reply l .failure

/-- As `Reply`, wherever there may be expressions without a value that are not answered. -/
inductive Right : List Ch → Printed → Prop
  | value {l w e s rest v} : LongestExpr l w e s rest → e.value = some v → Right l (.value v)
  | failure {l} : ¬ StartsWithExpr l → Right l .failure

/-- For each of several lines. -/
inductive Rights : List (List Ch) → List Printed → Prop
  | nil : Rights [] []
  | cons {l r ls rs} : Right l r → Rights ls rs → Rights (l :: ls) (r :: rs)

/-- The right thing to print for each of several lines. -/
inductive Replies : List (List Ch) → List Printed → Prop
  | nil : Replies [] []
  | cons {l r ls rs} : Reply l r → Replies ls rs → Replies (l :: ls) (r :: rs)

/-- A prompt before each line, and one before the empty line or the end of the input. -/
def dialogue : List Printed → List Printed
  | [] => [.prompt]
  | r :: rs => .prompt :: r :: dialogue rs

/-- The line is an expression, with blanks before and after it. -/
def IsExpr (l : List Ch) : Prop := ∃ w e s w', l = w ++ (s ++ w') ∧ Blanks w ∧ Written .sum e s ∧ Blanks w'

end Abu
