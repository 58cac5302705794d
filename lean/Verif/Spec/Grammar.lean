import Verif.Spec.Peg
/-
The outcome the grammar gives for a whole text.
-/
namespace Abu

/-- What the grammar says of a text: `some rest`, the pattern matches a prefix and `rest` is what
follows it; `none`, the pattern does not match. -/
def PegRest (env : Env) (p : Pat) (t : List Ch) : Option (List Ch) → Prop
  | some rest => ∃ j, Peg env t p 0 (some j) ∧ rest = t.drop j
  | none => Peg env t p 0 none

end Abu
