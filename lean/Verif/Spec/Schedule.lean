import Verif.Model.Api
/-
Specification vocabulary for the delivery of a text to a parser object.
-/
namespace Abu

/-- After the final buffer the user only calls `consume`, at least once. -/
def AfterFinal : List SOp → Prop
  | .consume :: _ => True
  | _ => False

/-- The user delivers a complete text: some buffers, the last of which is final, with `consume`
calls anywhere in between, and one after the final buffer. -/
def Complete : List SOp → Prop
  | [] => False
  | .consume :: ops => Complete ops
  | .add _ false :: ops => Complete ops
  | .add _ true :: ops => AfterFinal ops ∧ opsText ops = []

/-- The user never declares the input finished. -/
def Unfinished (ops : List SOp) : Prop := ∀ b f, SOp.add b f ∈ ops → f = false

/-- The user does not add buffers after the final one (the contract of `add_buffer`). -/
def Legal : List SOp → Prop
  | [] => True
  | .consume :: ops => Legal ops
  | .add _ false :: ops => Legal ops
  | .add _ true :: ops => ∀ b f, SOp.add b f ∉ ops

end Abu
