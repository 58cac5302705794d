import Verif.Model.Moves
/-
Specification vocabulary for moves of parser objects (C81).
-/
namespace Abu

/-- What the user would have done without the move: the data source that is read gets the same buffers,
and `consume` is called as often. -/
def MoveOp.unmoved : List MoveOp → List SOp
  | [] => []
  | .addOld b f :: ops => .add b f :: MoveOp.unmoved ops
  | .addNew _ _ :: ops => MoveOp.unmoved ops
  | .dropOld :: ops => MoveOp.unmoved ops
  | .consume :: ops => .consume :: MoveOp.unmoved ops

/-- The same uses of the object that was moved to. -/
def SOp.moved : SOp → MoveOp
  | .add b f => .addNew b f
  | .consume => .consume

end Abu
