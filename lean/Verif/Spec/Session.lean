import Verif.Spec.Cursor
/-
Specification vocabulary for sequences of operations on a data source.
-/
namespace Abu

/-- One operation on a resumable data source. -/
inductive DsOp
  /-- the user adds a buffer, `true` when it is the last one -/
  | add (b : List Ch) (isFinal : Bool)
  | advance
  | prepare
  | commit
  | cancel

/-- Effect of one operation on the specification cursor; `none`: the operation is outside
its contract (adding after the final buffer, advancing at the end of the text, rolling back
without a rollback point). -/
def Cursor.step (c : Cursor) : DsOp → Option Cursor
  | .add b f => if c.final then none else some (c.feed b f)
  | .advance => DataSource.advance c
  | .prepare => some (DataSource.prepare c)
  | .commit => DataSource.commit c
  | .cancel => DataSource.cancel c

/-- The cursor after a whole sequence of operations, from the beginning. -/
def Cursor.after (ops : List DsOp) : Option Cursor := ops.foldlM Cursor.step Cursor.start

/-- Effect of one operation on the buffer sequence of the library. -/
def ContainerSeq.step (s : ContainerSeq) : DsOp → Option ContainerSeq
  | .add b f => s.addBuffer b f
  | .advance => DataSource.advance s
  | .prepare => some (DataSource.prepare s)
  | .commit => DataSource.commit s
  | .cancel => DataSource.cancel s

/-- The buffer sequence after a whole sequence of operations, from construction; `none`:
undefined behaviour happened on the way. -/
def ContainerSeq.after (ops : List DsOp) : Option ContainerSeq :=
  ops.foldlM ContainerSeq.step ContainerSeq.make

/-- Effect of one operation on an iterator-pair source; it has no `add_buffer`. -/
def SingleForward.step (s : SingleForward) : DsOp → Option SingleForward
  | .add _ _ => none
  | .advance => DataSource.advance s
  | .prepare => some (DataSource.prepare s)
  | .commit => DataSource.commit s
  | .cancel => DataSource.cancel s

/-- The iterator-pair source over the text `t` after a whole sequence of operations. -/
def SingleForward.after (t : List Ch) (ops : List DsOp) : Option SingleForward :=
  ops.foldlM SingleForward.step (SingleForward.make t)

/-- `Reads s t`: repeatedly reading the next character and advancing until the source says
it is empty yields exactly `t`. -/
inductive Reads {σ : Type} [DataSource σ] : σ → List Ch → Prop
  | done {s} : DataSource.empty s = true → Reads s []
  | read {s s' c t} : DataSource.empty s = false → DataSource.next s = some c →
      DataSource.advance s = some s' → Reads s' t → Reads s (c :: t)

/-- Text added by a sequence of operations. -/
def addedText : List DsOp → List Ch
  | [] => []
  | .add b _ :: ops => b ++ addedText ops
  | _ :: ops => addedText ops

/-- Only the arrival of data, without reading or rolling back. -/
def arrivals : List DsOp → List DsOp
  | [] => []
  | .add b f :: ops => .add b f :: arrivals ops
  | _ :: ops => arrivals ops

/-- The non-empty buffers added by a sequence of operations, in order. -/
def addedBuffers : List DsOp → List (List Ch)
  | [] => []
  | .add b _ :: ops => if b = [] then addedBuffers ops else b :: addedBuffers ops
  | _ :: ops => addedBuffers ops

/-- Sequences of operations in which every rollback point that is created is also closed,
and no other rollback point is touched. -/
inductive Balanced : List DsOp → Prop
  | nil : Balanced []
  | add (b f) : Balanced [.add b f]
  | advance : Balanced [.advance]
  | append {l m} : Balanced l → Balanced m → Balanced (l ++ m)
  | commit {l} : Balanced l → Balanced (.prepare :: l ++ [.commit])
  | cancel {l} : Balanced l → Balanced (.prepare :: l ++ [.cancel])

/-- The buffers that are still needed when no position before `p` will be visited again:
everything from the buffer that contains position `p`. -/
def neededFrom : Nat → List (List Ch) → List (List Ch)
  | _, [] => []
  | p, b :: bs => if b.length ≤ p then neededFrom (p - b.length) bs else b :: bs

/-- The oldest position a cursor can still come back to. -/
def Cursor.oldest (c : Cursor) : Nat := c.saved.getLast?.getD c.pos

end Abu
