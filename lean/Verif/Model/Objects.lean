import Verif.Model.Api
/-
Programs that use several parser objects: /repo/include/abulafia/operations/make_parser.h and
/repo/docs/guide/04_resumable_parsers.md. Each object has a data source of its own
(make_parser.h:36), a copy of its pattern and a wrapper around its destination
(make_parser.h:38-39); the destinations, and whatever actions act on, are shared memory.
-/
namespace Abu

/-- The arguments of one `make_parser` (make_parser.h:43-51) of a program; `env` has the `Recur`
definitions its pattern refers to. -/
structure Decl where
  env : Env
  pat : Pat
  dst : Ref

/-- A step of the program: creation of parser object `i`, or an operation on it. -/
inductive UOp
  | make (i : Nat)
  | use (i : Nat) (op : SOp)

/-- A parser object of the program. As in `Session`, the user of an object lets it be once
`consume` has returned something else than `PARTIAL`: what is added afterwards is only recorded
as unread. -/
inductive ObjState
  | absent
  | live (st : PState) (ds : ContainerSeq)
  | done (r : Res) (rest : List Ch)

/-- The objects, with object `i` replaced. -/
def setObj (θ : Nat → ObjState) (i : Nat) (s : ObjState) : Nat → ObjState :=
  fun j => if j = i then s else θ j

/-- The program `ops`, started with objects `θ` and memory `m`, ends with undefined behaviour, or
with the given objects and memory. There is no rule for programs that use an object before its
creation, or create it twice: C++ does not have them. -/
inductive Program (D : Nat → Decl) :
    (Nat → ObjState) → Mem → List UOp → Except Err ((Nat → ObjState) × Mem) → Prop
  | nil {θ m} : Program D θ m [] (.ok (θ, m))
  /-- make_parser.h:24-28 -/
  | makeBad {θ m i ops e} : θ i = .absent →
      construct (topParser (D i).pat) (D i).dst (D i).dst
        (⟨ContainerSeq.make, m⟩ : World ContainerSeq Mem) = .error e →
      Program D θ m (.make i :: ops) (.error e)
  | make {θ m i ops st ds m1 v} : θ i = .absent →
      construct (topParser (D i).pat) (D i).dst (D i).dst
        (⟨ContainerSeq.make, m⟩ : World ContainerSeq Mem) = .ok (st, ⟨ds, m1⟩) →
      Program D (setObj θ i (.live st ds)) m1 ops v → Program D θ m (.make i :: ops) v
  | addBad {θ m i st ds b f ops} : θ i = .live st ds → ds.addBuffer b f = none →
      Program D θ m (.use i (.add b f) :: ops) (.error .ubData)
  | add {θ m i st ds b f ops ds1 v} : θ i = .live st ds → ds.addBuffer b f = some ds1 →
      Program D (setObj θ i (.live st ds1)) m ops v → Program D θ m (.use i (.add b f) :: ops) v
  /-- make_parser.h:31 -/
  | error {θ m i st ds ops e} : θ i = .live st ds →
      Evals (D i).env (topParser (D i).pat) (D i).dst (D i).dst st ⟨ds, m⟩ (.error e) →
      Program D θ m (.use i .consume :: ops) (.error e)
  | verdict {θ m i st ds ops r st1 ds1 m1 rest v} : θ i = .live st ds →
      Evals (D i).env (topParser (D i).pat) (D i).dst (D i).dst st ⟨ds, m⟩
        (.ok ((r, st1), ⟨ds1, m1⟩)) →
      r ≠ .PARTIAL → Reads ds1 rest →
      Program D (setObj θ i (.done r rest)) m1 ops v → Program D θ m (.use i .consume :: ops) v
  | more {θ m i st ds ops st1 ds1 m1 v} : θ i = .live st ds →
      Evals (D i).env (topParser (D i).pat) (D i).dst (D i).dst st ⟨ds, m⟩
        (.ok ((.PARTIAL, st1), ⟨ds1, m1⟩)) →
      Program D (setObj θ i (.live st1 ds1)) m1 ops v → Program D θ m (.use i .consume :: ops) v
  | addDone {θ m i r rest b f ops v} : θ i = .done r rest →
      Program D (setObj θ i (.done r (rest ++ b))) m ops v →
      Program D θ m (.use i (.add b f) :: ops) v
  | consumeDone {θ m i r rest ops v} : θ i = .done r rest → Program D θ m ops v →
      Program D θ m (.use i .consume :: ops) v

end Abu
