import Verif.Model.Checked
import Verif.Model.Copies
import Verif.Spec.Buffers
/-
Moves of parser objects. `ParserInterface` (/repo/include/abulafia/operations/make_parser.h:22-41)
declares no move constructor, so it has the implicit one, which moves member by member:

* `data_source_` (container_sequence.h:37-45): `buffers_` and `rollback_stack_` are moved, the rest is
  copied. The iterators to elements of `buffers_` now point into the list of the new object, in both
  objects. An iterator to the end does not ([container.reqmts]: it need not stay valid);
* `ctx_` (context.h:43): `data_` is a reference, the one to the data source of the old object;
* `pat_`, `dst_`, `parser_`: the same pattern, destination and parser objects. Simplification: the
  buffers of the parser objects stay where they are in the memory.
-/
namespace Abu

/-- A data source that was moved from: `final_` and `empty_rollbacks_` are as they were,
`rollback_stack_` is empty, and `current_buffer_` does not belong to `buffers_`. -/
structure Hollow where
  final_ : Bool
  emptyRollbacks : Nat

/-- The implicit move constructor of `ContainerSequenceDataSource`: what it leaves of its argument. -/
def ContainerSeq.hollow (s : ContainerSeq) : Hollow := ⟨s.final_, s.emptyRollbacks⟩

/-- The implicit move constructor of `ContainerSequenceDataSource`: the new data source. If
`current_buffer_` was `buffers_.end()`, it is that of the other list still, so that as with a copy
(`Copies.lean`) only `final_` can be used. -/
def ContainerSeq.movedTo (s : ContainerSeq) : OwnSource := if s.empty then .copied s.final_ else .own s

namespace Hollow

/-- container_sequence.h:54-74: `assert(!final_)`; line 58; line 59, `empty()`, compares iterators of
different lists. -/
def add (s : Hollow) (b : List Ch) (f : Bool) : Option Hollow :=
  if s.final_ then none else if b.isEmpty then some { s with final_ := f } else none

/-- container_sequence.h:127-145, `commit_rollback` and `cancel_rollback`: `rollback_stack_.back()`, line
131, is undefined, and so is `rollback_stack_.pop_back()`, line 142. -/
def close (s : Hollow) : Option Hollow :=
  if s.emptyRollbacks ≠ 0 then some { s with emptyRollbacks := s.emptyRollbacks - 1 } else none

end Hollow

section
variable {μ : Type} [Store μ]

/-- `exec` (`Machine.lean`) on a data source that was moved from. `empty()` (container_sequence.h:117)
compares iterators of different lists, and `next()`, `prepare_rollback()` call it (lines 88, 120).
Simplification: `advance()` is taken to be undefined; it is not called before `empty()`. -/
def execHollow (call : Prog → Ref → Ref → PState → World Hollow μ → Out Hollow μ (Res × PState))
    {α : Type} : Cmd α → World Hollow μ → Out Hollow μ α
  | .pure a, w => .ok (a, w)
  | .fault e, _ => .error e
  | .isEmpty _, _ => .error .ubData
  | .isFinal k, w => execHollow call (k w.ds.final_) w
  | .next _, _ => .error .ubData
  | .advance _, _ => .error .ubData
  | .prepare _, _ => .error .ubData
  | .commit k, w =>
    match w.ds.close with
    | none => .error .ubData
    | some ds => execHollow call k { w with ds }
  | .cancel k, w =>
    match w.ds.close with
    | none => .error .ubData
    | some ds => execHollow call k { w with ds }
  | .mem o k, w =>
    match Store.op o w.mem with
    | .error e => .error e
    | .ok mem => execHollow call k { w with mem }
  | .alloc t k, w =>
    execHollow call (k (Store.alloc t w.mem).1) { w with mem := (Store.alloc t w.mem).2 }
  | .call p d b s k, w =>
    match call p d b s w with
    | .error e => .error e
    | .ok ((r, s'), w') => execHollow call (k r s') w'

/-- `run` (`Machine.lean`) on such a data source. -/
def runHollow (env : Env) : Mach Hollow μ
  | 0, _, _, _, _, _ => .error .fuel
  | n + 1, p, dst, bnd, st, w =>
    match execHollow (runHollow env n) (body env p dst bnd st) w with
    | .error e => .error e
    | .ok (.ret r st', w') => .ok ((r, st'), w')
    | .ok (.cont st', w') => runHollow env n p dst bnd st' w'

end

/-- What the user does after a move. -/
inductive MoveOp
  /-- `old.data().add_buffer(b, isFinal)` -/
  | addOld (b : List Ch) (isFinal : Bool)
  /-- `moved.data().add_buffer(b, isFinal)` -/
  | addNew (b : List Ch) (isFinal : Bool)
  /-- the end of the lifetime of the object that was moved from -/
  | dropOld
  /-- `moved.consume()` -/
  | consume

/-- How it ends: undefined behaviour, or with an answer (`PARTIAL`: there was none yet). -/
abbrev MoveEnd := Except Err (Res × Mem)

/-- The moved object, with parser `st`; `old`, if it is there still, is the data source of the object
that was moved from, to which `ctx_` refers, `new` its own. What is done after an answer is left out.
There is no rule for the use of an object that is gone: C++ does not have it. -/
inductive AfterMove (env : Env) (p : Prog) (dst : Ref) :
    PState → Option Hollow → OwnSource → Mem → List MoveOp → MoveEnd → Prop
  | nil {st old new m} : AfterMove env p dst st old new m [] (.ok (.PARTIAL, m))
  | addOldBad {st s new m b f ops} : s.add b f = none →
      AfterMove env p dst st (some s) new m (.addOld b f :: ops) (.error .ubData)
  | addOld {st s s' new m b f ops v} : s.add b f = some s' →
      AfterMove env p dst st (some s') new m ops v →
      AfterMove env p dst st (some s) new m (.addOld b f :: ops) v
  | addNewBad {st old new m b f ops} : new.add b f = none →
      AfterMove env p dst st old new m (.addNew b f :: ops) (.error .ubData)
  | addNew {st old new new' m b f ops v} : new.add b f = some new' →
      AfterMove env p dst st old new' m ops v →
      AfterMove env p dst st old new m (.addNew b f :: ops) v
  | dropOld {st s new m ops v} : AfterMove env p dst st none new m ops v →
      AfterMove env p dst st (some s) new m (.dropOld :: ops) v
  /-- make_parser.h:31 with a reference to an object that is gone -/
  | dangling {st new m ops} :
      AfterMove env p dst st none new m (.consume :: ops) (.error .ubDangling)
  /-- make_parser.h:31 -/
  | error {st s new m ops e} : EvalsBy (runHollow env) p dst dst st ⟨s, m⟩ (.error e) →
      AfterMove env p dst st (some s) new m (.consume :: ops) (.error e)
  | answer {st s new m ops r st' w'} :
      EvalsBy (runHollow env) p dst dst st ⟨s, m⟩ (.ok ((r, st'), w')) → r ≠ .PARTIAL →
      AfterMove env p dst st (some s) new m (.consume :: ops) (.ok (r, w'.mem))
  | more {st s new m ops st' w' v} :
      EvalsBy (runHollow env) p dst dst st ⟨s, m⟩ (.ok ((.PARTIAL, st'), w')) →
      AfterMove env p dst st' (some w'.ds) new w'.mem ops v →
      AfterMove env p dst st (some s) new m (.consume :: ops) v

/-- A parser object (make_parser.h:43-51) that has not answered yet after `ops` is moved, and the
program goes on with `ops'`. -/
def MoveProgram (env : Env) (p : Pat) (dst : Ref) (m : Mem) (ops : List SOp) (ops' : List MoveOp)
    (v : MoveEnd) : Prop :=
  ∃ r st w, Driven ContainerSeq.addBuffer ContainerSeq.make env (topParser p) dst m ops r st w ∧
    (r = none ∨ r = some .PARTIAL) ∧
    AfterMove env (topParser p) dst st (some w.ds.hollow) w.ds.movedTo w.mem ops' v

end Abu
