import Verif.Model.Checked
/-
`SingleForwardDataSource` (/repo/include/abulafia/data_source/single_forward.h:22-63) over iterators
of a range that can be passed through only once, such as `std::istream_iterator`: an instance of the
same template, which does not ask for more.

The C++ standard on input iterators ([input.iterators], Table "Cpp17InputIterator requirements",
`++r`): afterwards, no copy of the previous value of `r` need be dereferenceable or in the domain of
`==`. Here, such a copy is stale, and using it is undefined.
-/
namespace Abu

/-- An iterator is identified by the number of increments that led to it. -/
structure SinglePass where
  /-- what has not been passed of the range `[b, e)`, the element at the last increment included -/
  stream : List Ch
  /-- how many increments there were -/
  passed : Nat
  /-- `current_` -/
  current : Nat
  /-- `rollback_stack_` (top first) -/
  stack : List Nat

namespace SinglePass

/-- single_forward.h:38 -/
def make (text : List Ch) : SinglePass := ⟨text, 0, 0, []⟩

/-- `current_` is not stale. -/
def live (s : SinglePass) : Bool := s.current == s.passed

/-- single_forward.h:62; comparing a stale iterator is undefined. -/
def empty (s : SinglePass) : Option Bool := if s.live then some s.stream.isEmpty else none

/-- single_forward.h:55 -/
def next (s : SinglePass) : Option Ch := if s.live then s.stream.head? else none

/-- single_forward.h:57-60 -/
def advance (s : SinglePass) : Option SinglePass :=
  if s.live then
    match s.stream with
    | [] => none
    | _ :: t => some { s with stream := t, passed := s.passed + 1, current := s.passed + 1 }
  else none

/-- single_forward.h:42 -/
def prepare (s : SinglePass) : SinglePass := { s with stack := s.current :: s.stack }

/-- single_forward.h:44-48: the copy may be stale -/
def commit (s : SinglePass) : Option SinglePass :=
  match s.stack with
  | [] => none
  | p :: ps => some { s with current := p, stack := ps }

/-- single_forward.h:50-53 -/
def cancel (s : SinglePass) : Option SinglePass :=
  match s.stack with
  | [] => none
  | _ :: ps => some { s with stack := ps }

end SinglePass

section
variable {μ : Type} [Store μ]

/-- `exec` (`Machine.lean`) on this data source. It is spelt out because `empty()`, too, can be
undefined here. -/
def execOnce (call : Prog → Ref → Ref → PState → World SinglePass μ → Out SinglePass μ (Res × PState))
    {α : Type} : Cmd α → World SinglePass μ → Out SinglePass μ α
  | .pure a, w => .ok (a, w)
  | .fault e, _ => .error e
  | .isEmpty k, w =>
    match w.ds.empty with
    | none => .error .ubData
    | some b => execOnce call (k b) w
  | .isFinal k, w => execOnce call (k true) w  -- single_forward.h:40
  | .next k, w =>
    match w.ds.next with
    | none => .error .ubData
    | some c => execOnce call (k c) w
  | .advance k, w =>
    match w.ds.advance with
    | none => .error .ubData
    | some ds => execOnce call k { w with ds }
  | .prepare k, w => execOnce call k { w with ds := w.ds.prepare }
  | .commit k, w =>
    match w.ds.commit with
    | none => .error .ubData
    | some ds => execOnce call k { w with ds }
  | .cancel k, w =>
    match w.ds.cancel with
    | none => .error .ubData
    | some ds => execOnce call k { w with ds }
  | .mem o k, w =>
    match Store.op o w.mem with
    | .error e => .error e
    | .ok mem => execOnce call k { w with mem }
  | .alloc t k, w =>
    execOnce call (k (Store.alloc t w.mem).1) { w with mem := (Store.alloc t w.mem).2 }
  | .call p d b s k, w =>
    match call p d b s w with
    | .error e => .error e
    | .ok ((r, s'), w') => execOnce call (k r s') w'

/-- `run` (`Machine.lean`) on this data source. -/
def runOnce (env : Env) : Mach SinglePass μ
  | 0, _, _, _, _, _ => .error .fuel
  | n + 1, p, dst, bnd, st, w =>
    match execOnce (runOnce env n) (body env p dst bnd st) w with
    | .error e => .error e
    | .ok (.ret r st', w') => .ok ((r, st'), w')
    | .ok (.cont st', w') => runOnce env n p dst bnd st' w'

/-- `construct` (`Machine.lean`) on this data source. -/
def constructOnce (p : Prog) (dst bnd : Ref) (w : World SinglePass μ) : Out SinglePass μ PState :=
  execOnce (fun _ _ _ _ _ => .error .stuck) (mk p dst bnd) w

end

/-- operations/parse.h:29-41 on input iterators over the text `t`. What is left is what has not been
taken from the stream. -/
inductive ParsesOnce (env : Env) (p : Pat) (dst : Ref) (m : Mem) (t : List Ch) : Verdict → Prop
  | construct {e} : constructOnce (topParser p) dst dst ⟨SinglePass.make t, m⟩ = .error e →
      ParsesOnce env p dst m t (.error e)
  | error {st w e} : constructOnce (topParser p) dst dst ⟨SinglePass.make t, m⟩ = .ok (st, w) →
      EvalsBy (runOnce env) (topParser p) dst dst st w (.error e) →
      ParsesOnce env p dst m t (.error e)
  | ok {st w r st' w'} :
      constructOnce (topParser p) dst dst ⟨SinglePass.make t, m⟩ = .ok (st, w) →
      EvalsBy (runOnce env) (topParser p) dst dst st w (.ok ((r, st'), w')) →
      ParsesOnce env p dst m t (.ok (r, w'.mem, w'.ds.stream))

end Abu
