import Verif.Model.Throws
/-
Parser objects (/repo/include/abulafia/operations/make_parser.h) that are used again after an exception
has left `consume`. Nothing is undone when it does: all parser objects stay as they were at the throw.
-/
namespace Abu

/-- What is left in an object that was moved from. For the classes of the standard library that is
"valid but unspecified". -/
abbrev Moved : Type := Val → Val

mutual
/-- Types whose move is a copy. Simplification: no class of the user's is one of them. -/
def Ty.moveCopies : Ty → Bool
  | .nil => true
  | .num _ => true
  | .coll _ => false
  | .tup ts => Ty.allMoveCopies ts
  | .user _ => false
/-- All of a tuple's. -/
def Ty.allMoveCopies : List Ty → Bool
  | [] => true
  | t :: ts => t.moveCopies && Ty.allMoveCopies ts
end

/-- unary/action.h:186: `std::move(landing)` is what the parameter `land` of `act_dispatch`
(action.h:105, by value) is made from. -/
def Mem.moveFrom (M : Moved) (m : Mem) (t : Ty) (land : Ref) : Except Err Mem :=
  if t.moveCopies then .ok m
  else match land with
    | .nil => .ok m
    | .at obj path _ => m.modify obj path (fun v => .ok (M v))

/-- `Mem.throws` (`Throws.lean`) with what it does to the landing object, which is still there. -/
def Mem.throwsOut (M : Moved) (T : Throwing) (m : Mem) : MemOp → Option (Except Err Mem)
  | .act a land dst bnd =>
    match m.throws T (.act a land dst bnd) with
    | some (.ok m1) => some (m1.moveFrom M a.landing land)
    | r => r
  | _ => none

/-- The parser object `st` with another child in place of the one whose `consume` it calls.
Sequence and alternative: the content of the variant (nary/sequence.h:108, alternative.h:63); the skip
adapter: the skip parser until that is done (adapters/skip.h:48-66). -/
def PState.put : PState → PState → PState
  | .seq i _, c => .seq i c
  | .alt i _, c => .alt i c
  | .rep n _, c => .rep n c
  | .wrap _, c => .wrap c
  | .buffered b _, c => .buffered b c
  | .skip false _ p, c => .skip false c p
  | .skip true s _, c => .skip true s c
  | .except b _, c => .except b c
  | .list b _, c => .list b c
  | .recurSome _, c => .recurSome c
  | st, _ => st

/-- The parser object when the operation before `k` throws. Only actions throw, and they do nothing
afterwards (unary/action.h:185-188): it is as it would be when `consume` returns. -/
def Cmd.settled (st : PState) : Cmd Step → PState
  | .pure (.ret _ st') => st'
  | _ => st

/-- A call of `consume` that is left early. -/
inductive StopR (σ : Type) where
  | err (e : Err)
  /-- an exception; the parser object and everything else as it is then -/
  | thrown (st : PState) (w : World σ Mem)

/-- Outcome of the machine below. -/
abbrev OutR (σ : Type) (α : Type) : Type := Except (StopR σ) (α × World σ Mem)

section
variable {σ : Type} [DataSource σ]

/-- `execT` (`Throws.lean`) for an iteration of `consume` of the object `st`, which keeps the parser
objects. -/
def execR (M : Moved) (T : Throwing) (st : PState)
    (call : Prog → Ref → Ref → PState → World σ Mem → OutR σ (Res × PState)) :
    Cmd Step → World σ Mem → OutR σ Step
  | .pure a, w => .ok (a, w)
  | .fault e, _ => .error (.err e)
  | .isEmpty k, w => execR M T st call (k (DataSource.empty w.ds)) w
  | .isFinal k, w => execR M T st call (k (DataSource.final w.ds)) w
  | .next k, w =>
    match DataSource.next w.ds with
    | none => .error (.err .ubData)
    | some c => execR M T st call (k c) w
  | .advance k, w =>
    match DataSource.advance w.ds with
    | none => .error (.err .ubData)
    | some ds => execR M T st call k { w with ds }
  | .prepare k, w => execR M T st call k { w with ds := DataSource.prepare w.ds }
  | .commit k, w =>
    match DataSource.commit w.ds with
    | none => .error (.err .ubData)
    | some ds => execR M T st call k { w with ds }
  | .cancel k, w =>
    match DataSource.cancel w.ds with
    | none => .error (.err .ubData)
    | some ds => execR M T st call k { w with ds }
  | .mem o k, w =>
    match w.mem.throwsOut M T o with
    | some (.error e) => .error (.err e)
    | some (.ok mem) => .error (.thrown (k.settled st) { w with mem })
    | none =>
      match w.mem.run o with
      | .error e => .error (.err e)
      | .ok mem => execR M T st call k { w with mem }
  | .alloc t k, w => execR M T st call (k (w.mem.alloc t).1) { w with mem := (w.mem.alloc t).2 }
  | .call p d b s k, w =>
    match call p d b s w with
    | .error (.err e) => .error (.err e)
    | .error (.thrown s' w') => .error (.thrown (st.put s') w')
    | .ok ((r, s'), w') => execR M T st call (k r s') w'

/-- `runT` (`Throws.lean`), which keeps the parser objects. -/
def runR (M : Moved) (T : Throwing) (env : Env) :
    Nat → Prog → Ref → Ref → PState → World σ Mem → OutR σ (Res × PState)
  | 0, _, _, _, _, _ => .error (.err .fuel)
  | n + 1, p, dst, bnd, st, w =>
    match execR M T st (runR M T env n) (body env p dst bnd st) w with
    | .error e => .error e
    | .ok (.ret r st', w') => .ok ((r, st'), w')
    | .ok (.cont st', w') => runR M T env n p dst bnd st' w'

/-- The user calls `consume` again whenever an exception leaves it; `k` bounds how often. -/
def retried (M : Moved) (T : Throwing) (env : Env) (n : Nat) :
    Nat → Prog → Ref → Ref → PState → World σ Mem → Out σ Mem (Res × PState)
  | 0, _, _, _, _, _ => .error .fuel
  | k + 1, p, dst, bnd, st, w =>
    match runR M T env n p dst bnd st w with
    | .ok x => .ok x
    | .error (.err e) => .error e
    | .error (.thrown st' w') => retried M T env n k p dst bnd st' w'

/-- A parser object whose user does that. -/
def retrying (M : Moved) (T : Throwing) (env : Env) : Mach σ Mem := fun n => retried M T env n n

end
end Abu
