import Verif.Model.Api
/-
How long parsing takes.

`steps` counts the iterations of the `consume` functions (`body` in `Machine.lean`: a turn of a
`while (1)`, or a `consume_from<ID + 1>`, /repo/include/abulafia/parsers/coroutine/**), those of the
children included.

Simplification: all iterations count the same. What one of them takes, apart from the calls it
makes, does not depend on the text: it tests and advances the data source, moves one rollback
point, constructs the next child (the constructors of its children included), and assigns. The time
taken by actions and by the assignments of the user's types is not counted.
-/
namespace Abu

section
variable {σ μ : Type} [DataSource σ] [Store μ]

/-- What the calls in a command take; `cost` is what a call takes, and `call` what it does. -/
def callSteps (call : Prog → Ref → Ref → PState → World σ μ → Out σ μ (Res × PState))
    (cost : Prog → Ref → Ref → PState → World σ μ → Nat) {α : Type} : Cmd α → World σ μ → Nat
  | .pure _, _ => 0
  | .fault _, _ => 0
  | .isEmpty k, w => callSteps call cost (k (DataSource.empty w.ds)) w
  | .isFinal k, w => callSteps call cost (k (DataSource.final w.ds)) w
  | .next k, w =>
    match DataSource.next w.ds with
    | none => 0
    | some c => callSteps call cost (k c) w
  | .advance k, w =>
    match DataSource.advance w.ds with
    | none => 0
    | some ds => callSteps call cost k { w with ds }
  | .prepare k, w => callSteps call cost k { w with ds := DataSource.prepare w.ds }
  | .commit k, w =>
    match DataSource.commit w.ds with
    | none => 0
    | some ds => callSteps call cost k { w with ds }
  | .cancel k, w =>
    match DataSource.cancel w.ds with
    | none => 0
    | some ds => callSteps call cost k { w with ds }
  | .mem o k, w =>
    match Store.op o w.mem with
    | .error _ => 0
    | .ok mem => callSteps call cost k { w with mem }
  | .alloc t k, w =>
    callSteps call cost (k (Store.alloc t w.mem).1) { w with mem := (Store.alloc t w.mem).2 }
  | .call p d b s k, w =>
    cost p d b s w +
      match call p d b s w with
      | .error _ => 0
      | .ok ((r, s'), w') => callSteps call cost (k r s') w'

/-- The number of iterations `run env n` goes through, itself and in the calls it makes. -/
def steps (env : Env) : Nat → Prog → Ref → Ref → PState → World σ μ → Nat
  | 0, _, _, _, _, _ => 0
  | n + 1, p, dst, bnd, st, w =>
    1 + callSteps (run env n) (steps env n) (body env p dst bnd st) w +
      match exec (run env n) (body env p dst bnd st) w with
      | .ok (.cont st', w') => steps env n p dst bnd st' w'
      | _ => 0

end

/-- operations/parse.h:29-41: the number of iterations `parse` goes through when cut short by the
bound `n` of `run`. -/
def parseSteps (env : Env) (n : Nat) (p : Pat) (dst : Ref) (m : Mem) (t : List Ch) : Nat :=
  match construct (topParser p) dst dst (⟨SingleForward.make t, m⟩ : World SingleForward Mem) with
  | .ok (st, w) => steps env n (topParser p) dst dst st w
  | .error _ => 0

/-- A parser object (operations/make_parser.h:22-41) in state `st` with data source and memory `w`,
driven by the user operations `ops` until a `consume` returns something else than `PARTIAL`: the
number of iterations of all calls of `consume`, each of them cut short by the bound `n` of `run`.
`add` is the `add_buffer` of the data source. -/
def sessionSteps {σ : Type} [DataSource σ] (add : σ → List Ch → Bool → Option σ) (env : Env) (n : Nat)
    (p : Prog) (dst : Ref) : PState → World σ Mem → List SOp → Nat
  | _, _, [] => 0
  | st, w, .add b f :: ops =>
    match add w.ds b f with
    | none => 0
    | some ds => sessionSteps add env n p dst st ⟨ds, w.mem⟩ ops
  | st, w, .consume :: ops =>
    steps env n p dst dst st w +
      match run env n p dst dst st w with
      | .ok ((.PARTIAL, st'), w') => sessionSteps add env n p dst st' w' ops
      | _ => 0

/-- operations/make_parser.h:43-51 then the user operations: the number of iterations of a parser
object driven by `ops`. -/
def objectSteps (env : Env) (n : Nat) (p : Pat) (dst : Ref) (m : Mem) (ops : List SOp) : Nat :=
  match construct (topParser p) dst dst (⟨ContainerSeq.make, m⟩ : World ContainerSeq Mem) with
  | .ok (st, w) => sessionSteps ContainerSeq.addBuffer env n (topParser p) dst st w ops
  | .error _ => 0

end Abu
