import Verif.Model.Checked
/-
Actions that throw. Nothing in the library catches exceptions, so one thrown by an action leaves
`consume` of every parser around it, and `parse` or `ParserInterface::consume` itself.
-/
namespace Abu

/-- Which calls of actions throw: depends on the action, on the calls before, and on the value
given. Simplification: not on the value of the bound destination. -/
abbrev Throwing : Type := Nat → List LogEntry → Val → Bool

/-- A parse that is left early. -/
inductive Stop (σ : Type) where
  /-- something undefined, or more steps than given -/
  | err (e : Err)
  /-- an exception; `w`: what is there when it leaves -/
  | thrown (w : World σ Mem)

/-- Outcome of the machine below. -/
abbrev OutT (σ : Type) (α : Type) : Type := Except (Stop σ) (α × World σ Mem)

/-- unary/action.h:104-144 `act_dispatch` when the call throws: the arguments are evaluated and the
function called, which may have written to the bound destination by then; `dst = act(...)`
(action.h:118-127) is not carried out. That is what happens with an action that returns `void`.
`none`: the operation does not throw. -/
def Mem.throws (T : Throwing) (m : Mem) : MemOp → Option (Except Err Mem)
  | .act a land _ bnd =>
    match m.read land with
    | .error _ => none
    | .ok .indet => none
    | .ok v => if T a.id m.log v then some (m.act { a with void := true } land .nil bnd) else none
  | _ => none

section
variable {σ : Type} [DataSource σ]

/-- `exec` (`Machine.lean`) with actions that throw. No parser has a handler or a destructor of its
own: the exception leaves all of them. -/
def execT (T : Throwing)
    (call : Prog → Ref → Ref → PState → World σ Mem → OutT σ (Res × PState)) {α : Type} :
    Cmd α → World σ Mem → OutT σ α
  | .pure a, w => .ok (a, w)
  | .fault e, _ => .error (.err e)
  | .isEmpty k, w => execT T call (k (DataSource.empty w.ds)) w
  | .isFinal k, w => execT T call (k (DataSource.final w.ds)) w
  | .next k, w =>
    match DataSource.next w.ds with
    | none => .error (.err .ubData)
    | some c => execT T call (k c) w
  | .advance k, w =>
    match DataSource.advance w.ds with
    | none => .error (.err .ubData)
    | some ds => execT T call k { w with ds }
  | .prepare k, w => execT T call k { w with ds := DataSource.prepare w.ds }
  | .commit k, w =>
    match DataSource.commit w.ds with
    | none => .error (.err .ubData)
    | some ds => execT T call k { w with ds }
  | .cancel k, w =>
    match DataSource.cancel w.ds with
    | none => .error (.err .ubData)
    | some ds => execT T call k { w with ds }
  | .mem o k, w =>
    match w.mem.throws T o with
    | some (.error e) => .error (.err e)
    | some (.ok mem) => .error (.thrown { w with mem })
    | none =>
      match w.mem.run o with
      | .error e => .error (.err e)
      | .ok mem => execT T call k { w with mem }
  | .alloc t k, w => execT T call (k (w.mem.alloc t).1) { w with mem := (w.mem.alloc t).2 }
  | .call p d b s k, w =>
    match call p d b s w with
    | .error e => .error e
    | .ok ((r, s'), w') => execT T call (k r s') w'

/-- `run` (`Machine.lean`) with actions that throw. -/
def runT (T : Throwing) (env : Env) :
    Nat → Prog → Ref → Ref → PState → World σ Mem → OutT σ (Res × PState)
  | 0, _, _, _, _, _ => .error (.err .fuel)
  | n + 1, p, dst, bnd, st, w =>
    match execT T (runT T env n) (body env p dst bnd st) w with
    | .error e => .error e
    | .ok (.ret r st', w') => .ok ((r, st'), w')
    | .ok (.cont st', w') => runT T env n p dst bnd st' w'

/-- `Evals` (`Machine.lean`) with actions that throw. -/
def EvalsT (T : Throwing) (env : Env) (p : Prog) (dst bnd : Ref) (st : PState) (w : World σ Mem)
    (out : OutT σ (Res × PState)) : Prop :=
  out ≠ .error (.err .fuel) ∧ ∃ n, runT T env n p dst bnd st w = out

end

/-- How a call of the library ends. -/
inductive VerdictT where
  /-- as without exceptions -/
  | ends (v : Verdict)
  /-- with an exception; the destination and the calls of actions are in `m` -/
  | thrown (m : Mem)

/-- operations/parse.h:29-41. The construction of parsers calls no action (action.h:179-180). -/
inductive ParsesT (T : Throwing) (env : Env) (p : Pat) (dst : Ref) (m : Mem) (t : List Ch) :
    VerdictT → Prop
  | construct {e} :
      construct (topParser p) dst dst (⟨SingleForward.make t, m⟩ : World SingleForward Mem)
        = .error e →
      ParsesT T env p dst m t (.ends (.error e))
  | error {st w e} :
      construct (topParser p) dst dst (⟨SingleForward.make t, m⟩ : World SingleForward Mem)
        = .ok (st, w) →
      EvalsT T env (topParser p) dst dst st w (.error (.err e)) →
      ParsesT T env p dst m t (.ends (.error e))
  | thrown {st w w'} :
      construct (topParser p) dst dst (⟨SingleForward.make t, m⟩ : World SingleForward Mem)
        = .ok (st, w) →
      EvalsT T env (topParser p) dst dst st w (.error (.thrown w')) →
      ParsesT T env p dst m t (.thrown w'.mem)
  | ok {st w r st' w' rest} :
      construct (topParser p) dst dst (⟨SingleForward.make t, m⟩ : World SingleForward Mem)
        = .ok (st, w) →
      EvalsT T env (topParser p) dst dst st w (.ok ((r, st'), w')) →
      Reads w'.ds rest →
      ParsesT T env p dst m t (.ends (.ok (r, w'.mem, rest)))

/-- operations/make_parser.h:22-41, up to the first exception; `Retry.lean` has what follows. -/
inductive SessionT {σ : Type} [DataSource σ] (T : Throwing) (env : Env)
    (add : σ → List Ch → Bool → Option σ) (p : Prog) (dst : Ref) :
    PState → World σ Mem → List SOp → VerdictT → Prop
  | nil {st w rest} : Reads w.ds rest →
      SessionT T env add p dst st w [] (.ends (.ok (.PARTIAL, w.mem, rest)))
  | addBad {st w b f ops} : add w.ds b f = none →
      SessionT T env add p dst st w (.add b f :: ops) (.ends (.error .ubData))
  | add {st w b f ops ds v} : add w.ds b f = some ds →
      SessionT T env add p dst st ⟨ds, w.mem⟩ ops v →
      SessionT T env add p dst st w (.add b f :: ops) v
  | error {st w ops e} : EvalsT T env p dst dst st w (.error (.err e)) →
      SessionT T env add p dst st w (.consume :: ops) (.ends (.error e))
  | thrown {st w ops w'} : EvalsT T env p dst dst st w (.error (.thrown w')) →
      SessionT T env add p dst st w (.consume :: ops) (.thrown w'.mem)
  | verdict {st w ops r st' w' rest} : EvalsT T env p dst dst st w (.ok ((r, st'), w')) →
      r ≠ .PARTIAL → Reads w'.ds rest →
      SessionT T env add p dst st w (.consume :: ops) (.ends (.ok (r, w'.mem, rest ++ opsText ops)))
  | more {st w ops st' w' v} : EvalsT T env p dst dst st w (.ok ((.PARTIAL, st'), w')) →
      SessionT T env add p dst st' w' ops v →
      SessionT T env add p dst st w (.consume :: ops) v

/-- operations/make_parser.h:43-51. -/
inductive MakeParserRunT (T : Throwing) (env : Env) (p : Pat) (dst : Ref) (m : Mem)
    (ops : List SOp) : VerdictT → Prop
  | construct {e} :
      construct (topParser p) dst dst (⟨ContainerSeq.make, m⟩ : World ContainerSeq Mem)
        = .error e →
      MakeParserRunT T env p dst m ops (.ends (.error e))
  | run {st w v} :
      construct (topParser p) dst dst (⟨ContainerSeq.make, m⟩ : World ContainerSeq Mem)
        = .ok (st, w) →
      SessionT T env ContainerSeq.addBuffer (topParser p) dst st w ops v →
      MakeParserRunT T env p dst m ops v

end Abu
