import Verif.Model.Api
/-
The entry of `consume` of `Seq` and `Alt`, which the model in `Machine.lean` skips: the dispatch on
the index of the variant of children, and the assumption on that index
(/repo/include/abulafia/support/visit_val.h, support/assert.h).
-/
namespace Abu

/-- support/visit_val.h:19-38 `val_visitor<T, N + left, N>::visit`: the value the visitor is called
with. -/
def valVisitor : (left n val : Nat) → Nat
  | 0, n, _ => n                                                        -- :33-38
  | left + 1, n, val => if n = val then n else valVisitor left (n + 1) val -- :22-29

/-- support/visit_val.h:40-44 `visit_val<MAX_V>` -/
def visitVal (max v : Nat) : Nat := valVisitor (max - 1) 0 v

/-- nary/sequence.h:126-135, nary/alternative.h:71-80: the `ID` of the `consume_from<ID>` that
`consume` calls for an object with `size` children, the variant of which has index `i`.
`resumable`: `CTX_T::IS_RESUMABLE`. -/
def entryId (resumable : Bool) (size i : Nat) : Nat :=
  if resumable then visitVal size i else 0

/-- nary/sequence.h:139, nary/alternative.h:84: `abu_assume(child_parsers_.index() == ID)`, at the
start of `consume`. -/
def entryAssumed (resumable : Bool) : Prog → PState → Bool
  | .seq _ ps, .seq i _ => i == entryId resumable ps.length i
  | .alt ps, .alt i _ => i == entryId resumable ps.length i
  | _, _ => true

section
variable {σ μ : Type} [DataSource σ] [Store μ]

/-- `run`, with the entry of `consume` of the children. -/
def runFrom (resumable : Bool) (env : Env) :
    Nat → Prog → Ref → Ref → PState → World σ μ → Out σ μ (Res × PState)
  | 0, _, _, _, _, _ => .error .fuel
  | n + 1, p, dst, bnd, st, w =>
    match exec (fun p d b s w => if entryAssumed resumable p s then runFrom resumable env n p d b s w
        else .error .ubAssume) (body env p dst bnd st) w with
    | .error e => .error e
    | .ok (.ret r st', w') => .ok ((r, st'), w')
    | .ok (.cont st', w') => runFrom resumable env n p dst bnd st' w'

/-- `consume`, with its entry: undefined behaviour if the assumption is violated. -/
def consumeExactly (resumable : Bool) (env : Env) (n : Nat) (p : Prog) (dst bnd : Ref) (st : PState)
    (w : World σ μ) : Out σ μ (Res × PState) :=
  if entryAssumed resumable p st then runFrom resumable env n p dst bnd st w else .error .ubAssume

/-- `consume` ends with the given outcome. -/
def EvalsExactly (resumable : Bool) (env : Env) (p : Prog) (dst bnd : Ref) (st : PState)
    (w : World σ μ) (out : Out σ μ (Res × PState)) : Prop :=
  out ≠ .error .fuel ∧ ∃ n, consumeExactly resumable env n p dst bnd st w = out

end

/-- operations/parse.h:29-41, as `Parses`. data_source/single_forward.h:36: not resumable. -/
inductive ParsesExactly (env : Env) (p : Pat) (dst : Ref) (m : Mem) (t : List Ch) : Verdict → Prop
  | construct {e} :
      construct (topParser p) dst dst (⟨SingleForward.make t, m⟩ : World SingleForward Mem)
        = .error e →
      ParsesExactly env p dst m t (.error e)
  | error {st w e} :
      construct (topParser p) dst dst (⟨SingleForward.make t, m⟩ : World SingleForward Mem)
        = .ok (st, w) →
      EvalsExactly false env (topParser p) dst dst st w (.error e) →
      ParsesExactly env p dst m t (.error e)
  | ok {st w r st' w' rest} :
      construct (topParser p) dst dst (⟨SingleForward.make t, m⟩ : World SingleForward Mem)
        = .ok (st, w) →
      EvalsExactly false env (topParser p) dst dst st w (.ok ((r, st'), w')) →
      Reads w'.ds rest →
      ParsesExactly env p dst m t (.ok (r, w'.mem, rest))

/-- A parser object driven by user operations, as `Session`, on a resumable data source. -/
inductive SessionExactly {σ : Type} [DataSource σ] (add : σ → List Ch → Bool → Option σ) (env : Env)
    (p : Prog) (dst : Ref) : PState → World σ Mem → List SOp → Verdict → Prop
  | nil {st w rest} : Reads w.ds rest →
      SessionExactly add env p dst st w [] (.ok (.PARTIAL, w.mem, rest))
  | addBad {st w b f ops} : add w.ds b f = none →
      SessionExactly add env p dst st w (.add b f :: ops) (.error .ubData)
  | add {st w b f ops ds v} : add w.ds b f = some ds →
      SessionExactly add env p dst st ⟨ds, w.mem⟩ ops v →
      SessionExactly add env p dst st w (.add b f :: ops) v
  | error {st w ops e} : EvalsExactly true env p dst dst st w (.error e) →
      SessionExactly add env p dst st w (.consume :: ops) (.error e)
  | verdict {st w ops r st' w' rest} : EvalsExactly true env p dst dst st w (.ok ((r, st'), w')) →
      r ≠ .PARTIAL → Reads w'.ds rest →
      SessionExactly add env p dst st w (.consume :: ops) (.ok (r, w'.mem, rest ++ opsText ops))
  | more {st w ops st' w' v} : EvalsExactly true env p dst dst st w (.ok ((.PARTIAL, st'), w')) →
      SessionExactly add env p dst st' w' ops v →
      SessionExactly add env p dst st w (.consume :: ops) v

/-- operations/make_parser.h:43-51 and user operations, as `MakeParserRun`.
data_source/container_sequence.h:50: resumable. -/
inductive MakeParserRunsExactly (env : Env) (p : Pat) (dst : Ref) (m : Mem) (ops : List SOp) :
    Verdict → Prop
  | construct {e} :
      construct (topParser p) dst dst (⟨ContainerSeq.make, m⟩ : World ContainerSeq Mem)
        = .error e →
      MakeParserRunsExactly env p dst m ops (.error e)
  | run {st w v} :
      construct (topParser p) dst dst (⟨ContainerSeq.make, m⟩ : World ContainerSeq Mem)
        = .ok (st, w) →
      SessionExactly ContainerSeq.addBuffer env (topParser p) dst st w ops v →
      MakeParserRunsExactly env p dst m ops v

end Abu
