import Verif.Model.Machine
import Verif.Spec.Session
/-
The entry points: /repo/include/abulafia/operations/*.h
-/
namespace Abu

/-- What a user of `parse` or of a parser object sees in the end: undefined behaviour, or a
result, the state of the destinations (and action calls), and the text left unread. -/
abbrev Verdict := Except Err (Res × Mem × List Ch)

/-- The parser type of a top level pattern: parse.h:38, make_parser.h:43 (`DefaultReqs`, and the
skipper of the context is `Fail`). -/
def topParser (p : Pat) : Prog := elabP .fail DefaultReqs p

/-- operations/parse.h:29-41: `parse(b, e, pat, dst)` on the text `t` ends with verdict `v`. The
destination is also the bound destination (parse.h:35-36). -/
inductive Parses (env : Env) (p : Pat) (dst : Ref) (m : Mem) (t : List Ch) : Verdict → Prop
  | construct {e} :
      construct (topParser p) dst dst (⟨SingleForward.make t, m⟩ : World SingleForward Mem)
        = .error e →
      Parses env p dst m t (.error e)
  | error {st w e} :
      construct (topParser p) dst dst (⟨SingleForward.make t, m⟩ : World SingleForward Mem)
        = .ok (st, w) →
      Evals env (topParser p) dst dst st w (.error e) →
      Parses env p dst m t (.error e)
  | ok {st w r st' w' rest} :
      construct (topParser p) dst dst (⟨SingleForward.make t, m⟩ : World SingleForward Mem)
        = .ok (st, w) →
      Evals env (topParser p) dst dst st w (.ok ((r, st'), w')) →
      Reads w'.ds rest →
      Parses env p dst m t (.ok (r, w'.mem, rest))

/-- What the user of a parser object does. -/
inductive SOp
  /-- `parser.data().add_buffer(b, isFinal)` -/
  | add (b : List Ch) (isFinal : Bool)
  /-- `parser.consume()` -/
  | consume

/-- Text added by a list of user operations. -/
def opsText : List SOp → List Ch
  | [] => []
  | .add b _ :: ops => b ++ opsText ops
  | .consume :: ops => opsText ops

/-- A parser object (`ParserInterface`, operations/make_parser.h:22-41) in state `st` with data
source and memory `w`, driven by the user operations `ops` until a `consume` returns something
else than `PARTIAL`. `add` is the `add_buffer` of the data source. -/
inductive Session {σ : Type} [DataSource σ] (add : σ → List Ch → Bool → Option σ) (env : Env)
    (p : Prog) (dst : Ref) : PState → World σ Mem → List SOp → Verdict → Prop
  /-- all operations done, every `consume` returned `PARTIAL` -/
  | nil {st w rest} : Reads w.ds rest → Session add env p dst st w [] (.ok (.PARTIAL, w.mem, rest))
  /-- `add_buffer` outside its contract -/
  | addBad {st w b f ops} : add w.ds b f = none →
      Session add env p dst st w (.add b f :: ops) (.error .ubData)
  | add {st w b f ops ds v} : add w.ds b f = some ds →
      Session add env p dst st ⟨ds, w.mem⟩ ops v → Session add env p dst st w (.add b f :: ops) v
  | error {st w ops e} : Evals env p dst dst st w (.error e) →
      Session add env p dst st w (.consume :: ops) (.error e)
  | verdict {st w ops r st' w' rest} : Evals env p dst dst st w (.ok ((r, st'), w')) →
      r ≠ .PARTIAL → Reads w'.ds rest →
      Session add env p dst st w (.consume :: ops) (.ok (r, w'.mem, rest ++ opsText ops))
  | more {st w ops st' w' v} : Evals env p dst dst st w (.ok ((.PARTIAL, st'), w')) →
      Session add env p dst st' w' ops v → Session add env p dst st w (.consume :: ops) v

/-- operations/make_parser.h:43-51 then the user operations: `make_parser<BUFFER_T>(pat, dst)`
driven by `ops` ends with verdict `v`. The parser object is constructed before any data arrives
(make_parser.h:24-28). -/
inductive MakeParserRun (env : Env) (p : Pat) (dst : Ref) (m : Mem) (ops : List SOp) :
    Verdict → Prop
  | construct {e} :
      construct (topParser p) dst dst (⟨ContainerSeq.make, m⟩ : World ContainerSeq Mem)
        = .error e →
      MakeParserRun env p dst m ops (.error e)
  | run {st w v} :
      construct (topParser p) dst dst (⟨ContainerSeq.make, m⟩ : World ContainerSeq Mem)
        = .ok (st, w) →
      Session ContainerSeq.addBuffer env (topParser p) dst st w ops v →
      MakeParserRun env p dst m ops v

end Abu
