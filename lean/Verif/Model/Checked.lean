import Verif.Model.Api
/-
The entry points over a machine other than `run`: one that also checks something `run` takes no
notice of (`Counters.lean`, `Stack.lean`).
-/
namespace Abu

/-- Parser objects at work, with a bound on the number of steps: the type of `run env`. -/
abbrev Mach (σ μ : Type) : Type :=
  Nat → Prog → Ref → Ref → PState → World σ μ → Out σ μ (Res × PState)

/-- `Evals` of another machine. -/
def EvalsBy {σ μ : Type} (mach : Mach σ μ) (p : Prog) (dst bnd : Ref) (st : PState)
    (w : World σ μ) (out : Out σ μ (Res × PState)) : Prop :=
  out ≠ .error .fuel ∧ ∃ n, mach n p dst bnd st w = out

/-- operations/parse.h:29-41. -/
inductive ParsesBy (mach : Mach SingleForward Mem) (p : Pat) (dst : Ref) (m : Mem) (t : List Ch) :
    Verdict → Prop
  | construct {e} :
      construct (topParser p) dst dst (⟨SingleForward.make t, m⟩ : World SingleForward Mem)
        = .error e →
      ParsesBy mach p dst m t (.error e)
  | error {st w e} :
      construct (topParser p) dst dst (⟨SingleForward.make t, m⟩ : World SingleForward Mem)
        = .ok (st, w) →
      EvalsBy mach (topParser p) dst dst st w (.error e) →
      ParsesBy mach p dst m t (.error e)
  | ok {st w r st' w' rest} :
      construct (topParser p) dst dst (⟨SingleForward.make t, m⟩ : World SingleForward Mem)
        = .ok (st, w) →
      EvalsBy mach (topParser p) dst dst st w (.ok ((r, st'), w')) →
      Reads w'.ds rest →
      ParsesBy mach p dst m t (.ok (r, w'.mem, rest))

/-- operations/make_parser.h:22-41. -/
inductive SessionBy {σ : Type} [DataSource σ] (mach : Mach σ Mem)
    (add : σ → List Ch → Bool → Option σ) (p : Prog) (dst : Ref) :
    PState → World σ Mem → List SOp → Verdict → Prop
  | nil {st w rest} : Reads w.ds rest →
      SessionBy mach add p dst st w [] (.ok (.PARTIAL, w.mem, rest))
  | addBad {st w b f ops} : add w.ds b f = none →
      SessionBy mach add p dst st w (.add b f :: ops) (.error .ubData)
  | add {st w b f ops ds v} : add w.ds b f = some ds →
      SessionBy mach add p dst st ⟨ds, w.mem⟩ ops v →
      SessionBy mach add p dst st w (.add b f :: ops) v
  | error {st w ops e} : EvalsBy mach p dst dst st w (.error e) →
      SessionBy mach add p dst st w (.consume :: ops) (.error e)
  | verdict {st w ops r st' w' rest} : EvalsBy mach p dst dst st w (.ok ((r, st'), w')) →
      r ≠ .PARTIAL → Reads w'.ds rest →
      SessionBy mach add p dst st w (.consume :: ops) (.ok (r, w'.mem, rest ++ opsText ops))
  | more {st w ops st' w' v} : EvalsBy mach p dst dst st w (.ok ((.PARTIAL, st'), w')) →
      SessionBy mach add p dst st' w' ops v →
      SessionBy mach add p dst st w (.consume :: ops) v

/-- operations/make_parser.h:43-51. -/
inductive MakeParserRunBy (mach : Mach ContainerSeq Mem) (p : Pat) (dst : Ref) (m : Mem)
    (ops : List SOp) : Verdict → Prop
  | construct {e} :
      construct (topParser p) dst dst (⟨ContainerSeq.make, m⟩ : World ContainerSeq Mem)
        = .error e →
      MakeParserRunBy mach p dst m ops (.error e)
  | run {st w v} :
      construct (topParser p) dst dst (⟨ContainerSeq.make, m⟩ : World ContainerSeq Mem)
        = .ok (st, w) →
      SessionBy mach ContainerSeq.addBuffer (topParser p) dst st w ops v →
      MakeParserRunBy mach p dst m ops v

end Abu
