import Verif.Model.Api
/-
Specification vocabulary for what a parser object keeps of the buffers it was given.
-/
namespace Abu

/-- The non-empty buffers among user operations, in order. -/
def opsBuffers : List SOp → List (List Ch)
  | [] => []
  | .add b _ :: ops => if b = [] then opsBuffers ops else b :: opsBuffers ops
  | .consume :: ops => opsBuffers ops

/-- A parser object (operations/make_parser.h:22-41) after the user operations `ops`: what the
last `consume` returned, the state of the object, and its data source with the memory. As in the
examples of the guide, `consume` is not called again after it returned something else than
`PARTIAL`. -/
inductive Driven {σ : Type} [DataSource σ] (add : σ → List Ch → Bool → Option σ) (start : σ)
    (env : Env) (p : Prog) (dst : Ref) (m : Mem) :
    List SOp → Option Res → PState → World σ Mem → Prop
  | made {st w} : construct p dst dst ⟨start, m⟩ = .ok (st, w) →
      Driven add start env p dst m [] none st w
  | add {ops r st w ds} (b f) : Driven add start env p dst m ops r st w →
      add w.ds b f = some ds →
      Driven add start env p dst m (ops ++ [.add b f]) r st ⟨ds, w.mem⟩
  | consume {ops r st w r' st' w'} : Driven add start env p dst m ops r st w →
      r = none ∨ r = some .PARTIAL → Evals env p dst dst st w (.ok ((r', st'), w')) →
      Driven add start env p dst m (ops ++ [.consume]) (some r') st' w'

/-- `make_parser<BUFFER_T>(pat, dst)` after the user operations `ops`, the last `consume` of which
returned `r`. -/
def ParserAfter (env : Env) (p : Pat) (dst : Ref) (m : Mem) (ops : List SOp) (r : Option Res)
    (w : World ContainerSeq Mem) : Prop :=
  ∃ st, Driven ContainerSeq.addBuffer ContainerSeq.make env (topParser p) dst m ops r st w

mutual
/-- A pattern that is decided by looking at one character at a time: no part of it can fail after
having consumed something in a place where that has to be undone (`c`), and it contains none of
the patterns that look ahead. -/
def Pat.streams (c : Bool) : Pat → Bool
  | .char _ => true
  | .charSymbol _ => true
  | .strLit _ => !c
  | .symbol _ => false
  | .int _ _ mx => !c || mx == 1
  | .uint _ _ mx => !c || mx == 1
  | .eoi => true
  | .pass => true
  | .fail => true
  | .seq ps => !c && Pat.streamsAll false ps
  | .alt ps => Pat.streamsAll true ps
  | .rep mn mx p => !c && p.streams (mn != mx || mx == 0)
  | .opt _ => false
  | .not _ => false
  | .list _ _ => false
  | .discard p => p.streams c
  | .lexeme p => p.streams c
  | .bindDst p => p.streams c
  | .construct _ p => p.streams c
  | .action _ p => p.streams c
  | .except op neg => !c && op.streams false && neg.streams true
  | .withSkipper p s => p.streams c && s.streams true
  | .recur .. => !c
/-- All of the patterns do. -/
def Pat.streamsAll (c : Bool) : List Pat → Bool
  | [] => true
  | p :: ps => p.streams c && Pat.streamsAll c ps
end

/-- All patterns used through `Recur` do. -/
def Env.streams (env : Env) : Prop := ∀ id q, env id = some q → q.streams false = true

end Abu
