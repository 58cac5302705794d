import Verif.Model.Time
import Verif.Spec.Terminates
/-
Specification vocabulary for the time a parse takes.
-/
namespace Abu

mutual
/-- How deep loops that go on for as long as the text lets them are nested in the pattern: an
unbounded repetition, a list, a number without bound on its digits, and the skipping of what the
skipper matches. `sk` is the depth of skipping where the pattern stands. -/
def Pat.loops (sk : Nat) : Pat → Nat
  | .seq ps => max sk (Pat.loopsMax sk ps)
  | .alt ps => max sk (Pat.loopsMax sk ps)
  | .rep _ mx p => p.loops sk + if mx = 0 then 1 else 0
  | .opt p => p.loops sk
  | .not p => p.loops sk
  | .discard p => p.loops sk
  | .lexeme p => max sk (p.loops 0)
  | .bindDst p => p.loops sk
  | .construct _ p => p.loops sk
  | .action _ p => p.loops sk
  | .except op neg => max (op.loops sk) (neg.loops sk)
  | .list op sep => max (op.loops sk) (sep.loops sk) + 1
  | .withSkipper p s => max sk (p.loops (s.loops 0 + 1))
  | .int _ _ mx => max sk (if mx = 0 then 1 else 0)
  | .uint _ _ mx => max sk (if mx = 0 then 1 else 0)
  | _ => sk
/-- The largest of several. -/
def Pat.loopsMax (sk : Nat) : List Pat → Nat
  | [] => 0
  | p :: ps => max (p.loops sk) (Pat.loopsMax sk ps)
end

/-- operations/parse.h:29-41: `parse` on the text `t` returns `r`, after `k` iterations. -/
def ParsesIn (env : Env) (p : Pat) (dst : Ref) (m : Mem) (t : List Ch) (r : Res) (k : Nat) : Prop :=
  ∃ n st w a w', construct (topParser p) dst dst
      (⟨SingleForward.make t, m⟩ : World SingleForward Mem) = .ok (st, w) ∧
    run env n (topParser p) dst dst st w = .ok ((r, a), w') ∧
    steps env n (topParser p) dst dst st w = k

/-- The number of calls of `consume`. -/
def consumeCalls : List SOp → Nat
  | [] => 0
  | .consume :: ops => consumeCalls ops + 1
  | .add _ _ :: ops => consumeCalls ops

end Abu
