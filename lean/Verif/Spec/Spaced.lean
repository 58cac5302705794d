import Verif.Model.Pattern
/-
Specification vocabulary: the pattern one would write to skip by hand.

With a `Recur` object used both inside and outside of a `lexeme` there are two patterns to write for
it, with and without skipping: object `id` becomes `2 * id` (without) and `2 * id + 1` (with).
-/
namespace Abu

mutual
/-- Rename the `Recur` objects. -/
def Pat.relabel (f : Nat → Nat) : Pat → Pat
  | .seq ps => .seq (Pat.relabels f ps)
  | .alt ps => .alt (Pat.relabels f ps)
  | .rep mn mx p => .rep mn mx (p.relabel f)
  | .opt p => .opt (p.relabel f)
  | .not p => .not (p.relabel f)
  | .discard p => .discard (p.relabel f)
  | .lexeme p => .lexeme (p.relabel f)
  | .bindDst p => .bindDst (p.relabel f)
  | .construct tys p => .construct tys (p.relabel f)
  | .action a p => .action a (p.relabel f)
  | .except op neg => .except (op.relabel f) (neg.relabel f)
  | .list op sep => .list (op.relabel f) (sep.relabel f)
  | .withSkipper p s => .withSkipper (p.relabel f) (s.relabel f)
  | .recur id n => .recur (f id) n
  | .char s => .char s
  | .charSymbol m => .charSymbol m
  | .strLit s => .strLit s
  | .symbol root => .symbol root
  | .int b mn mx => .int b mn mx
  | .uint b mn mx => .uint b mn mx
  | .eoi => .eoi
  | .pass => .pass
  | .fail => .fail
def Pat.relabels (f : Nat → Nat) : List Pat → List Pat
  | [] => []
  | p :: ps => p.relabel f :: Pat.relabels f ps
end

/-- Without skipping. -/
def Pat.unspaced (p : Pat) : Pat := p.relabel (2 * ·)

/-- `discard(*s) >> q` -/
def skipFirst (s q : Pat) : Pat := .seq [.discard (.rep 0 0 s.unspaced), q]

mutual
/-- The sub-patterns of the pattern (outside `lexeme`) are prefixed with `discard(*s)`. -/
def within (s : Pat) : Pat → Pat
  | .seq ps => .seq (withins s ps)
  | .alt ps => .alt (withins s ps)
  | .rep mn mx p => .rep mn mx (skipFirst s (within s p))
  | .opt p => .opt (skipFirst s (within s p))
  | .not p => .not (skipFirst s (within s p))
  | .discard p => .discard (skipFirst s (within s p))
  | .lexeme p => .lexeme p.unspaced
  | .bindDst p => .bindDst (skipFirst s (within s p))
  | .construct tys p => .construct tys (skipFirst s (within s p))
  | .action a p => .action a (skipFirst s (within s p))
  | .except op neg => .except (skipFirst s (within s op)) (skipFirst s (within s neg))
  | .list op sep => .list (skipFirst s (within s op)) (skipFirst s (within s sep))
  | .withSkipper p s' => .withSkipper p.unspaced s'.unspaced
  | .recur id n => .recur (2 * id + 1) n
  | .char cs => .char cs
  | .charSymbol m => .charSymbol m
  | .strLit str => .strLit str
  | .symbol root => .symbol root
  | .int b mn mx => .int b mn mx
  | .uint b mn mx => .uint b mn mx
  | .eoi => .eoi
  | .pass => .pass
  | .fail => .fail
def withins (s : Pat) : List Pat → List Pat
  | [] => []
  | p :: ps => skipFirst s (within s p) :: withins s ps
end

/-- The pattern and its sub-patterns (outside `lexeme`) are prefixed with `discard(*s)`. -/
def spaced (s p : Pat) : Pat := skipFirst s (within s p)

/-- Both versions of the patterns used through `Recur`. -/
def spacedEnv (s : Pat) (env : Env) : Env := fun k =>
  (env (k / 2)).map fun q => if k % 2 = 0 then q.unspaced else spaced s q

end Abu
