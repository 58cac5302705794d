import Verif.Model.Pattern
/-
Specification vocabulary: patterns whose loops consume, and left recursion.
-/
namespace Abu

mutual
/-- Does every success of the pattern consume at least one character, as far as can be told from
the pattern? `c` answers the question for the patterns used through `Recur`. A symbol table keyed
by characters does not consume (parsers/coroutine/leaf/char_symbol.h:28-41). -/
def Pat.eats (c : Nat → Bool) : Pat → Bool
  | .char _ => true
  | .charSymbol _ => false
  | .strLit s => !s.isEmpty
  | .symbol _ => true
  | .int _ mn _ => decide (0 < mn)
  | .uint _ mn _ => decide (0 < mn)
  | .eoi => false
  | .pass => false
  | .fail => true
  | .seq ps => Pat.someEats c ps
  | .alt ps => Pat.allEat c ps
  | .rep mn _ p => decide (0 < mn) && p.eats c
  | .opt _ => false
  | .not _ => false
  | .discard p => p.eats c
  | .lexeme p => p.eats c
  | .bindDst p => p.eats c
  | .construct _ p => p.eats c
  | .action _ p => p.eats c
  | .except op _ => op.eats c
  | .list _ _ => false
  | .withSkipper p _ => p.eats c
  | .recur id _ => c id
/-- One of the patterns does. -/
def Pat.someEats (c : Nat → Bool) : List Pat → Bool
  | [] => false
  | p :: ps => p.eats c || Pat.someEats c ps
/-- All of the patterns do. -/
def Pat.allEat (c : Nat → Bool) : List Pat → Bool
  | [] => true
  | p :: ps => p.eats c && Pat.allEat c ps
end

mutual
/-- Does every unbounded repetition have an operand that consumes, every list an item or a
separator that does, and does every skipper? (And every sequence and alternative an operand.) -/
def Pat.loopsEat (c : Nat → Bool) : Pat → Bool
  | .seq ps => !ps.isEmpty && Pat.allLoopsEat c ps
  | .alt ps => !ps.isEmpty && Pat.allLoopsEat c ps
  | .rep _ mx p => (mx != 0 || p.eats c) && p.loopsEat c
  | .opt p => p.loopsEat c
  | .not p => p.loopsEat c
  | .discard p => p.loopsEat c
  | .lexeme p => p.loopsEat c
  | .bindDst p => p.loopsEat c
  | .construct _ p => p.loopsEat c
  | .action _ p => p.loopsEat c
  | .except op neg => op.loopsEat c && neg.loopsEat c
  | .list op sep => (op.eats c || sep.eats c) && op.loopsEat c && sep.loopsEat c
  | .withSkipper p s => s.eats c && s.loopsEat c && p.loopsEat c
  | _ => true
/-- The same for all the patterns. -/
def Pat.allLoopsEat (c : Nat → Bool) : List Pat → Bool
  | [] => true
  | p :: ps => p.loopsEat c && Pat.allLoopsEat c ps
end

mutual
/-- The `Recur` objects the pattern may call before it has consumed anything. -/
def Pat.heads (c : Nat → Bool) : Pat → List Nat
  | .seq ps => Pat.headsSeq c ps
  | .alt ps => Pat.headsAll c ps
  | .rep _ _ p => p.heads c
  | .opt p => p.heads c
  | .not p => p.heads c
  | .discard p => p.heads c
  | .lexeme p => p.heads c
  | .bindDst p => p.heads c
  | .construct _ p => p.heads c
  | .action _ p => p.heads c
  | .except op neg => neg.heads c ++ op.heads c
  | .list op sep => op.heads c ++ if op.eats c then [] else sep.heads c
  | .withSkipper p s => s.heads c ++ p.heads c
  | .recur id _ => [id]
  | _ => []
/-- Of a sequence: the children up to the first that consumes. -/
def Pat.headsSeq (c : Nat → Bool) : List Pat → List Nat
  | [] => []
  | p :: ps => p.heads c ++ if p.eats c then [] else Pat.headsSeq c ps
/-- Of alternatives: all of them. -/
def Pat.headsAll (c : Nat → Bool) : List Pat → List Nat
  | [] => []
  | p :: ps => p.heads c ++ Pat.headsAll c ps
end

mutual
/-- All the `Recur` objects that occur in the pattern. -/
def Pat.refs : Pat → List Nat
  | .seq ps => Pat.refsAll ps
  | .alt ps => Pat.refsAll ps
  | .rep _ _ p => p.refs
  | .opt p => p.refs
  | .not p => p.refs
  | .discard p => p.refs
  | .lexeme p => p.refs
  | .bindDst p => p.refs
  | .construct _ p => p.refs
  | .action _ p => p.refs
  | .except op neg => op.refs ++ neg.refs
  | .list op sep => op.refs ++ sep.refs
  | .withSkipper p s => p.refs ++ s.refs
  | .recur id _ => [id]
  | _ => []
/-- Those that occur in a list of patterns. -/
def Pat.refsAll : List Pat → List Nat
  | [] => []
  | p :: ps => p.refs ++ Pat.refsAll ps
end

/-- `LeftCalls env c a b`: the pattern of the `Recur` object `b` may call the `Recur` object `a`
before it has consumed anything. Left recursion is a cycle of this relation. -/
def LeftCalls (env : Env) (c : Nat → Bool) (a b : Nat) : Prop :=
  ∃ q, env b = some q ∧ a ∈ q.heads c

/-- What the theorem on termination asks of the patterns used through `Recur`: all are set, their
loops consume, they consume themselves when `c` says so. -/
structure Env.LoopsEat (env : Env) (c : Nat → Bool) : Prop where
  loops : ∀ id q, env id = some q → q.loopsEat c = true
  eats : ∀ id q, env id = some q → c id = true → q.eats c = true
  set : ∀ id q, env id = some q → ∀ a ∈ q.refs, env a ≠ none

end Abu
