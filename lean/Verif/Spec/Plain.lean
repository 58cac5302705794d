import Verif.Model.Pattern
/-
Plain patterns: those that use none of the constructs the parsers mishandle. Unlike `Pat.tidy`
this says nothing about where in a pattern a construct is used.
-/
namespace Abu

mutual
/-- No optional part, no symbol table keyed by characters, no `apply_skipper`, no `Int` of at most
one digit; digit counts that the compiler accepts; sequences and alternatives as the operators
build them. -/
def Pat.plain : Pat → Bool
  | .opt _ => false
  | .charSymbol _ => false
  | .withSkipper .. => false
  | .int _ mn mx => (mx == 0 || decide (mn ≤ mx)) && mx != 1
  | .uint _ mn mx => mx == 0 || decide (mn ≤ mx)
  | .seq ps => !ps.isEmpty && Pat.plainAll ps
  | .alt ps => !ps.isEmpty && Pat.plainAll ps
  | .rep _ _ p => p.plain
  | .not p => p.plain
  | .discard p => p.plain
  | .lexeme p => p.plain
  | .bindDst p => p.plain
  | .construct _ p => p.plain
  | .action _ p => p.plain
  | .except op neg => op.plain && neg.plain
  | .list op sep => op.plain && sep.plain
  | _ => true
/-- All of them are. -/
def Pat.plainAll : List Pat → Bool
  | [] => true
  | p :: ps => p.plain && Pat.plainAll ps
end

/-- Every `Recur` stands for a plain pattern. -/
def Env.plain (env : Env) : Prop := ∀ id q, env id = some q → q.plain = true

end Abu
