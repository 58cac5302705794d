import Verif.Spec.Terminates
/-
Specification vocabulary: skippers for which the compile-time check of consumption is meaningful.
-/
namespace Abu

mutual
/-- The requirement to consume reaches every sub-pattern it depends on: the pattern is not one of
those that accept the requirement without meeting it (`Optional`, `Eoi`, `Not`, `List`, symbol
tables keyed by characters, empty literals), and where the requirement is not handed down (the
children of a `Seq`, the operand of a `Recur`) consumption is known otherwise. `c`: the `Recur` objects
known to consume. -/
def Pat.tracked (c : Nat → Bool) : Pat → Bool
  | .char _ => true
  | .charSymbol _ => false
  | .strLit s => !s.isEmpty
  | .symbol _ => true
  | .int .. => true
  | .uint .. => true
  | .eoi => false
  | .pass => true
  | .fail => true
  | .seq ps => Pat.someEats c ps
  | .alt ps => Pat.allTracked c ps
  | .rep _ _ p => p.tracked c
  | .opt _ => false
  | .not _ => false
  | .discard p => p.tracked c
  | .lexeme p => p.tracked c
  | .bindDst p => p.tracked c
  | .construct _ p => p.tracked c
  | .action _ p => p.tracked c
  | .except op _ => op.tracked c
  | .list _ _ => false
  | .withSkipper p _ => p.tracked c
  | .recur id _ => c id
/-- All of them are. -/
def Pat.allTracked (c : Nat → Bool) : List Pat → Bool
  | [] => true
  | p :: ps => p.tracked c && Pat.allTracked c ps
end

end Abu
