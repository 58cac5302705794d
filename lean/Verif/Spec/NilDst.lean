import Verif.Model.Pattern
/-
Patterns that make no object of their own: those for which `nil` can be the destination of every
part.
-/
namespace Abu

/-- `Nil` -/
def Ty.isNil : Ty → Bool
  | .nil => true
  | _ => false

mutual
/-- No `as<...>()`, no action (`A = false`) or none that takes the value of its operand, no `Recur` but those in `G`;
sequences and alternatives as the operators build them. -/
def Pat.forNil (A : Bool) (G : Nat → Bool) : Pat → Bool
  | .construct .. => false
  | .action a p => A && a.landing.isNil && p.forNil A G
  | .seq ps => !ps.isEmpty && Pat.forNilAll A G ps
  | .alt ps => !ps.isEmpty && Pat.forNilAll A G ps
  | .rep _ _ p => p.forNil A G
  | .opt p => p.forNil A G
  | .not p => p.forNil A G
  | .discard p => p.forNil A G
  | .lexeme p => p.forNil A G
  | .bindDst p => p.forNil A G
  | .except op neg => op.forNil A G && neg.forNil A G
  | .list op sep => op.forNil A G && sep.forNil A G
  | .withSkipper p s => p.forNil A G && s.forNil A G
  | .recur id _ => G id
  | _ => true
/-- All of them. -/
def Pat.forNilAll (A : Bool) (G : Nat → Bool) : List Pat → Bool
  | [] => true
  | p :: ps => p.forNil A G && Pat.forNilAll A G ps
end

/-- Every `Recur` in `G` stands for such a pattern. -/
def Env.forNil (env : Env) (A : Bool) (G : Nat → Bool) : Prop := ∀ id q, G id = true → env id = some q → q.forNil A G = true

end Abu
