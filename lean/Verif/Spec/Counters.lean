import Verif.Spec.Terminates
/-
Specification vocabulary: patterns whose repetitions cannot count beyond what the text allows.
-/
namespace Abu

/-- The largest `int` where `int` has 32 bits. -/
def INT_MAX : Nat := 2147483647

mutual
/-- Does every repetition of the pattern have an operand that consumes, or an upper bound that is
at most `lim`? `c` says which patterns used through `Recur` consume. -/
def Pat.countsFit (lim : Nat) (c : Nat → Bool) : Pat → Bool
  | .seq ps => Pat.allCountsFit lim c ps
  | .alt ps => Pat.allCountsFit lim c ps
  | .rep _ mx p => (p.eats c || (decide (0 < mx) && decide (mx ≤ lim))) && p.countsFit lim c
  | .opt p => p.countsFit lim c
  | .not p => p.countsFit lim c
  | .discard p => p.countsFit lim c
  | .lexeme p => p.countsFit lim c
  | .bindDst p => p.countsFit lim c
  | .construct _ p => p.countsFit lim c
  | .action _ p => p.countsFit lim c
  | .except op neg => op.countsFit lim c && neg.countsFit lim c
  | .list op sep => op.countsFit lim c && sep.countsFit lim c
  | .withSkipper p s => p.countsFit lim c && s.countsFit lim c
  | _ => true
/-- The same for all the patterns. -/
def Pat.allCountsFit (lim : Nat) (c : Nat → Bool) : List Pat → Bool
  | [] => true
  | p :: ps => p.countsFit lim c && Pat.allCountsFit lim c ps
end

/-- The same for the patterns used through `Recur`, which consume when `c` says so. -/
structure Env.CountsFit (env : Env) (lim : Nat) (c : Nat → Bool) : Prop where
  fits : ∀ id q, env id = some q → q.countsFit lim c = true
  eats : ∀ id q, env id = some q → c id = true → q.eats c = true

end Abu
