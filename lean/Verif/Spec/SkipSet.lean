import Verif.Model.Pattern
/-
Specification vocabulary: skippers that match one character of a set.
-/
namespace Abu

mutual
/-- A set of characters, alternatives of such patterns, and the same discarded or in a lexeme:
patterns that match one character or nothing. -/
def Pat.charLike : Pat → Bool
  | .char _ => true
  | .alt ps => !ps.isEmpty && Pat.charLikes ps
  | .discard p => p.charLike
  | .lexeme p => p.charLike
  | .bindDst p => p.charLike
  | _ => false
def Pat.charLikes : List Pat → Bool
  | [] => true
  | p :: ps => p.charLike && Pat.charLikes ps
end

mutual
/-- Whether such a pattern matches the character. -/
def Pat.takes (c : Ch) : Pat → Bool
  | .char S => S.isValid c
  | .alt ps => Pat.anyTakes c ps
  | .discard p => p.takes c
  | .lexeme p => p.takes c
  | .bindDst p => p.takes c
  | _ => false
def Pat.anyTakes (c : Ch) : List Pat → Bool
  | [] => false
  | p :: ps => p.takes c || Pat.anyTakes c ps
end

/-- The skipper matches exactly the characters of the set. -/
def Pat.SkipsSet (s : Pat) (S : CharSet) : Prop := s.charLike = true ∧ ∀ c, s.takes c = S.isValid c

end Abu
