import Verif.Model.Pattern
/-
Specification vocabulary: patterns that are decided by one character.
-/
namespace Abu

mutual
/-- Sets of characters, alternatives of them, and the same with actions or without attributes: what
skippers usually are. -/
def Pat.oneChar : Pat → Bool
  | .char _ => true
  | .alt ps => !ps.isEmpty && Pat.oneChars ps
  | .discard p => p.oneChar
  | .lexeme p => p.oneChar
  | .bindDst p => p.oneChar
  | .construct _ p => p.oneChar
  | .action _ p => p.oneChar
  | _ => false
def Pat.oneChars : List Pat → Bool
  | [] => true
  | p :: ps => p.oneChar && Pat.oneChars ps
end

end Abu
