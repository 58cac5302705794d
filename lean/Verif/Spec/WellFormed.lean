import Verif.Model.Pattern
/-
Which patterns are meant to compile.
-/
namespace Abu

mutual
/-- At first sight the pattern consumes: it is not `pass` or `*p`, nor made from those with
something else than sequences, lists and `Recur`. -/
def Pat.looksHungry : Pat → Bool
  | .pass => false
  | .rep mn _ p => mn != 0 && p.looksHungry
  | .alt ps => Pat.allLookHungry ps
  | .opt p => p.looksHungry
  | .not p => p.looksHungry
  | .discard p => p.looksHungry
  | .lexeme p => p.looksHungry
  | .bindDst p => p.looksHungry
  | .construct _ p => p.looksHungry
  | .action _ p => p.looksHungry
  | .except op _ => op.looksHungry
  | .withSkipper p _ => p.looksHungry
  | _ => true
/-- All of them. -/
def Pat.allLookHungry : List Pat → Bool
  | [] => true
  | p :: ps => p.looksHungry && Pat.allLookHungry ps
end

/-- Digits of a base there are enough digit symbols for; numbers have digits. -/
def GoodNumber (base min max : Nat) : Prop := 2 ≤ base ∧ base ≤ 35 ∧ 1 ≤ min ∧ (max = 0 ∨ min ≤ max)

mutual
/-- All number patterns in the pattern make sense, all sequences and alternatives have children,
all skippers look as if they consumed. -/
def Pat.WellFormed : Pat → Prop
  | .int b mn mx => GoodNumber b mn mx
  | .uint b mn mx => GoodNumber b mn mx
  | .seq ps => ps ≠ [] ∧ Pat.AllWellFormed ps
  | .alt ps => ps ≠ [] ∧ Pat.AllWellFormed ps
  | .rep _ _ p => p.WellFormed
  | .opt p => p.WellFormed
  | .not p => p.WellFormed
  | .discard p => p.WellFormed
  | .lexeme p => p.WellFormed
  | .bindDst p => p.WellFormed
  | .construct _ p => p.WellFormed
  | .action _ p => p.WellFormed
  | .except op neg => op.WellFormed ∧ neg.WellFormed
  | .list op sep => op.WellFormed ∧ sep.WellFormed
  | .withSkipper p s => p.WellFormed ∧ s.WellFormed ∧ s.looksHungry = true
  | _ => True
/-- All of them. -/
def Pat.AllWellFormed : List Pat → Prop
  | [] => True
  | p :: ps => p.WellFormed ∧ Pat.AllWellFormed ps
end

end Abu
