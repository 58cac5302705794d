import Verif.Spec.Tree
import Verif.Model.CharSet
/-
Texts in which characters of a set stand between the words.
-/
namespace Abu

/-- The text consists of the words in this order, before each of them any number of characters of
the set. -/
inductive Spread (S : CharSet) : List (List Ch) → List Ch → Prop
  | nil : Spread S [] []
  | cons {g w ws t} : (∀ c ∈ g, S.isValid c = true) → Spread S ws t →
      Spread S (w :: ws) (g ++ (w ++ t))

/-- The words of the notation for a tree. -/
def Tree.tokens : Tree → List (List Ch)
  | .leaf n => [[35], written n, [59]]
  | .node l r => [40] :: (l.tokens ++ (r.tokens ++ [[41]]))

/-- The set has none of the characters `#`, `;`, `(`, `)`, `-` and no decimal digit. -/
def CharSet.apart (S : CharSet) : Prop :=
  ∀ c ∈ ([35, 59, 40, 41, 45, 48, 49, 50, 51, 52, 53, 54, 55, 56, 57] : List Ch), S.isValid c = false

end Abu
