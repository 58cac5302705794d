import Verif.Spec.Decimal
import Verif.Model.Dst
/-
A notation for binary trees of integers, for an example of a recursive grammar.
-/
namespace Abu

/-- Binary trees with integers at the leaves. -/
inductive Tree
  | leaf (n : Int)
  | node (l r : Tree)

/-- `#12;` for a leaf, `(` left right `)` for a node. -/
def Tree.text : Tree → List Ch
  | .leaf n => 35 :: (written n ++ [59])
  | .node l r => 40 :: (l.text ++ (r.text ++ [41]))

/-- The object for a tree, of a class with a constructor from a number and one from two objects. -/
def Tree.value : Tree → Val
  | .leaf n => .obj 7 [.num n]
  | .node l r => .obj 7 [l.value, r.value]

/-- Every leaf can be stored in an integer object of kind `k`, without its sign too. -/
def Tree.Fit (k : NumKind) : Tree → Prop
  | .leaf n => k.inRange n ∧ k.inRange n.natAbs
  | .node l r => l.Fit k ∧ r.Fit k

end Abu
