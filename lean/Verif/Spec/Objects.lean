import Verif.Model.Objects
import Verif.Spec.Memory
/-
Vocabulary for programs with several parser objects.
-/
namespace Abu

mutual
/-- All actions in the pattern are so. -/
def Pat.Acts (A : Act → Prop) : Pat → Prop
  | .seq ps => Pat.ActsAll A ps
  | .alt ps => Pat.ActsAll A ps
  | .rep _ _ p => p.Acts A
  | .opt p => p.Acts A
  | .not p => p.Acts A
  | .discard p => p.Acts A
  | .lexeme p => p.Acts A
  | .bindDst p => p.Acts A
  | .construct _ p => p.Acts A
  | .action a p => A a ∧ p.Acts A
  | .except op neg => op.Acts A ∧ neg.Acts A
  | .list op sep => op.Acts A ∧ sep.Acts A
  | .withSkipper p s => p.Acts A ∧ s.Acts A
  | _ => True
/-- For all of a list. -/
def Pat.ActsAll (A : Act → Prop) : List Pat → Prop
  | [] => True
  | p :: ps => p.Acts A ∧ Pat.ActsAll A ps
end

/-- Likewise in the pattern and in the patterns it may use through `Recur`. -/
def Decl.Acts (A : Act → Prop) (D : Decl) : Prop :=
  D.pat.Acts A ∧ ∀ id q, D.env id = some q → q.Acts A

/-- Of the calls before, the action only heeds those of the actions in `S`. (The empty set: a
function of its arguments.) -/
def Act.Heeds (S : Nat → Bool) (a : Act) : Prop :=
  ∀ log v b, a.fn log v b = a.fn (log.filter fun e => S e.action) v b

/-- No part of an object is designated by both references. -/
def Ref.Apart : Ref → Ref → Prop
  | .at o q _, r => r.Misses o q
  | .nil, _ => True

/-- The destination exists. -/
def Ref.Exists (m : Mem) : Ref → Prop
  | .nil => True
  | .at o q _ => ∃ v, m.look o q = .ok v

/-- The operations of the program on object `i`. -/
def usesOf (i : Nat) : List UOp → List SOp
  | [] => []
  | .make _ :: ops => usesOf i ops
  | .use j op :: ops => if j = i then op :: usesOf i ops else usesOf i ops

/-- The program creates object `i`. -/
def Creates (i : Nat) : List UOp → Prop
  | [] => False
  | .make j :: ops => j = i ∨ Creates i ops
  | .use _ _ :: ops => Creates i ops

/-- Every object is created once and only used later; `made`: already created. -/
def Ordered (made : Nat → Prop) : List UOp → Prop
  | [] => True
  | .make i :: ops => ¬ made i ∧ Ordered (fun j => made j ∨ j = i) ops
  | .use i _ :: ops => made i ∧ Ordered made ops

/-- The answer of the object so far, and the text it has not read. -/
def ObjState.Shows : ObjState → Res → List Ch → Prop
  | .absent, _, _ => False
  | .live _ ds, r, rest => r = .PARTIAL ∧ Reads ds rest
  | .done r' rest', r, rest => r' = r ∧ rest' = rest

/-- `own i` has the actions of object `i`: every action of an object belongs to no other object, and
heeds only calls of actions of its own object. -/
def Owned (D : Nat → Decl) (own : Nat → Nat → Bool) : Prop :=
  ∀ i, (D i).Acts fun a => a.Heeds (own i) ∧ ∀ j, j ≠ i → own j a.id = false

/-- The destination has the same value in both memories. -/
def Ref.SameIn : Ref → Mem → Mem → Prop
  | .nil, _, _ => True
  | .at o q _, m, m' => m.look o q = m'.look o q

/-- No objects yet. -/
def noObjects : Nat → ObjState := fun _ => .absent

end Abu
