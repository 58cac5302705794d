import Verif.Model.Recur
/-
What a history of operations on `Recur` objects defines. Objects (other than variables: all copies of
a variable are the same object) are numbered in the order they are made.
-/
namespace Abu

/-- The pools the objects were made in. -/
def objectPools : List ROp → List Nat
  | [] => []
  | .make k :: ops => k :: objectPools ops
  | _ :: ops => objectPools ops

/-- The objects of the variables: `vars` the variables before, `n` the number of objects before. -/
def varObjects (vars : List Nat) (n : Nat) : List ROp → List Nat
  | [] => vars
  | .make _ :: ops => varObjects (vars ++ [n]) (n + 1) ops
  | .copy r :: ops => varObjects (vars ++ (vars[r]?).toList) n ops
  | _ :: ops => varObjects vars n ops

/-- The last definition made through a variable that stands for object `o`. -/
def lastDefinition (vars : List Nat) (o : Nat) : List ROp → Option Pat → Option Pat
  | [], d => d
  | .define r p :: ops, d => lastDefinition vars o ops (if vars[r]? = some o then some p else d)
  | _ :: ops, d => lastDefinition vars o ops d

/-- The number of pools made. -/
def poolCount : List ROp → Nat
  | [] => 0
  | .newPool :: ops => poolCount ops + 1
  | _ :: ops => poolCount ops

/-- After the operations `before`, the pool exists: made and not out of scope. -/
def PoolLives (before : List ROp) (k : Nat) : Prop := k < poolCount before ∧ ROp.dropPool k ∉ before

/-- After the operations `before`, the operation makes sense: it names pools and variables that
exist, and definitions go to objects whose pool exists. -/
def Sensible (before : List ROp) : ROp → Prop
  | .newPool => True
  | .dropPool k => PoolLives before k
  | .make k => PoolLives before k
  | .copy r => r < (varObjects [] 0 before).length
  | .define r _ => ∃ o k, (varObjects [] 0 before)[r]? = some o ∧ (objectPools before)[o]? = some k ∧
      PoolLives before k

end Abu
