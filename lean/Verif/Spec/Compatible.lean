import Verif.Spec.Filled
import Verif.Spec.NilDst
/-
Values of types, and patterns whose values can go to a destination of a type.
-/
namespace Abu

mutual
/-- `v` is an (initialised) value of the type. -/
def Ty.has : Ty → Val → Prop
  | .nil, .nil => True
  | .num k, .num i => k.inRange i
  | .coll t, .coll vs => ∀ v ∈ vs, t.has v
  | .tup ts, .tup vs => Ty.hasAll ts vs
  | .user n, .obj m _ => n = m
  | _, _ => False
/-- As many values as types, each of its type. -/
def Ty.hasAll : List Ty → List Val → Prop
  | [], [] => True
  | t :: ts, v :: vs => t.has v ∧ Ty.hasAll ts vs
  | _, _ => False
end

/-- What an object of the type may hold: a value of the type, or nothing yet if it is a scalar. -/
def Ty.holds (t : Ty) (v : Val) : Prop := t.has v ∨ (t.scalar = true ∧ v = .indet)

/-- The types of the parts of a tuple, of their parts, ... -/
def Ty.part : List Nat → Ty → Option Ty
  | [], t => some t
  | i :: path, .tup ts => (ts[i]?).bind fun t => t.part path
  | _ :: _, _ => none

/-- The objects of the memory have the given types. -/
def Mem.Typed (m : Mem) (types : List Ty) : Prop :=
  m.objs.length = types.length ∧
    ∀ (o : Nat) t v, types[o]? = some t → m.objs[o]? = some v → t.holds v

/-- The reference is to an object, or part of an object, of its type. -/
def Ref.Typed (types : List Ty) : Ref → Prop
  | .nil => True
  | .at obj path t => t.isNil = false ∧ ∃ s, types[obj]? = some s ∧ s.part path = some t

/-- Assigning the value to an object of the type gives a value of the type. (Copying a scalar that
has no value is another matter.) -/
def Ty.Takes (t : Ty) (v : Val) : Prop :=
  match t.convert v with
  | .ok v' => t.has v'
  | .error e => e = .ubUninit

/-- The value can be assigned to, or appended to, a destination of the type. -/
def Ty.Receives (t : Ty) (v : Val) : Prop := t.item.Takes v

/-- A destination for digits: a number type out of `N`, or `Nil`. -/
def Ty.Digits (N : NumKind → Prop) : Ty → Prop
  | .nil => True
  | .num k => N k
  | _ => False

/-- An object of the type can be constructed from values of the types. -/
def Ty.MadeFrom : Ty → List Ty → Prop
  | .nil, tys => tys.length ≤ 1
  | .num _, [.num _] => True
  | .tup ts, tys => ts = tys
  | .user _, _ => True
  | _, _ => False

/-- The type of the destination of the value number `k` of a sequence: the `k`th part of a tuple, if
there is one, or the destination of the sequence itself. -/
def Ty.forValue : Ty → Nat → Option Ty
  | .tup ts, k => ts[k]?
  | t, _ => some t

/-- With a bound destination of type `B`, the function of an action returns something a destination
of type `D` receives, and leaves the bound destination alone or a value of its type. -/
def Act.Typed (B D : Ty) (a : Act) : Prop :=
  ∀ log v b, a.landing.has v → (if a.param then B.holds b else b = .nil) →
    (a.void = false → D.Receives (a.fn log v b).1) ∧
    (a.param = true → B.has (a.fn log v b).2 ∨ (a.fn log v b).2 = b)

mutual
/-- All values of a symbol table. -/
def Node.vals : Node → List Val
  | .mk v kids => v.toList ++ kids.vals
/-- All values of its entries. -/
def Kids.vals : Kids → List Val
  | .nil => []
  | .cons _ n rest => n.vals ++ rest.vals
end

mutual
/-- The pattern can be parsed into a destination of type `D`, in a context with a bound destination of
type `B`; `atomic`: the destination must not be touched unless the pattern matches, so that patterns
that work on their destination step by step get a buffer for one element of it. `N`: the types
numbers are read into. `G`: the types `Recur` objects are used with (bound, destination). -/
def Pat.into (N : NumKind → Prop) (G : Nat → Ty → Ty → Prop) (atomic : Bool) (B D : Ty) : Pat → Prop
  | .char _ => D.item.Digits fun _ => True
  | .charSymbol m => ∀ e ∈ m, D.Receives e.2
  | .strLit _ => True
  | .symbol root => ∀ v ∈ root.vals, D.Receives v
  | .int .. => (D.inner atomic).Digits N
  | .uint .. => (D.inner atomic).Digits N
  | .eoi => True
  | .pass => True
  | .fail => True
  | .seq ps => ps ≠ [] ∧ Pat.intoSlots N G B (D.inner atomic) 0 ps
  | .alt ps => ps ≠ [] ∧ Pat.allInto N G atomic B D ps
  | .rep _ _ p => p.into N G true B (D.inner atomic)
  | .opt p => p.into N G true B D
  | .not p => p.into N G false B D
  | .discard p => p.into N G atomic B .nil
  | .lexeme p => p.into N G atomic B D
  | .bindDst p => p.into N G false (D.inner atomic) (D.inner atomic)
  | .construct tys p => p.into N G false B (.tup tys) ∧ D.MadeFrom tys
  | .action a p => p.into N G false B a.landing ∧ a.Typed B D
  | .except op neg => op.into N G atomic B D ∧ neg.into N G false B .nil
  | .list op sep => op.into N G true B (D.inner atomic) ∧ sep.into N G false B .nil
  | .withSkipper p s =>
    p.into N G (atomic && p.ATOMIC) B (D.inner (atomic && !p.ATOMIC)) ∧ s.into N G false .nil .nil
  | .recur id _ => G id B (D.inner atomic)
/-- The parts of a sequence: those with a value one after the other into the parts of a tuple, all
into the same destination if it is not a tuple; `k` the number of values so far. -/
def Pat.intoSlots (N : NumKind → Prop) (G : Nat → Ty → Ty → Prop) (B D : Ty) (k : Nat) :
    List Pat → Prop
  | [] => True
  | p :: ps =>
    if p.valued then
      (∃ t, D.forValue k = some t ∧ p.into N G false B t) ∧ Pat.intoSlots N G B D (k + 1) ps
    else p.into N G false B .nil ∧ Pat.intoSlots N G B D k ps
/-- All alternatives. -/
def Pat.allInto (N : NumKind → Prop) (G : Nat → Ty → Ty → Prop) (atomic : Bool) (B D : Ty) :
    List Pat → Prop
  | [] => True
  | p :: ps => p.into N G atomic B D ∧ Pat.allInto N G atomic B D ps
end

/-- `Recur` objects are set to patterns for all types they are used with. -/
def Env.Into (env : Env) (N : NumKind → Prop) (G : Nat → Ty → Ty → Prop) : Prop :=
  ∀ id B D, G id B D → ∃ q, env id = some q ∧ q.into N G false B D

/-- Arithmetic on the type cannot overflow: it is modular, or on promoted values. -/
def NumKind.noOverflow : NumKind → Prop
  | .signed w => w < 32
  | _ => True

end Abu
