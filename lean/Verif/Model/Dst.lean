import Verif.Model.CharSet
/-
Destinations: /repo/include/abulafia/dst_wrapper/*.h, support/nil.h, and the arithmetic the
numeric parsers perform through `dst.get()`.

Destination objects live in a memory; a destination wrapper is a reference into it.
-/
namespace Abu

/-- What can go wrong. -/
inductive Err
  /-- not a behaviour of the code: the evaluation was cut before it ended -/
  | fuel
  /-- undefined behaviour: rollback stack underflow, reading or advancing past the data,
  use of a released buffer -/
  | ubData
  /-- undefined behaviour: signed overflow -/
  | ubOverflow
  /-- undefined behaviour: signed overflow of a counter of a parser object (`Counters.lean`) -/
  | ubCounter
  /-- undefined behaviour: the call stack is exhausted (`Stack.lean`) -/
  | ubStack
  /-- undefined behaviour: copy of an uninitialised scalar -/
  | ubUninit
  /-- undefined behaviour: use of a `Recur` whose pattern was never set -/
  | ubRecur
  /-- undefined behaviour: write through a reference to no object -/
  | ubDangling
  /-- undefined behaviour: a violated `abu_assume` -/
  | ubAssume
  /-- the C++ program does not compile -/
  | noCompile
  /-- a parser object in a state its class cannot have -/
  | stuck
  deriving DecidableEq, Repr

/-- Arithmetic types used as destinations. `ideal` is an unbounded integer type. `unsigned w`
and `signed w` are `w`-bit types. Simplification: floating point types and `bool` are not
modelled. -/
inductive NumKind
  | ideal
  | unsigned (w : Nat)
  | signed (w : Nat)
  deriving DecidableEq, Repr

/-- Conversion of a value to the type (two's complement wrap around for narrowing
conversions). -/
def NumKind.wrap : NumKind → Int → Int
  | .ideal, i => i
  | .unsigned w, i => i % 2 ^ w
  | .signed w, i => (i + 2 ^ (w - 1)) % 2 ^ w - 2 ^ (w - 1)

/-- Is the value representable? -/
def NumKind.inRange : NumKind → Int → Prop
  | .ideal, _ => True
  | .unsigned w, i => 0 ≤ i ∧ i < 2 ^ w
  | .signed w, i => -2 ^ (w - 1) ≤ i ∧ i < 2 ^ (w - 1)

instance : (k : NumKind) → (i : Int) → Decidable (k.inRange i)
  | .ideal, _ => inferInstanceAs (Decidable True)
  | .unsigned _, _ => inferInstanceAs (Decidable (_ ∧ _))
  | .signed _, _ => inferInstanceAs (Decidable (_ ∧ _))

/-- Result of an arithmetic operation whose mathematical value is `i`, computed and stored in
the type: unsigned arithmetic is modular; signed types narrower than `int` are promoted and
converted back; signed types of 32 bits or more overflow, which is undefined behaviour. -/
def NumKind.store (k : NumKind) (i : Int) : Except Err Int :=
  match k with
  | .ideal => .ok i
  | .unsigned _ => .ok (k.wrap i)
  | .signed w =>
    if w < 32 then .ok (k.wrap i)
    else if k.inRange i then .ok i else .error .ubOverflow

/-- Types of destination objects. -/
inductive Ty
  /-- support/nil.h `Nil` -/
  | nil
  | num (k : NumKind)
  /-- support/type_traits.h:45-59: vector, list, deque, basic_string -/
  | coll (elem : Ty)
  /-- `std::tuple<...>` -/
  | tup (elems : List Ty)
  /-- any other class type, by an arbitrary name -/
  | user (name : Nat)
  deriving Repr

/-- Values. Characters are numbers. -/
inductive Val
  | nil
  /-- uninitialised scalar -/
  | indet
  | num (i : Int)
  | coll (vs : List Val)
  | tup (vs : List Val)
  /-- object of a user type, by the constructor arguments it was made from -/
  | obj (name : Nat) (args : List Val)
  deriving Repr

/-- `char` -/
def Ty.char : Ty := .num (.signed 8)
/-- `int` -/
def Ty.int : Ty := .num (.signed 32)
/-- `unsigned` -/
def Ty.unsigned : Ty := .num (.unsigned 32)
/-- `std::string` -/
def Ty.string : Ty := .coll Ty.char

mutual
/-- Value initialisation `T()`. -/
def Ty.valueInit : Ty → Val
  | .nil => .nil
  | .num _ => .num 0
  | .coll _ => .coll []
  | .tup ts => .tup (Ty.valueInits ts)
  | .user n => .obj n []
/-- Value initialisation of each element of a tuple. -/
def Ty.valueInits : List Ty → List Val
  | [] => []
  | t :: ts => t.valueInit :: Ty.valueInits ts
end

/-- Default initialisation of a member `T x;` (parsers/coroutine/adapters/atomic.h:49,
unary/action.h:175, unary/construct.h:33): scalars stay uninitialised, classes run their
default constructor; `std::tuple` value-initialises its elements. -/
def Ty.defaultInit : Ty → Val
  | .num _ => .indet
  | t => t.valueInit

/-- Conversion of a value on assignment to an object of the type, or on construction of a
collection element from it. Simplification: only the shape of the value is checked, a shape
mismatch means the program does not compile; conversions between numeric types and the
conversion of `Nil` to anything (support/nil.h:52-55) are modelled. -/
def Ty.convert : Ty → Val → Except Err Val
  | .nil, _ => .ok .nil
  | .num k, .num i => .ok (.num (k.wrap i))
  | .num _, .indet => .error .ubUninit
  | .coll _, .coll vs => .ok (.coll vs)
  | .tup _, .tup vs => .ok (.tup vs)
  | .user n, .obj m args => if n = m then .ok (.obj n args) else .error .noCompile
  | t, .nil => .ok t.valueInit
  | _, _ => .error .noCompile

/-- A destination wrapper: `Nil` (support/nil.h) or a wrapper around a pointer to (a tuple
element of) an object (dst_wrapper/value_wrapper.h:20-39, collection_wrapper.h:33-52). The
type decides which wrapper it is (dst_wrapper/select_wrapper.h:17-30). -/
inductive Ref
  | nil
  | at (obj : Nat) (path : List Nat) (ty : Ty)
  deriving Repr

/-- dst_wrapper/select_wrapper.h:35-38 `wrap_dst`. -/
def wrapDst (obj : Nat) (path : List Nat) (ty : Ty) : Ref :=
  match ty with
  | .nil => .nil
  | t => .at obj path t

/-- `DST_T::dst_value_type`: support/nil.h:21, value_wrapper.h:23, collection_wrapper.h:37. -/
def Ref.valueType : Ref → Ty
  | .nil => .nil
  | .at _ _ (.coll t) => t
  | .at _ _ t => t

/-- A call of a user action: which action, with what argument. -/
structure LogEntry where
  action : Nat
  arg : Val
  deriving Repr

/-- Memory: destination objects (by index), and the calls of user actions so far. Objects are
never reused: destroyed ones simply stay unreferenced. -/
structure Mem where
  objs : List Val
  log : List LogEntry
  deriving Repr

/-- Apply `f` to the sub-object at `path`. -/
def Val.update (f : Val → Except Err Val) : List Nat → Val → Except Err Val
  | [], v => f v
  | i :: path, .tup vs =>
    match vs[i]? with
    | none => .error .ubDangling
    | some v =>
      match Val.update f path v with
      | .error e => .error e
      | .ok v' => .ok (.tup (vs.set i v'))
  | _ :: _, _ => .error .ubDangling

/-- The sub-object at `path`. -/
def Val.get : List Nat → Val → Except Err Val
  | [], v => .ok v
  | i :: path, .tup vs =>
    match vs[i]? with
    | none => .error .ubDangling
    | some v => Val.get path v
  | _ :: _, _ => .error .ubDangling

/-- Modify the object behind a reference. -/
def Mem.modify (m : Mem) (obj : Nat) (path : List Nat) (f : Val → Except Err Val) :
    Except Err Mem :=
  match m.objs[obj]? with
  | none => .error .ubDangling
  | some v =>
    match Val.update f path v with
    | .error e => .error e
    | .ok v' => .ok { m with objs := m.objs.set obj v' }

/-- Read the object behind a reference; `Nil` reads as `Nil`. -/
def Mem.read (m : Mem) : Ref → Except Err Val
  | .nil => .ok .nil
  | .at obj path _ =>
    match m.objs[obj]? with
    | none => .error .ubDangling
    | some v => Val.get path v

/-- `dst = v`: support/nil.h:30-33 (no effect), value_wrapper.h:28-32 (assignment),
collection_wrapper.h:42-46 and 19-30 (append one element constructed from `v`). -/
def Mem.assign (m : Mem) (r : Ref) (v : Val) : Except Err Mem :=
  match r with
  | .nil => .ok m
  | .at obj path (.coll t) =>
    match t.convert v with
    | .error e => .error e
    | .ok e => m.modify obj path fun
      | .coll vs => .ok (.coll (vs ++ [e]))
      | _ => .error .noCompile
  | .at obj path t =>
    match t.convert v with
    | .error e => .error e
    | .ok v' => m.modify obj path fun _ => .ok v'

/-- An operation on `dst.get()` that only makes sense on numbers (parsers/coroutine/leaf/
numeric/int.h:28,35,59,60 and uint.h:28,42,43). -/
def Mem.onNum (m : Mem) (r : Ref) (f : NumKind → Val → Except Err Val) : Except Err Mem :=
  match r with
  | .nil => .ok m
  | .at obj path (.num k) => m.modify obj path (f k)
  | .at _ _ _ => .error .noCompile

/-- `dst.get() = 0` -/
def Mem.zero (m : Mem) (r : Ref) : Except Err Mem :=
  m.onNum r fun _ _ => .ok (.num 0)

/-- `dst.get() *= b` -/
def Mem.mul (b : Int) (m : Mem) (r : Ref) : Except Err Mem :=
  m.onNum r fun k v =>
    match v with
    | .num i => match k.store (i * b) with
      | .error e => .error e
      | .ok j => .ok (.num j)
    | .indet => .error .ubUninit
    | _ => .error .noCompile

/-- `dst.get() += d` -/
def Mem.add (d : Int) (m : Mem) (r : Ref) : Except Err Mem :=
  m.onNum r fun k v =>
    match v with
    | .num i => match k.store (i + d) with
      | .error e => .error e
      | .ok j => .ok (.num j)
    | .indet => .error .ubUninit
    | _ => .error .noCompile

/-- `dst.get() *= BASE; dst.get() += value` (int.h:59-60, uint.h:42-43). -/
def Mem.mulAdd (b d : Int) (m : Mem) (r : Ref) : Except Err Mem :=
  match m.mul b r with
  | .error e => .error e
  | .ok m => m.add d r

/-- `dst = buffer_` (adapters/atomic.h:43). -/
def Mem.assignFrom (m : Mem) (dst buf : Ref) : Except Err Mem :=
  match m.read buf with
  | .error e => .error e
  | .ok .indet => .error .ubUninit
  | .ok v => m.assign dst v

/-- `std::make_from_tuple<T>(buffer)` (unary/construct.h:45), by the type of the destination.
Simplification: constructing a collection from the arguments is not modelled. -/
def Ty.makeFrom : Ty → List Val → Except Err Val
  | .user n, args => .ok (.obj n args)
  | .num k, [.num i] => .ok (.num (k.wrap i))
  | .tup _, args => .ok (.tup args)
  | .nil, [_] => .ok .nil
  | .nil, [] => .ok .nil
  | _, _ => .error .noCompile

/-- `dst = std::make_from_tuple<typename DST_T::dst_type>(buffer_)` (unary/construct.h:45). -/
def Mem.construct (m : Mem) (dst buf : Ref) : Except Err Mem :=
  match m.read buf with
  | .error e => .error e
  | .ok (.tup args) =>
    match dst with
    | .nil => match Ty.nil.makeFrom args with
      | .error e => .error e
      | .ok _ => .ok m
    | .at _ _ t => match t.makeFrom args with
      | .error e => .error e
      | .ok v => m.assign dst v
  | .ok _ => .error .noCompile

/-- A user action (unary/action.h). `fn` gets the history of all action calls so far (so it
can stand for any deterministic stateful callback), the landing value and the value of the
bound destination, and returns its result and the new value of the bound destination. -/
structure Act where
  id : Nat
  /-- type of its value parameter, `Nil` if it takes none (action.h:78-101) -/
  landing : Ty
  /-- does it return `void`? (action.h:73-76) -/
  void : Bool
  /-- does it take an `ActionParam`? (action.h:36-40) -/
  param : Bool
  fn : List LogEntry → Val → Val → Val × Val

/-- What a user action does to the bound destination (unary/action.h:30-33). An action that makes a usable
value unusable stands for one whose own behaviour is undefined; one that leaves it alone does nothing. -/
def Val.overwrite (old new : Val) : Except Err Val :=
  match old, new with
  | .indet, _ => .ok new
  | _, .indet => .error .ubUninit
  | _, _ => .ok new

/-- unary/action.h:103-144 `act_dispatch`. Copying an uninitialised landing value is undefined
behaviour. The bound destination is written before the result is assigned. -/
def Mem.act (m : Mem) (a : Act) (land dst bnd : Ref) : Except Err Mem :=
  match m.read land with
  | .error e => .error e
  | .ok .indet => .error .ubUninit
  | .ok v =>
    match (if a.param then m.read bnd else .ok .nil) with
    | .error e => .error e
    | .ok b =>
      let (res, b') := a.fn m.log v b
      let m1 : Mem := { m with log := m.log ++ [⟨a.id, v⟩] }
      match (match a.param, bnd with
        | true, .at obj path _ => m1.modify obj path (fun old => old.overwrite b')
        | _, _ => .ok m1) with
      | .error e => .error e
      | .ok m2 => if a.void then .ok m2 else m2.assign dst res

/-- The operations parsers perform on destinations. -/
inductive MemOp
  /-- `dst.get() = 0` -/
  | zero (dst : Ref)
  /-- `dst.get() *= BASE; dst.get() += d` -/
  | mulAdd (base d : Int) (dst : Ref)
  /-- `dst.get() *= -1` -/
  | neg (dst : Ref)
  /-- `dst = v` -/
  | assign (dst : Ref) (v : Val)
  /-- `dst = buffer_` -/
  | move (dst buf : Ref)
  /-- `dst = std::make_from_tuple<...>(buffer_)` -/
  | construct (dst buf : Ref)
  /-- `act_dispatch(act, landing, dst, ctx)` -/
  | act (a : Act) (land dst bnd : Ref)

/-- Their effect. -/
def Mem.run (m : Mem) : MemOp → Except Err Mem
  | .zero dst => m.zero dst
  | .mulAdd b d dst => m.mulAdd b d dst
  | .neg dst => m.mul (-1) dst
  | .assign dst v => m.assign dst v
  | .move dst buf => m.assignFrom dst buf
  | .construct dst buf => m.construct dst buf
  | .act a land dst bnd => m.act a land dst bnd

/-- A new member object, default-initialised, and the wrapper around it. -/
def Mem.alloc (m : Mem) (ty : Ty) : Ref × Mem :=
  match ty with
  | .nil => (.nil, m)
  | t => (.at m.objs.length [] t, { m with objs := m.objs ++ [t.defaultInit] })

/-- Anything parsers can use as memory. The library only has `Mem`; the abstraction lets
parsing be studied without its destinations. -/
class Store (μ : Type) where
  op : MemOp → μ → Except Err μ
  alloc : Ty → μ → Ref × μ

instance : Store Mem where
  op o m := m.run o
  alloc t m := m.alloc t

/-- The memory of a pure recogniser: every destination is `Nil`. -/
instance : Store Unit where
  op _ _ := .ok ()
  alloc _ _ := (.nil, ())

end Abu
