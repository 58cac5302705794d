import Verif.Model.Dst
/-
How the type of an action decides what it is called with: /repo/include/abulafia/support/function_traits.h
and the traits of parsers/coroutine/unary/action.h. Simplified: an object has one call operator, without
default arguments, and what it does compiles whatever its `auto` parameters are; the only class that can be
made from anything is `Nil`.
-/
namespace Abu

/-- How a parameter is passed: `T` (or `T const`, which is the same type of function), `T const&`, `T&`,
`T&&`. -/
inductive Passing
  | value | constRef | ref | rvalueRef
deriving DecidableEq

/-- A parameter of a call operator. -/
inductive ActParam
  | plain (m : Passing) (t : Ty)
  /-- `auto`, `auto const&`, `auto&&` -/
  | auto
  /-- `auto&` -/
  | autoRef

/-- A function as it is given to `operator[]` (patterns/unary/action.h:32-36; `decay_t` makes functions
pointers). `result` is `none` for `void`. -/
inductive ActFn
  | pointer (isNoexcept : Bool) (params : List (Passing × Ty)) (result : Option Ty)
  | object (isConst isNoexcept : Bool) (params : List ActParam) (result : Option Ty)

def ActFn.params : ActFn → List ActParam
  | .pointer _ ps _ => ps.map fun p => .plain p.1 p.2
  | .object _ _ ps _ => ps

def ActFn.result : ActFn → Option Ty
  | .pointer _ _ r => r
  | .object _ _ _ r => r

/-- Can a parameter be given an rvalue of type `arbitrary` (unary/action.h:19-22)? It converts to every type,
but not to an lvalue. -/
def ActParam.takesArbitrary : ActParam → Bool
  | .plain .ref _ => false
  | .plain _ _ => true
  | .auto => true
  | .autoRef => false

/-- Can a parameter be given an rvalue of type `ActionParam<...>` (unary/action.h:24-27)? `Nil` is made from
anything (support/nil.h:25-26). -/
def ActParam.takesParam : ActParam → Bool
  | .plain .ref _ => false
  | .plain _ .nil => true
  | .plain _ _ => false
  | .auto => true
  | .autoRef => false

/-- `std::is_invocable<ACT_T, arbitrary>` -/
def ActFn.onValue (f : ActFn) : Bool :=
  match f.params with
  | [p] => p.takesArbitrary
  | _ => false

/-- `std::is_invocable<ACT_T, ActionParam<DST_T>>` -/
def ActFn.onParam (f : ActFn) : Bool :=
  match f.params with
  | [p] => p.takesParam
  | _ => false

/-- `std::is_invocable<ACT_T, arbitrary, ActionParam<DST_T>>` -/
def ActFn.onBoth (f : ActFn) : Bool :=
  match f.params with
  | [p, q] => p.takesArbitrary && q.takesParam
  | _ => false

/-- unary/action.h:29-34 `has_incoming_val` -/
def ActFn.hasIncomingVal (f : ActFn) : Bool :=
  (f.onValue && !f.onParam) || f.onBoth

/-- unary/action.h:36-40 `has_incoming_param` -/
def ActFn.hasIncomingParam (f : ActFn) : Bool :=
  f.onParam || f.onBoth

/-- The type `&T::operator()`, or `T` for a pointer, as function_traits.h takes it apart: the specialisations
are for `const` member functions (line 22) and for function pointers (line 36), neither of them `noexcept`;
everything else ends in the primary template, which does not compile for pointers (line 19). `none`: does not
compile. -/
def functionTraits (isMember isConst isNoexcept : Bool) (params : List (Passing × Ty))
    (result : Option Ty) : Option (List (Passing × Ty) × Option Ty) :=
  if (isMember && !isConst) || isNoexcept then none else some (params, result)

/-- The parameters of a call operator that is not a template. -/
def plainParams : List ActParam → Option (List (Passing × Ty))
  | [] => some []
  | .plain m t :: ps => (plainParams ps).map ((m, t) :: ·)
  | _ :: _ => none

/-- function_traits.h:18-19 `function_traits<ACT_T>`: the address of a call operator that is a template
cannot be taken without template arguments. -/
def ActFn.traits : ActFn → Option (List (Passing × Ty) × Option Ty)
  | .pointer n ps r => functionTraits false true n ps r
  | .object c n ps r => match plainParams ps with
    | none => none
    | some qs => functionTraits true c n qs r

/-- unary/action.h:54-76 `determine_result_type`, with which `returns_void` begins. -/
def ActFn.resultType (f : ActFn) : Option (Option Ty) :=
  if f.hasIncomingParam then some f.result
  else f.traits.map Prod.snd

/-- unary/action.h:98-100 `function_traits<decltype(&ACT_T::template operator()<ActionParam<DST_T>>)>`: the
first template argument is that of the first `auto`, and there must be no other. The parameters after the
first are not looked at. An `auto` before a `Nil` is left out. -/
def ActFn.traitsGiven : ActFn → Option (Option (Passing × Ty))
  | .pointer .. => none
  | .object c n ps _ => match ps with
    | [.plain m t, .auto] => (functionTraits true c n [(m, t)] none).map fun r => r.1.head?
    | _ => none

/-- unary/action.h:78-101 `determine_landing_type` -/
def ActFn.landingType (f : ActFn) : Option (Passing × Ty) :=
  if f.hasIncomingVal then
    if f.hasIncomingParam then f.traitsGiven.bind id
    else f.traits.bind fun r => r.1.head?
  else some (.value, .nil)

/-- An argument of an action: the value of its operand, or the `ActionParam` with the bound destination. -/
inductive ActArg
  | value (t : Ty)
  | bound

/-- unary/action.h:103-144: the arguments `act_dispatch` calls the action with. -/
def ActFn.arguments (f : ActFn) (landing : Ty) : List ActArg :=
  (if f.hasIncomingVal then [.value landing] else []) ++ if f.hasIncomingParam then [.bound] else []

/-- Can a parameter be given that argument, `std::move(land)` or the variable `p` (unary/action.h:109)? -/
def ActParam.Takes : ActParam → ActArg → Prop
  | .plain .ref _, _ => False
  | .plain _ t, .value u => t = u
  | .plain _ t, .bound => t = .nil
  | .auto, _ => True
  | .autoRef, .value _ => False
  | .autoRef, .bound => True

/-- Can `f` be called on a `const` object, as it is in `act_dispatch` (unary/action.h:104)? -/
def ActFn.onConst : ActFn → Prop
  | .pointer .. => True
  | .object c _ _ _ => c = true

/-- The call in `act_dispatch` compiles. -/
def ActFn.Callable (f : ActFn) (args : List ActArg) : Prop :=
  f.onConst ∧ f.params.length = args.length ∧ ∀ x ∈ f.params.zip args, x.1.Takes x.2

/-- What becomes of an action: the type of the value its operand is parsed into, whether its result is
ignored, its arguments. -/
structure ActUse where
  landing : Ty
  void : Bool
  args : List ActArg

/-- `ActionImpl` (unary/action.h:148-190) compiles for an action of that type, and this becomes of it. The
landing value is a member that the constructor does not mention (lines 175-180), so that it must not be a
reference. -/
def ActFn.Compiles (f : ActFn) (u : ActUse) : Prop :=
  ∃ r, f.resultType = some r ∧ f.landingType = some (.value, u.landing) ∧ u.void = r.isNone ∧
    u.args = f.arguments u.landing ∧ f.Callable u.args

end Abu
