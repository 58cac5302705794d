import Verif.Model.Machine
/-
`Recur` objects and the pool their patterns live in: /repo/include/abulafia/patterns/recur.h.
-/
namespace Abu

/-- An element of `RecurMemoryPool::handles_` (patterns/recur.h:31): the `unique_ptr` to the pattern,
null at first, and the pool it belongs to. -/
structure RSlot where
  pool : Nat
  payload : Option Pat

/-- Pools, `Recur` objects (variables, also those that are part of patterns), and the elements of all
pools. `Recur::pat_` (patterns/recur.h:38), the only member of a `Recur`, is the position of an
element; `emplace_back` of a `std::deque` moves no element. -/
structure RState where
  /-- pools made so far: do they still exist? -/
  pools : List Bool
  /-- the `pat_` of each variable -/
  vars : List Nat
  slots : List RSlot

/-- Before anything was made. -/
def RState.start : RState := ⟨[], [], []⟩

/-- What the user does. Variables and pools are numbered in the order they are made. -/
inductive ROp
  /-- `RecurMemoryPool pool;` -/
  | newPool
  /-- `pool` goes out of scope -/
  | dropPool (k : Nat)
  /-- `Recur<...> r(pool);` -/
  | make (k : Nat)
  /-- a copy or move of `r`, or of a pattern that contains it (patterns/recur.h:45-46) -/
  | copy (r : Nat)
  /-- `ABU_Recur_define(r, ..., p)` -/
  | define (r : Nat) (p : Pat)

/-- Effect of one operation; an error if a pool is used that no longer exists. Operations on
variables or pools that were never made do not compile. -/
def RState.op (s : RState) : ROp → Except Err RState
  | .newPool => .ok { s with pools := s.pools ++ [true] }
  | .dropPool k =>
    if s.pools[k]? = some true then .ok { s with pools := s.pools.set k false } else .error .noCompile
  -- patterns/recur.h:25-28, 44
  | .make k =>
    match s.pools[k]? with
    | some true => .ok { s with vars := s.vars ++ [s.slots.length], slots := s.slots ++ [⟨k, none⟩] }
    | some false => .error .ubDangling
    | none => .error .noCompile
  -- patterns/recur.h:45-46
  | .copy r =>
    match s.vars[r]? with
    | some h => .ok { s with vars := s.vars ++ [h] }
    | none => .error .noCompile
  -- patterns/recur.h:48-51, 64-72
  | .define r p =>
    match s.vars[r]? with
    | some h =>
      match s.slots[h]? with
      | some e =>
        if s.pools[e.pool]? = some true then .ok { s with slots := s.slots.set h ⟨e.pool, some p⟩ }
        else .error .ubDangling
      | none => .error .ubDangling
    | none => .error .noCompile

/-- Effect of operations one after the other. -/
def RState.ops (s : RState) : List ROp → Except Err RState
  | [] => .ok s
  | o :: os =>
    match s.op o with
    | .error e => .error e
    | .ok s' => s'.ops os

/-- patterns/recur.h:53-55 `operand()` of the `Recur` with the given `pat_` -/
def RState.operand (s : RState) (h : Nat) : Except Err Pat :=
  match s.slots[h]? with
  | some e =>
    if s.pools[e.pool]? = some true then
      match e.payload with
      | some p => .ok p
      | none => .error .ubRecur
    else .error .ubDangling
  | none => .error .ubDangling

/-- The patterns as the parsers see them (parsers/coroutine/recur.h:38-44): `Pat.recur id` stands for
a `Recur` object with `pat_ = id`. Simplification: use of a `Recur` whose pool is gone is the same
error in parsers as use of one that was never set. -/
def RState.env (s : RState) : Env := fun h =>
  match s.operand h with
  | .ok p => some p
  | .error _ => none

end Abu
