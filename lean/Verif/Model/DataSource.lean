import Verif.Model.CharSet
/-
Data sources: /repo/include/abulafia/data_source/*.h

`none` is undefined behaviour (or a failed `assert`): dereferencing a singular iterator or
an iterator into a released buffer, popping an empty stack or list.
-/
namespace Abu

/-- The operations parsers use on a data source (the implicit interface of
`ctx.data()`). -/
class DataSource (σ : Type) where
  /-- `empty()` -/
  empty : σ → Bool
  /-- `final_buffer()` -/
  final : σ → Bool
  /-- `next()`; `none`: undefined behaviour -/
  next : σ → Option Ch
  /-- `advance()`; `none`: undefined behaviour -/
  advance : σ → Option σ
  /-- `prepare_rollback()` -/
  prepare : σ → σ
  /-- `commit_rollback()`; `none`: undefined behaviour -/
  commit : σ → Option σ
  /-- `cancel_rollback()`; `none`: undefined behaviour -/
  cancel : σ → Option σ

/-! ### SingleForwardDataSource -/

/-- data_source/single_forward.h:22-63. Iterators of the (multi-pass) range `[b, e)` are
modelled by their index in the text of the range; `end_` is the length of the text. -/
structure SingleForward where
  /-- the text of the range `[b, e)` -/
  text : List Ch
  /-- `current_` -/
  current : Nat
  /-- `end_` -/
  endd : Nat
  /-- `rollback_stack_` (top first) -/
  stack : List Nat

namespace SingleForward

/-- single_forward.h:38 -/
def make (text : List Ch) : SingleForward := ⟨text, 0, text.length, []⟩

/-- single_forward.h:62 -/
def empty (s : SingleForward) : Bool := s.current == s.endd

/-- single_forward.h:40 -/
def final (_ : SingleForward) : Bool := true

/-- single_forward.h:55; dereferencing the end iterator is undefined behaviour -/
def next (s : SingleForward) : Option Ch := s.text[s.current]?

/-- single_forward.h:57-60 -/
def advance (s : SingleForward) : Option SingleForward :=
  if s.empty then none else some { s with current := s.current + 1 }

/-- single_forward.h:42 -/
def prepare (s : SingleForward) : SingleForward := { s with stack := s.current :: s.stack }

/-- single_forward.h:44-48 -/
def commit (s : SingleForward) : Option SingleForward :=
  match s.stack with
  | [] => none
  | p :: ps => some { s with current := p, stack := ps }

/-- single_forward.h:50-53 -/
def cancel (s : SingleForward) : Option SingleForward :=
  match s.stack with
  | [] => none
  | _ :: ps => some { s with stack := ps }

instance : DataSource SingleForward where
  empty := empty
  final := final
  next := next
  advance := advance
  prepare := prepare
  commit := commit
  cancel := cancel

end SingleForward

/-! ### ContainerSequenceDataSource -/

/-- A node of `std::list<std::shared_ptr<CONTAINER_T>> buffers_`: identity of the list node
and the content of the buffer it owns. Identities are never reused, so that an iterator to
an erased node is recognisable. Simplification: the caller does not mutate a buffer after
handing it over. -/
structure Buffer where
  id : Nat
  data : List Ch

/-- `buffer_iterator` (container_sequence.h:35): `none` is `buffers_.end()` (which stays
valid under `push_back` and `pop_front`), `some id` points to the node with that identity. -/
abbrev BufIt := Option Nat

/-- `iterator` (container_sequence.h:33): `none` is a singular `iterator()`, `some (id, k)`
points to offset `k` in the buffer of node `id`. -/
abbrev CharIt := Option (Nat × Nat)

/-- container_sequence.h:37-45 -/
structure ContainerSeq where
  /-- `buffers_` (front first) -/
  buffers : List Buffer
  /-- `final_` -/
  final_ : Bool
  /-- `current_` -/
  current : CharIt
  /-- `current_buffer_` -/
  curBuf : BufIt
  /-- `rollback_stack_`; the last element is `back()`, the first is `front()` -/
  rollback : List (CharIt × BufIt)
  /-- `empty_rollbacks_` -/
  emptyRollbacks : Nat
  /-- identity that the next list node will get (model bookkeeping) -/
  nextId : Nat

namespace ContainerSeq

/-- container_sequence.h:52, 38, 45 -/
def make : ContainerSeq := ⟨[], false, none, none, [], 0, 0⟩

/-- container_sequence.h:117 -/
def empty (s : ContainerSeq) : Bool := s.curBuf == none

/-- container_sequence.h:85 -/
def final (s : ContainerSeq) : Bool := s.final_

/-- `buffers_.begin()` -/
def beginIt (s : ContainerSeq) : BufIt := s.buffers.head?.map Buffer.id

/-- Dereference a `buffer_iterator`: `none` (undefined behaviour) for `end()` and for
nodes no longer in the list. -/
def deref (s : ContainerSeq) (it : BufIt) : Option Buffer :=
  match it with
  | none => none
  | some i => s.buffers.find? (fun b => b.id == i)

/-- `std::next(it)`: `none` is undefined behaviour (`end()` or erased node),
`some end` when `it` is the last node. -/
def nextIt (s : ContainerSeq) (it : BufIt) : Option BufIt :=
  match it with
  | none => none
  | some i =>
    match s.buffers.dropWhile (fun b => b.id != i) with
    | [] => none
    | _ :: rest => some (rest.head?.map Buffer.id)

/-- `std::prev(buffers_.end())` -/
def lastIt (s : ContainerSeq) : BufIt := s.buffers.getLast?.map Buffer.id

/-- Character pointed to by `it`: undefined behaviour when `it` is singular, when its
buffer has been released or when it is at the end of its buffer. -/
def derefChar (s : ContainerSeq) (it : CharIt) : Option Ch :=
  match it with
  | none => none
  | some (i, k) =>
    match s.deref (some i) with
    | none => none
    | some b => b.data[k]?

/-- container_sequence.h:54-74 `add_buffer(b, f)`; `none`: `assert(!final_)` fails. -/
def addBuffer (s : ContainerSeq) (b : List Ch) (f : Bool) : Option ContainerSeq :=
  if s.final_ then none
  else if b.isEmpty then some { s with final_ := f }
  else
    let isEmpty := s.empty
    let s1 := { s with buffers := s.buffers ++ [Buffer.mk s.nextId b], nextId := s.nextId + 1 }
    if isEmpty then
      let cb := s1.lastIt
      let cur : CharIt := cb.map (fun i => (i, 0))
      some { s1 with
        curBuf := cb, current := cur,
        rollback := s1.rollback ++ List.replicate s1.emptyRollbacks (cur, cb),
        emptyRollbacks := 0, final_ := f }
    else some { s1 with final_ := f }

/-- container_sequence.h:87-90 -/
def next (s : ContainerSeq) : Option Ch :=
  if s.empty then none else s.derefChar s.current

/-- container_sequence.h:92-115 -/
def advance (s : ContainerSeq) : Option ContainerSeq :=
  -- current_++ : undefined for a singular iterator, an iterator into a released buffer
  -- or an end iterator
  match s.current, s.derefChar s.current with
  | some (i, k), some _ =>
    -- (*current_buffer_)->end()
    match s.deref s.curBuf with
    | none => none
    | some cb =>
      -- comparing iterators of two different containers is undefined
      if i ≠ cb.id then none
      else if k + 1 = cb.data.length then
        match s.nextIt s.curBuf with
        | none => none
        | some nb =>
          let cur : CharIt := nb.map (fun j => (j, 0))
          let held := match s.rollback.head? with
            | none => false
            | some e => e.2 == s.curBuf
          let bufs :=
            if s.curBuf == s.beginIt then
              if held then s.buffers else s.buffers.tail
            else s.buffers
          some { s with current := cur, buffers := bufs, curBuf := nb }
      else some { s with current := some (i, k + 1) }
  | _, _ => none

/-- container_sequence.h:119-125 -/
def prepare (s : ContainerSeq) : ContainerSeq :=
  if s.empty then { s with emptyRollbacks := s.emptyRollbacks + 1 }
  else { s with rollback := s.rollback ++ [(s.current, s.curBuf)] }

/-- container_sequence.h:152-154: `while (current_buffer_ != buffers_.begin())
buffers_.pop_front();` — `pop_front` on an empty list is undefined behaviour. -/
def popUntil (it : BufIt) : List Buffer → Option (List Buffer)
  | [] => if it == none then some [] else none
  | b :: bs => if it == some b.id then some (b :: bs) else popUntil it bs

/-- container_sequence.h:148-156 -/
def cleanup (s : ContainerSeq) : Option ContainerSeq :=
  if s.rollback.isEmpty then
    (popUntil s.curBuf s.buffers).map (fun bs => { s with buffers := bs })
  else some s

/-- container_sequence.h:127-136 -/
def commit (s : ContainerSeq) : Option ContainerSeq :=
  if s.emptyRollbacks ≠ 0 then some { s with emptyRollbacks := s.emptyRollbacks - 1 }
  else match s.rollback.getLast? with
    | none => none
    | some e =>
      cleanup { s with curBuf := e.2, current := e.1, rollback := s.rollback.dropLast }

/-- container_sequence.h:138-145 -/
def cancel (s : ContainerSeq) : Option ContainerSeq :=
  if s.emptyRollbacks ≠ 0 then some { s with emptyRollbacks := s.emptyRollbacks - 1 }
  else match s.rollback.getLast? with
    | none => none
    | some _ => cleanup { s with rollback := s.rollback.dropLast }

instance : DataSource ContainerSeq where
  empty := empty
  final := final
  next := next
  advance := advance
  prepare := prepare
  commit := commit
  cancel := cancel

end ContainerSeq
end Abu
