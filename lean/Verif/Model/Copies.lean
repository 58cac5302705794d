import Verif.Model.Api
/-
Copies of parser objects. `ParserInterface` (/repo/include/abulafia/operations/make_parser.h:22-41)
declares no copy constructor, so it has the implicit one, which copies member by member:

* `data_source_` (container_sequence.h:37-45): `buffers_` is copied, a list of its own; the copies of
  `current_buffer_` and of the iterators in `rollback_stack_` still point into the list of the original;
* `ctx_` (context.h:43): `data_` is a reference, the one to the data source of the original;
* `pat_`, `dst_` (value_wrapper.h:26, collection_wrapper.h:40): the same pattern, the same destination;
* `parser_`: the parser objects with their buffers, by value.
-/
namespace Abu

mutual
/-- Whether the parser object of a pattern has a copy constructor: not with `Recur`, as
`child_parser_` is a `unique_ptr` (parsers/coroutine/recur.h:30). -/
def Pat.copyable : Pat → Bool
  | .recur _ _ => false
  | .seq ps => Pat.copyables ps
  | .alt ps => Pat.copyables ps
  | .rep _ _ p => p.copyable
  | .opt p => p.copyable
  | .not p => p.copyable
  | .discard p => p.copyable
  | .lexeme p => p.copyable
  | .bindDst p => p.copyable
  | .construct _ p => p.copyable
  | .action _ p => p.copyable
  | .except p q => p.copyable && q.copyable
  | .list p q => p.copyable && q.copyable
  | .withSkipper p s => p.copyable && s.copyable
  | _ => true
def Pat.copyables : List Pat → Bool
  | [] => true
  | p :: ps => p.copyable && Pat.copyables ps
end

/-- The data source of a parser object. -/
inductive OwnSource
  /-- made by the constructor (container_sequence.h:52): its iterators point into its own list -/
  | own (s : ContainerSeq)
  /-- made by the copy constructor; of its members only `final_` can still be used: everything else
  compares iterators of two different lists, which is undefined -/
  | copied (final_ : Bool)

/-- The implicit copy constructor of `ContainerSequenceDataSource`. -/
def OwnSource.copy : OwnSource → OwnSource
  | .own s => .copied s.final_
  | .copied f => .copied f

/-- container_sequence.h:54-74 `add_buffer`. On a copy: `assert(!final_)`; line 58, `b->begin() ==
b->end()`: only `final_` is set; otherwise line 59, `empty()`, compares `current_buffer_`, an
iterator of the list of the original, with `buffers_.end()`. -/
def OwnSource.add : OwnSource → List Ch → Bool → Option OwnSource
  | .own s, b, f => (s.addBuffer b f).map .own
  | .copied final_, b, f => if final_ then none else if b.isEmpty then some (.copied f) else none

/-- A parser object of the program: its parser `parser_`, its data source `data_source_`, and the object
whose data source `ctx_` refers to. -/
inductive CopyObj
  | absent
  | live (st : PState) (src : OwnSource) (reads : Nat)
  | gone

/-- The objects, with object `i` replaced. -/
def setCopy (θ : Nat → CopyObj) (i : Nat) (s : CopyObj) : Nat → CopyObj :=
  fun j => if j = i then s else θ j

/-- A buffer of a copied parser object; `k`: see `PState.copyAt`. -/
def Ref.copyAt (k n : Nat) : Ref → Ref
  | .nil => .nil
  | .at o p t => if o < k then .at o p t else .at (o - k + n) p t

/-- The parser object with the buffers copied to the places from `n` on. `k` is the number of
objects that there were before the first parser object; all later ones are buffers of parser
objects. Simplification: a copy gets copies of all of these, also of those that it does not have. -/
def PState.copyAt (k n : Nat) : PState → PState
  | .seq i c => .seq i (c.copyAt k n)
  | .alt i c => .alt i (c.copyAt k n)
  | .rep m c => .rep m (c.copyAt k n)
  | .wrap c => .wrap (c.copyAt k n)
  | .buffered b c => .buffered (b.copyAt k n) (c.copyAt k n)
  | .skip d s c => .skip d (s.copyAt k n) (c.copyAt k n)
  | .except b c => .except b (c.copyAt k n)
  | .list b c => .list b (c.copyAt k n)
  | .recurSome c => .recurSome (c.copyAt k n)
  | .unit => .unit
  | .strLit m => .strLit m
  | .symbol m v => .symbol m v
  | .uint m => .uint m
  | .int m l s => .int m l s
  | .recurNone => .recurNone

/-- The memory with the copied buffers. -/
def Mem.copyFrom (k : Nat) (m : Mem) : Mem := ⟨m.objs ++ m.objs.drop k, m.log⟩

/-- A step of the program. -/
inductive CopyOp
  /-- `auto j = i;` -/
  | copy (i j : Nat)
  /-- the end of the lifetime of `i` -/
  | destroy (i : Nat)
  /-- `i.data().add_buffer(b, isFinal)` -/
  | add (i : Nat) (b : List Ch) (isFinal : Bool)
  /-- `i.consume()` -/
  | consume (i : Nat)

/-- An answer: the object that gave it, the answer, and the text left unread in the data source that it
reads. -/
structure Answer where
  who : Nat
  res : Res
  rest : List Ch

/-- How a program ends: undefined behaviour, or with the first answer other than `PARTIAL`, if there
is one, and with these objects and memory. -/
abbrev CopyEnd := Except Err (Option Answer × (Nat → CopyObj) × Mem)

/-- The program `ops` with the objects `θ` and the memory `m`. What is done after an answer is left out.
There is no rule for the use of objects that are not there: C++ does not have it. -/
inductive Copies (env : Env) (p : Pat) (dst : Ref) (k : Nat) :
    (Nat → CopyObj) → Mem → List CopyOp → CopyEnd → Prop
  | nil {θ m} : Copies env p dst k θ m [] (.ok (none, θ, m))
  | copy {θ m i j st src r ops v} : p.copyable = true → θ i = .live st src r → θ j = .absent →
      Copies env p dst k (setCopy θ j (.live (st.copyAt k m.objs.length) src.copy r)) (m.copyFrom k)
        ops v →
      Copies env p dst k θ m (.copy i j :: ops) v
  | destroy {θ m i st src r ops v} : θ i = .live st src r →
      Copies env p dst k (setCopy θ i .gone) m ops v → Copies env p dst k θ m (.destroy i :: ops) v
  | addBad {θ m i st src r b f ops} : θ i = .live st src r → src.add b f = none →
      Copies env p dst k θ m (.add i b f :: ops) (.error .ubData)
  | add {θ m i st src r b f ops src1 v} : θ i = .live st src r → src.add b f = some src1 →
      Copies env p dst k (setCopy θ i (.live st src1 r)) m ops v →
      Copies env p dst k θ m (.add i b f :: ops) v
  /-- make_parser.h:31 with a reference to an object that is gone -/
  | dangling {θ m i st src r ops} : θ i = .live st src r → θ r = .gone →
      Copies env p dst k θ m (.consume i :: ops) (.error .ubDangling)
  /-- make_parser.h:31 -/
  | error {θ m i st src r st0 ds r0 ops e} : θ i = .live st src r → θ r = .live st0 (.own ds) r0 →
      Evals env (topParser p) dst dst st ⟨ds, m⟩ (.error e) →
      Copies env p dst k θ m (.consume i :: ops) (.error e)
  | answer {θ m i st src r st0 ds r0 ops a st1 ds1 m1 rest} : θ i = .live st src r →
      θ r = .live st0 (.own ds) r0 →
      Evals env (topParser p) dst dst st ⟨ds, m⟩ (.ok ((a, st1), ⟨ds1, m1⟩)) → a ≠ .PARTIAL →
      Reads ds1 rest →
      Copies env p dst k θ m (.consume i :: ops) (.ok (some ⟨i, a, rest⟩, θ, m1))
  | more {θ m i st src r st0 ds r0 ops st1 ds1 m1 v} : θ i = .live st src r →
      θ r = .live st0 (.own ds) r0 →
      Evals env (topParser p) dst dst st ⟨ds, m⟩ (.ok ((.PARTIAL, st1), ⟨ds1, m1⟩)) →
      Copies env p dst k
        (if i = r then setCopy θ i (.live st1 (.own ds1) r)
         else setCopy (setCopy θ i (.live st1 src r)) r (.live st0 (.own ds1) r0)) m1 ops v →
      Copies env p dst k θ m (.consume i :: ops) v

/-- A program that makes parser object 0 (make_parser.h:43-51) and goes on with `ops`. -/
inductive CopyProgram (env : Env) (p : Pat) (dst : Ref) (m : Mem) (ops : List CopyOp) : CopyEnd → Prop
  | construct {e} :
      construct (topParser p) dst dst (⟨ContainerSeq.make, m⟩ : World ContainerSeq Mem)
        = .error e →
      CopyProgram env p dst m ops (.error e)
  | run {st ds m1 v} :
      construct (topParser p) dst dst (⟨ContainerSeq.make, m⟩ : World ContainerSeq Mem)
        = .ok (st, ⟨ds, m1⟩) →
      Copies env p dst m.objs.length
        (fun i => if i = 0 then .live st (.own ds) 0 else .absent) m1 ops v →
      CopyProgram env p dst m ops v

end Abu
