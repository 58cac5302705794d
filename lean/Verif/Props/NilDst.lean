import Verif.Proofs.NilDst
import Verif.Props.Bound
import Verif.Proofs.Answers
/-
C48: `nil` as destination.
-/
namespace Abu

/-! ### C48 -/

/-- C48, for patterns without `as<...>()` whose actions take no value: `nil` is accepted. No parse
with it overflows, reads something uninitialised, writes through a dangling reference or fails to
compile, however the text arrives. -/
theorem C48_nil_is_accepted_partial (env : Env) (p : Pat) (m : Mem) (A : Bool)
    (G : Nat → Bool) (he : env.forNil A G) (hp : p.forNil A G = true) (e : Err) :
    (∀ t, Parses env p .nil m t (.error e) → ¬ e.ofDestination) ∧
      ∀ ops, MakeParserRun env p .nil m ops (.error e) → ¬ e.ofDestination := by
  have key : NilVerdict A (m.seen A) (.error e) → ¬ e.ofDestination := by
    rintro (h | _)
    cases e <;> simp_all [Err.ofMem, Err.ofDestination]
  exact ⟨fun t h => key (h.forNil he hp), fun ops h => key (h.forNil he hp)⟩

/-- C48, for these patterns: nothing is generated. The objects are those there were, not even a
temporary one was added; and the list of action calls is the same if there are no actions (`A = false`). -/
theorem C48_nothing_is_generated_partial (env : Env) (p : Pat) (m m' : Mem)
    (A : Bool) (G : Nat → Bool) (he : env.forNil A G) (hp : p.forNil A G = true) (r : Res) (rest : List Ch) :
    (∀ t, Parses env p .nil m t (.ok (r, m', rest)) → m'.objs = m.objs ∧ (A = false → m' = m)) ∧
      ∀ ops, MakeParserRun env p .nil m ops (.ok (r, m', rest)) →
        m'.objs = m.objs ∧ (A = false → m' = m) := by
  have key : NilVerdict A (m.seen A) (.ok (r, m', rest)) → m'.objs = m.objs ∧ (A = false → m' = m) := by
    rintro (_ | h)
    exact Mem.seen_eq h
  exact ⟨fun t h => key (h.forNil he hp), fun ops h => key (h.forNil he hp)⟩

/-- C48, for these patterns: with `nil` the answer is the one any other destination gets. -/
theorem C48_same_answer_partial (env : Env) (p : Pat) (dst : Ref) (m m' m0 : Mem) (t rest : List Ch)
    (r : Res) (A : Bool) (G : Nat → Bool) (he : env.forNil A G) (hp : p.forNil A G = true)
    (h : Parses env p dst m t (.ok (r, m', rest))) :
    ∃ m1, Answers env p .nil m0 t (.ok (r, m1, rest)) ∧ m1.objs = m0.objs := by
  obtain ⟨m1, h1⟩ := h.nil_of he hp m0
  exact ⟨m1, .of_parses h1, (C48_nothing_is_generated_partial env p m0 m1 A G he hp r rest).1 t h1 |>.1⟩

/-- C48, for all patterns and actions: with `nil`, no object there was is written. -/
theorem C48_writes_nothing (env : Env) (p : Pat) (m m' : Mem) (r : Res) (rest : List Ch) :
    (∀ t, Parses env p .nil m t (.ok (r, m', rest)) → m.Extends m') ∧
      ∀ ops, MakeParserRun env p .nil m ops (.ok (r, m', rest)) → m.Extends m' := by
  refine ⟨fun t h o v hv => ?_, fun ops h o v hv => ?_⟩
  · rw [← look_nil] at hv ⊢
    exact C45_parse env p .nil m m' t rest r h o [] v trivial hv
  · rw [← look_nil] at hv ⊢
    exact C45_parser_object env p .nil m m' ops rest r h o [] v trivial hv

/-- C48 is false in general: `(uint_ >> ',' >> uint_).as<unsigned, unsigned>()` does not compile
with `nil`, which has no constructor with two arguments (support/nil.h:23-26). -/
theorem C48_refuted : Parses (fun _ => none)
    (.construct [.unsigned, .unsigned] (.seq [uint_, litC 44, uint_])) .nil ⟨[], []⟩ [49, 44, 50]
    (.error .noCompile) := parses_of_parseN (n := 12) rfl

/-- `*(int_[count] >> ',' >> bind_dst('a' | uint_))`, with an action that takes no value and
returns one. -/
def exNil : Pat := .rep 0 0 (.seq [.action ⟨1, .nil, false, false, fun l _ _ => (.num l.length, .nil)⟩ int_,
  litC 44, .bindDst (.alt [litC 97, uint_])])
example : exNil.forNil true (fun _ => false) = true := rfl
/-- A `Recur` that stands for something else does not matter when it is not used. -/
example : Env.forNil (fun id => if id = 0 then some int_ else some (.construct [.int] int_)) false
      (fun id => id == 0) ∧
    (Pat.list (.recur 0 false) (litC 44)).forNil false (fun id => id == 0) = true := by
  refine ⟨fun id q h1 h2 => ?_, rfl⟩
  have h1 : id = 0 := by simpa using h1
  subst h1
  cases h2
  rfl
example : Env.forNil (fun _ => none) true (fun _ => false) := by intro _ _ h _; cases h
/-- On "2147483648" an `int` destination overflows, `nil` does not. -/
example : Parses (fun _ => none) int_ (.at 0 [] .int) ⟨[.num 7], []⟩
      [50, 49, 52, 55, 52, 56, 51, 54, 52, 56] (.error .ubOverflow) ∧
    Parses (fun _ => none) int_ .nil ⟨[.num 7], []⟩
      [50, 49, 52, 55, 52, 56, 51, 54, 52, 56] (.ok (.SUCCESS, ⟨[.num 7], []⟩, [])) :=
  ⟨parses_of_parseN (n := 20) rfl, parses_of_parseN (n := 20) rfl⟩
/-- On "1,2-4,a": two items, and a third one that fails at the end of the text. -/
example : Parses (fun _ => none) exNil .nil ⟨[.num 7], []⟩ [49, 44, 50, 45, 52, 44, 97] (.ok (.SUCCESS,
    ⟨[.num 7], [⟨1, .nil⟩, ⟨1, .nil⟩]⟩, [])) :=
  parses_of_parseN (n := 30) rfl
/-- With a vector of tuples, on "1,2". -/
example : Parses (fun _ => none) exNil (.at 0 [] (.coll (.tup [.num .ideal, .unsigned])))
      ⟨[.coll []], []⟩ [49, 44, 50] (.ok (.SUCCESS,
        ⟨[.coll [.tup [.num 0, .num 2]], .tup [.num 0, .num 2], .tup [.num 0, .num 0]],
          [⟨1, .nil⟩]⟩, [])) :=
  parses_of_parseN (n := 30) rfl

end Abu
