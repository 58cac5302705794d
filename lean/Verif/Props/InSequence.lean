import Verif.Proofs.InSequence
import Verif.Model.Guide
/-
C69: what may stand in a sequence.
-/
namespace Abu

/-! ### C69 -/

/-- C69, with the exceptions: the well-formed patterns compile which have no sequence with a child
whose value is that of a lexeme, or of a `bind_dst` around a pattern without value. All others do
not compile. -/
theorem C69_patterns_that_compile_partial (p : Pat) :
    (p.accepted DefaultReqs = true ∧ p.sequencesCompile = true) ↔
      p.WellFormed ∧ ∀ ps q r, Occurs (.seq ps) p → q ∈ ps → Heeds r q → ¬ Awkward r := by
  rw [sequencesCompile_iff, accepted_iff]
  simp only [Met, DefaultReqs, Bool.false_eq_true, false_implies, and_true]
  rfl

/-- C69, for a part of a sequence: what compiles alone compiles next to others that do, with the
same exceptions. -/
theorem C69_parts_of_sequences_partial (ps : List Pat) (hne : ps ≠ [])
    (hp : ∀ q ∈ ps, q.accepted DefaultReqs = true ∧ q.sequencesCompile = true)
    (ha : ∀ q ∈ ps, ∀ r, Heeds r q → ¬ Awkward r) :
    (Pat.seq ps).accepted DefaultReqs = true ∧ (Pat.seq ps).sequencesCompile = true := by
  constructor
  · rw [accepted_iff]
    refine ⟨⟨hne, ?_⟩, fun h => by cases h⟩
    have : ∀ qs : List Pat, (∀ q ∈ qs, q.accepted DefaultReqs = true) → Pat.AllWellFormed qs := by
      intro qs h
      induction qs with
      | nil => trivial
      | cons q qs ih =>
        exact ⟨((accepted_iff q).mp (h q (by simp))).1, ih fun q' h' => h q' (by simp [h'])⟩
    exact this ps fun q hq => (hp q hq).1
  · rw [Pat.sequencesCompile, Bool.and_eq_true, allSequencesCompile_iff, List.all_eq_true]
    exact ⟨fun q hq => (sequencesCompile_iff q).mp (hp q hq).2,
      fun q hq => (behaviorCompiles_iff q).mpr (ha q hq)⟩

/-- C69 is false: the example of docs/guide/03_skippers.md:41-51 does not compile, though its parts
do. -/
theorem C69_refuted :
    guidePlayer.WellFormed ∧ guidePlayer.sequencesCompile = false ∧
      guideName.sequencesCompile = true := by
  refine ⟨?_, rfl, rfl⟩
  exact ((accepted_iff (r := DefaultReqs) guidePlayer).mp rfl).1

/-- C69: nor does the binding of a pattern without a value, `bind_dst("a") >> char_`, though
`bind_dst("a")` does. -/
theorem C69_refuted_bind_dst :
    (Pat.seq [.bindDst (.strLit [97]), .char .any]).WellFormed ∧
      (Pat.seq [.bindDst (.strLit [97]), .char .any]).sequencesCompile = false ∧
      (Pat.bindDst (.strLit [97])).sequencesCompile = true :=
  ⟨⟨by simp, trivial, trivial, trivial⟩, rfl, rfl⟩

/-- A lexeme inside a list, an alternative or an action does no harm, and neither does a list of
lexemes on its own. -/
example : (Pat.seq [.alt [guideName, int_], .discard (.list guideName (charP 44))]).accepted DefaultReqs = true ∧
    (Pat.seq [.alt [guideName, int_], .discard (.list guideName (charP 44))]).sequencesCompile = true :=
  C69_parts_of_sequences_partial _ (by simp)
    (by
      intro q hq
      simp only [List.mem_cons, List.not_mem_nil, or_false] at hq
      rcases hq with rfl | rfl <;> exact ⟨rfl, rfl⟩)
    (by
      intro q hq r hr ha
      simp only [List.mem_cons, List.not_mem_nil, or_false] at hq
      rcases hq with rfl | rfl <;> cases hr <;> cases ha)
/-- The exception reaches through lists. -/
example : (Pat.seq [.list guideName (charP 44), int_]).sequencesCompile = false := rfl

end Abu
