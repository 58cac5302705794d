import Verif.Proofs.WellFormed
import Verif.Props.Skipper
/-
C53: what the compile-time checks let through.
-/
namespace Abu

/-! ### C53 -/

/-- C53: as a pattern of its own (and as the operand of a `Recur`), exactly the well-formed patterns
compile. -/
theorem C53_patterns_that_compile (p : Pat) :
    (p.accepted DefaultReqs = true ↔ p.WellFormed) ∧ (p.accepted RecurChildReqs = true ↔ p.WellFormed) := by
  rw [accepted_iff, accepted_iff]
  simp [Met, DefaultReqs, RecurChildReqs]

/-- C53: as a skipper, exactly those compile which moreover look as if they consumed. -/
theorem C53_skippers_that_compile (s : Pat) :
    s.accepted SkipReqs = true ↔ s.WellFormed ∧ s.looksHungry = true := by
  rw [accepted_iff]
  simp [Met, SkipReqs]

/-- C53: no skipper that consumes whenever it matches is rejected. (`consumes`: the `Recur` objects
that do.) -/
theorem C53_no_good_skipper_is_rejected (consumes : Nat → Bool) (p s : Pat) (hp : p.WellFormed)
    (hs : s.WellFormed) (he : s.eats consumes = true) :
    (Pat.withSkipper p s).accepted DefaultReqs = true := by
  rw [accepted_iff]
  exact ⟨⟨hp, hs, hungry_of_eats consumes s he⟩, fun h => by cases h⟩

example : commentSkipper.WellFormed ∧ commentSkipper.eats (fun _ => false) = true :=
  ⟨by simp [commentSkipper, Pat.WellFormed, Pat.AllWellFormed], rfl⟩
example : (Pat.seq [int_, .rep 0 0 .pass]).WellFormed := by
  simp [int_, Pat.WellFormed, Pat.AllWellFormed, GoodNumber]
/-- `Int<36>`, `UInt<10, 3, 2>`, and `*pass` as a skipper, do not compile. -/
example : (Pat.int 36 1 0).accepted DefaultReqs = false ∧ (Pat.uint 10 3 2).accepted DefaultReqs = false ∧
    (Pat.withSkipper int_ (.rep 0 0 .pass)).accepted DefaultReqs = false := ⟨rfl, rfl, rfl⟩

end Abu
