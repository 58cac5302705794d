import Verif.Spec.Memory
/-
Patterns that produce a value in terms of `dst_behavior()`.
-/
namespace Abu

theorem dstBehavior_eq : ∀ p : Pat, p.dstBehavior = if p.valued then .VALUE else .IGNORE
  | .char _ | .charSymbol _ | .symbol _ | .int .. | .uint .. | .seq _ | .alt _ | .construct .. => rfl
  | .strLit _ | .eoi | .pass | .fail | .not _ | .discard _ => rfl
  | .action a _ => by cases h : a.void <;> simp [Pat.dstBehavior, Pat.valued, h]
  | .recur _ n => by cases n <;> rfl
  | .rep _ _ p | .opt p | .lexeme p | .bindDst p | .except p _ | .list p _ | .withSkipper p _ => by
    rw [Pat.dstBehavior, Pat.valued, dstBehavior_eq p]

theorem valued_of_value {p : Pat} (h : p.dstBehavior = .VALUE) : p.valued = true := by
  rw [dstBehavior_eq] at h
  cases hv : p.valued
  · rw [hv] at h; cases h
  · rfl

theorem valued_of_ignore {p : Pat} (h : p.dstBehavior = .IGNORE) : p.valued = false := by
  rw [dstBehavior_eq] at h
  cases hv : p.valued
  · rfl
  · rw [hv] at h; cases h

theorem value_of_valued {p : Pat} (h : p.valued = true) : p.dstBehavior = .VALUE := by
  rw [dstBehavior_eq, h]; rfl

theorem ignore_of_valued {p : Pat} (h : p.valued = false) : p.dstBehavior = .IGNORE := by
  rw [dstBehavior_eq, h]; rfl

end Abu
