import Verif.Model.Guide
import Verif.Proofs.Session
/-
The loop of the user guide that reads a file, as a list of operations.
-/
namespace Abu

/-- What the loop does in at most `n` more rounds. -/
def loopOps (k : Nat) : Nat → List Ch → List SOp
  | 0, _ => []
  | n + 1, t =>
    if k ≤ t.length then .add (t.take k) false :: .consume :: loopOps k n (t.drop k)
    else [.add t true, .consume]

theorem loopOps_complete {k : Nat} (hk : 0 < k) : ∀ n t, t.length < n → Complete (loopOps k n t) := by
  intro n
  induction n with
  | zero => exact fun t h => absurd h (Nat.not_lt_zero _)
  | succ n ih =>
    intro t h
    unfold loopOps
    split
    · exact ih _ (by simp only [List.length_drop]; omega)
    · exact ⟨trivial, rfl⟩

theorem loopOps_text {k : Nat} (hk : 0 < k) : ∀ n t, t.length < n → opsText (loopOps k n t) = t := by
  intro n
  induction n with
  | zero => exact fun t h => absurd h (Nat.not_lt_zero _)
  | succ n ih =>
    intro t h
    unfold loopOps
    split
    · simp only [opsText]
      rw [ih _ (by simp only [List.length_drop]; omega), List.take_append_drop]
    · simp [opsText]

section
variable {k : Nat} {env : Env} {p : Prog} {dst : Ref}

theorem ReadLoop.session (hk : 0 < k) : ∀ n {st w t v}, t.length < n → ReadLoop k env p dst st w t v →
    Session ContainerSeq.addBuffer env p dst st w (loopOps k n t) v ∨
    ∃ m', Session ContainerSeq.addBuffer env p dst st w (loopOps k n t) (.ok (.PARTIAL, m', [])) := by
  intro n
  induction n with
  | zero => exact fun h => absurd h (Nat.not_lt_zero _)
  | succ n ih =>
    intro st w t v hl h
    have hlen : (t.drop k).length < n ∨ t.length < k := by
      simp only [List.length_drop]
      omega
    unfold loopOps
    by_cases hkt : k ≤ t.length
    · rw [if_pos hkt]
      have hlen : (t.drop k).length < n := hlen.resolve_right (by omega)
      cases h with
      | addBad h => rw [decide_eq_true hkt] at h; exact .inl (.addBad h)
      | error h h' => rw [decide_eq_true hkt] at h; exact .inl (.add h (.error h'))
      | verdict h h' hr hd =>
        rw [decide_eq_true hkt] at h
        refine .inl (.add h ?_)
        rw [← loopOps_text hk n _ hlen]
        have := Session.verdict (add := ContainerSeq.addBuffer) (ops := loopOps k n (t.drop k)) h' hr hd
        rwa [loopOps_text hk n _ hlen] at this ⊢
      | more h h' h'' =>
        rw [decide_eq_true hkt] at h
        rcases ih hlen h'' with h3 | ⟨m', h3⟩
        · exact .inl (.add h (.more h' h3))
        · exact .inr ⟨m', .add h (.more h' h3)⟩
    · rw [if_neg hkt]
      have ht : t.take k = t := List.take_of_length_le (by omega)
      have hd0 : t.drop k = [] := List.drop_eq_nil_iff.2 (by omega)
      cases h with
      | addBad h => rw [decide_eq_false hkt, ht] at h; exact .inl (.addBad h)
      | error h h' => rw [decide_eq_false hkt, ht] at h; exact .inl (.add h (.error h'))
      | verdict h h' hr hd =>
        rw [decide_eq_false hkt, ht] at h
        rw [hd0]
        exact .inl (.add h (Session.verdict (ops := []) h' hr hd))
      | more h h' h'' =>
        rw [decide_eq_false hkt, ht] at h
        exact .inr ⟨_, .add h (.more h' (.nil (.done h'.not_partial.1)))⟩

theorem Session.readLoop (hk : 0 < k) : ∀ n {st w t v}, t.length < n →
    Session ContainerSeq.addBuffer env p dst st w (loopOps k n t) v →
    (∀ m' rest, v ≠ .ok (.PARTIAL, m', rest)) → ReadLoop k env p dst st w t v := by
  intro n
  induction n with
  | zero => exact fun h => absurd h (Nat.not_lt_zero _)
  | succ n ih =>
    intro st w t v hl h hv
    unfold loopOps at h
    by_cases hkt : k ≤ t.length
    · rw [if_pos hkt] at h
      have hlen : (t.drop k).length < n := by simp only [List.length_drop]; omega
      cases h with
      | addBad h => exact .addBad (by rw [decide_eq_true hkt]; exact h)
      | @add _ _ _ _ _ ds _ h h' =>
        have h : ContainerSeq.addBuffer w.ds (t.take k) (!decide (k ≤ t.length)) = some ds := by
          rw [decide_eq_true hkt]; exact h
        cases h' with
        | error h' => exact .error h h'
        | verdict h' hr hd =>
          rw [loopOps_text hk n _ hlen]
          exact .verdict h h' hr hd
        | more h' h'' => exact .more h h' (ih hlen h'' hv)
    · rw [if_neg hkt] at h
      have ht : t.take k = t := List.take_of_length_le (by omega)
      have hd0 : t.drop k = [] := List.drop_eq_nil_iff.2 (by omega)
      cases h with
      | addBad h => exact .addBad (by rw [decide_eq_false hkt, ht]; exact h)
      | @add _ _ _ _ _ ds _ h h' =>
        have h : ContainerSeq.addBuffer w.ds (t.take k) (!decide (k ≤ t.length)) = some ds := by
          rw [decide_eq_false hkt, ht]; exact h
        cases h' with
        | error h' => exact .error h h'
        | verdict h' hr hd =>
          have := ReadLoop.verdict h h' hr hd
          rwa [hd0] at this
        | more h' h'' =>
          cases h'' with
          | nil => exact absurd rfl (hv _ _)

end
end Abu
