import Verif.Proofs.Variants
/-
C83: `variant_cat`.
-/
namespace Abu

/-- C83: `is_one_of<T, ARGS...>` says whether `T` is among `ARGS`. -/
theorem C83_is_one_of (t : CxxTy) (us : List CxxTy) : isOneOf t us = true ↔ t ∈ us :=
  isOneOf_iff t us

/-- C83 (partial: not both variants): the result holds exactly what the operands hold, in their order. -/
theorem C83_holds_both_partial (l r : CxxTy) (h : isVariant l = false ∨ isVariant r = false) :
    ∃ c, variantCat l r = some c ∧ (∀ t, t ∈ c.holds ↔ t ∈ l.holds ∨ t ∈ r.holds) ∧
      l.holds.Sublist c.holds ∧ r.holds.Sublist c.holds := by
  obtain ⟨c, hc, h1, h2, h3, _⟩ := variantCat_spec l r h
  exact ⟨c, hc, fun t => ⟨h3 t, fun h => h.elim (h1.mem ·) (h2.mem ·)⟩, h1, h2⟩

/-- C83 (partial: not both variants): and nothing twice. -/
theorem C83_nothing_twice_partial (l r c : CxxTy) (hc : variantCat l r = some c) (hl : l.holds.Nodup)
    (hr : r.holds.Nodup) : c.holds.Nodup := by
  have h : isVariant l = false ∨ isVariant r = false := by
    cases l <;> cases r <;> simp_all [variantCat, isVariant]
  obtain ⟨c', hc', _, _, _, h4⟩ := variantCat_spec l r h
  rw [hc] at hc'
  cases hc'
  exact h4 hl hr

/-- C83 (partial: not both variants): if they have nothing in common, the types of the left operand come
first, then those of the right one. -/
theorem C83_left_first_partial (l r c : CxxTy) (hc : variantCat l r = some c)
    (h : ∀ t ∈ l.holds, t ∉ r.holds) : c.holds = l.holds ++ r.holds := by
  have key := isOneOf_iff
  have same := CxxTy.same_iff
  cases l with
  | other a =>
    cases r with
    | other b =>
      have hn : ¬ (CxxTy.other a).same (.other b) = true := by
        rw [same]
        intro he
        simp [CxxTy.holds, he] at h
      rw [variantCat, if_neg hn] at hc
      · cases hc; rfl
      all_goals nofun
    | variant rs =>
      have hn : ¬ isOneOf (.other a) rs = true := by
        rw [key]
        exact h _ (List.mem_singleton_self _)
      rw [variantCat, if_neg hn] at hc
      · cases hc; rfl
      all_goals nofun
  | variant ls =>
    cases r with
    | variant rs => cases hc
    | other b =>
      have hn : ¬ isOneOf (.other b) ls = true := by
        rw [key]
        exact fun hb => h _ hb (List.mem_singleton_self _)
      rw [variantCat, if_neg hn] at hc
      · cases hc; rfl
      all_goals nofun

/-- C83: types one after the other, none of them a variant, make the variant of all of them without
repetitions. -/
theorem C83_one_by_one (ts : List CxxTy) (hts : ∀ t ∈ ts, isVariant t = false) (t0 : CxxTy)
    (h0 : isVariant t0 = false) :
    ∃ c, ts.foldlM variantCat t0 = some c ∧ c.holds.Nodup ∧ ∀ t, t ∈ c.holds ↔ t ∈ t0 :: ts := by
  suffices H : ∀ (ts : List CxxTy), (∀ t ∈ ts, isVariant t = false) → ∀ (a : CxxTy), a.holds.Nodup →
      ∃ c, ts.foldlM variantCat a = some c ∧ c.holds.Nodup ∧ ∀ t, t ∈ c.holds ↔ t ∈ a.holds ∨ t ∈ ts by
    have h1 : t0.holds = [t0] := by cases t0 with
      | other n => rfl
      | variant _ => cases h0
    obtain ⟨c, h2, h3, h4⟩ := H ts hts t0 (by simp [h1])
    exact ⟨c, h2, h3, fun t => by rw [h4, h1]; simp⟩
  intro ts
  induction ts with
  | nil => intro _ a ha; exact ⟨a, rfl, ha, by simp⟩
  | cons u us ih =>
    intro hts a ha
    have hu : isVariant u = false := hts u (by simp)
    have hh : u.holds = [u] := by cases u with
      | other n => rfl
      | variant _ => cases hu
    obtain ⟨c, hc, h1, h2, h3, h4⟩ := variantCat_spec a u (.inr hu)
    obtain ⟨d, hd, h5, h6⟩ := ih (fun t ht => hts t (by simp [ht])) c (h4 ha (by simp [hh]))
    refine ⟨d, by rw [List.foldlM_cons, hc]; exact hd, h5, fun t => ?_⟩
    rw [h6, List.mem_cons]
    constructor
    · rintro (h | h)
      · rcases h3 t h with h | h
        · exact .inl h
        · rw [hh] at h; exact .inr (.inl (List.mem_singleton.1 h))
      · exact .inr (.inr h)
    · rintro (h | rfl | h)
      · exact .inl (h1.mem h)
      · exact .inl (h2.mem (by simp [hh]))
      · exact .inr h

/-- C83 is false as stated: two variants cannot be put together. -/
theorem C83_refuted : ¬ ∀ l r : CxxTy, ∃ c, variantCat l r = some c ∧
    ∀ t, t ∈ c.holds ↔ t ∈ l.holds ∨ t ∈ r.holds := by
  intro h
  obtain ⟨_, h, _⟩ := h (.variant [.other 0]) (.variant [.other 1])
  cases h

/-! Examples: `int` (0), `char` (1), `std::string` (2). -/

example : variantCat (.other 0) (.other 0) = some (.other 0) := rfl

example : variantCat (.other 0) (.variant [.other 1, .other 2]) = some (.variant [.other 0, .other 1, .other 2]) :=
  rfl

example : variantCat (.variant [.other 1, .other 2]) (.other 1) = some (.variant [.other 1, .other 2]) := rfl

example : [CxxTy.other 1, .other 0, .other 2].foldlM variantCat (.other 0) =
    some (.variant [.other 0, .other 1, .other 2]) := rfl

example : isVariant (.other 0) = false ∨ isVariant (.variant [.other 1]) = false := .inl rfl

example : ∀ t ∈ (CxxTy.other 0).holds, t ∉ (CxxTy.variant [.other 1, .other 2]).holds := by
  simp [CxxTy.holds]

end Abu
