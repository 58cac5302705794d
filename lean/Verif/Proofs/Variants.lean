import Verif.Spec.Variants
/-
`variant_cat`, for C83.
-/
namespace Abu

mutual
theorem CxxTy.same_iff : ∀ t u : CxxTy, t.same u = true ↔ t = u
  | .other a, .other b => by simp [CxxTy.same]
  | .variant ts, .variant us => by rw [CxxTy.same, CxxTy.sames_iff ts us, CxxTy.variant.injEq]
  | .other _, .variant _ => by simp [CxxTy.same]
  | .variant _, .other _ => by simp [CxxTy.same]
theorem CxxTy.sames_iff : ∀ ts us : List CxxTy, CxxTy.sames ts us = true ↔ ts = us
  | [], [] => by simp [CxxTy.sames]
  | t :: ts, u :: us => by
    rw [CxxTy.sames, Bool.and_eq_true, CxxTy.same_iff t u, CxxTy.sames_iff ts us, List.cons.injEq]
  | [], _ :: _ => by simp [CxxTy.sames]
  | _ :: _, [] => by simp [CxxTy.sames]
end

theorem isOneOf_iff (t : CxxTy) (us : List CxxTy) : isOneOf t us = true ↔ t ∈ us := by
  induction us with
  | nil => simp [isOneOf]
  | cons u us ih =>
    rw [isOneOf, List.mem_cons]
    split
    next h => simp [(CxxTy.same_iff t u).1 h]
    next h =>
      have : t ≠ u := fun he => h ((CxxTy.same_iff t u).2 he)
      simp [ih, this]

/-- What `variant_cat` does, unless both are variants. -/
theorem variantCat_spec (l r : CxxTy) (h : isVariant l = false ∨ isVariant r = false) :
    ∃ c, variantCat l r = some c ∧ l.holds.Sublist c.holds ∧ r.holds.Sublist c.holds ∧
      (∀ t, t ∈ c.holds → t ∈ l.holds ∨ t ∈ r.holds) ∧
      (l.holds.Nodup → r.holds.Nodup → c.holds.Nodup) := by
  have key := isOneOf_iff
  cases l with
  | other a =>
    cases r with
    | other b =>
      refine ⟨_, rfl, ?_⟩
      have := CxxTy.same_iff (.other a) (.other b)
      split
      next hs => rw [← this.1 hs]; simp [CxxTy.holds]
      next hs =>
        have hn : CxxTy.other a ≠ .other b := fun h => hs (this.2 h)
        simp_all [CxxTy.holds]
    | variant rs =>
      refine ⟨_, rfl, ?_⟩
      split
      next hs => simp_all [CxxTy.holds]
      next hs => simp_all [CxxTy.holds]
  | variant ls =>
    cases r with
    | variant rs => simp [isVariant] at h
    | other b =>
      refine ⟨_, rfl, ?_⟩
      split
      next hs => simp_all [CxxTy.holds]
      next hs =>
        rw [key] at hs
        refine ⟨List.sublist_append_left _ _, List.sublist_append_right _ _, ?_, ?_⟩
        · intro t ht
          simpa [CxxTy.holds] using ht
        · intro h1 _
          simp only [CxxTy.holds] at h1 ⊢
          rw [List.nodup_append]
          refine ⟨h1, by simp, ?_⟩
          rintro a ha b hb rfl
          simp only [List.mem_singleton] at hb
          exact hs (hb ▸ ha)

end Abu
