import Verif.Spec.Plain
import Verif.Spec.Tidy
/-
Plain patterns are tidy everywhere.
-/
namespace Abu

mutual
theorem Pat.plain_tidy : ∀ (p : Pat), p.plain = true → ∀ c ls lf,
    p.tidy false .none .none c ls lf = true
  | .char _, _ => by intros; simp [Pat.tidy]
  | .charSymbol _, h => by simp [Pat.plain] at h
  | .strLit _, _ => by intros; simp [Pat.tidy]
  | .symbol _, _ => by intros; simp [Pat.tidy]
  | .int _ _ _, h => by
      intro c ls lf
      simp only [Pat.plain, Bool.and_eq_true] at h
      simp [Pat.tidy, h.1, h.2]
  | .uint _ _ _, h => by
      intro c ls lf
      simpa only [Pat.tidy, Pat.plain] using h
  | .eoi, _ => by intros; simp [Pat.tidy]
  | .pass, _ => by intros; simp [Pat.tidy]
  | .fail, _ => by intros; simp [Pat.tidy]
  | .seq ps, h => by
      intro c ls lf
      simp only [Pat.plain, Bool.and_eq_true] at h
      simp only [Pat.tidy, Bool.and_eq_true]
      exact ⟨h.1, Pat.plain_tidySeq ps h.2 _ _⟩
  | .alt ps, h => by
      intro c ls lf
      simp only [Pat.plain, Bool.and_eq_true] at h
      simp only [Pat.tidy, Bool.and_eq_true]
      exact ⟨h.1, Pat.plain_tidyAlt ps h.2 _ _⟩
  | .rep _ _ p, h => by intro c ls lf; exact p.plain_tidy h _ _ _
  | .opt _, h => by simp [Pat.plain] at h
  | .not p, h => by intro c ls lf; exact p.plain_tidy h _ _ _
  | .discard p, h => by intro c ls lf; exact p.plain_tidy h _ _ _
  | .lexeme p, h => by
      intro c ls lf
      simp only [Pat.tidy, Bool.and_eq_true, Bool.not_false, Bool.true_or, true_and]
      exact p.plain_tidy h _ _ _
  | .bindDst p, h => by intro c ls lf; exact p.plain_tidy h _ _ _
  | .construct _ p, h => by intro c ls lf; exact p.plain_tidy h _ _ _
  | .action _ p, h => by intro c ls lf; exact p.plain_tidy h _ _ _
  | .except op neg, h => by
      intro c ls lf
      simp only [Pat.plain, Bool.and_eq_true] at h
      simp only [Pat.tidy, Bool.and_eq_true]
      exact ⟨op.plain_tidy h.1 _ _ _, neg.plain_tidy h.2 _ _ _⟩
  | .list op sep, h => by
      intro c ls lf
      simp only [Pat.plain, Bool.and_eq_true] at h
      simp only [Pat.tidy, Bool.and_eq_true]
      exact ⟨op.plain_tidy h.1 _ _ _, sep.plain_tidy h.2 _ _ _⟩
  | .withSkipper _ _, h => by simp [Pat.plain] at h
  | .recur _ _, _ => by intros; simp [Pat.tidy, Stale.le]
theorem Pat.plain_tidySeq : ∀ (ps : List Pat), Pat.plainAll ps = true → ∀ ls lf,
    Pat.tidySeq false .none .none ls lf ps = true
  | [], _ => by intros; simp [Pat.tidySeq]
  | p :: ps, h => by
      intro ls lf
      simp only [Pat.plainAll, Bool.and_eq_true] at h
      simp only [Pat.tidySeq, Bool.and_eq_true]
      exact ⟨p.plain_tidy h.1 _ _ _, Pat.plain_tidySeq ps h.2 _ _⟩
theorem Pat.plain_tidyAlt : ∀ (ps : List Pat), Pat.plainAll ps = true → ∀ ls lf,
    Pat.tidyAlt false .none .none ls lf ps = true
  | [], _ => by intros; simp [Pat.tidyAlt]
  | p :: ps, h => by
      intro ls lf
      simp only [Pat.plainAll, Bool.and_eq_true] at h
      simp only [Pat.tidyAlt, Bool.and_eq_true]
      exact ⟨p.plain_tidy h.1 _ _ _, Pat.plain_tidyAlt ps h.2 _ _⟩
end

theorem Env.plain.tidy {env : Env} (h : env.plain) : env.tidy false .none .none :=
  fun id q hq => q.plain_tidy (h id q hq) _ _ _

end Abu
