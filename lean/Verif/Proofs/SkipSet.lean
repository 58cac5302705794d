import Verif.Proofs.EndsMore
import Verif.Proofs.Skipping
import Verif.Spec.SkipSet
/-
Skippers that match one character of a set.
-/
namespace Abu

/-- A parser that takes one character of a set, or nothing, and can be constructed anywhere. -/
structure Eater where
  set : CharSet
  K : Prog
  sc : PState
  notFail : K.isFail = false
  quiet : K.quiet = true
  stateless : Stateless K sc
  eats : ∀ env T i c m, T[i]? = some c → set.isValid c = true →
    Runs env K .nil .nil sc T i [] m .SUCCESS (i + 1) [] m
  stops : ∀ env T i m, (∀ c, T[i]? = some c → set.isValid c = false) →
    Runs env K .nil .nil sc T i [] m .FAILURE i [] m

theorem Stateless.runs {env : Env} {K : Prog} {sc : PState} (hK : Stateless K sc) {t : List Ch} {i : Nat} {m m' : Mem}
    {r i'} (h : Ends env K .nil .nil t i i m r i' m') : Runs env K .nil .nil sc t i [] m r i' [] m' := by
  obtain ⟨st, m1, hb, hr⟩ := h
  have h1 := hb (fun _ _ _ _ _ => .error .stuck) []
  have h2 := hK.built t i m (fun _ _ _ _ _ => .error .stuck) []
  rw [h1] at h2
  simp only [Except.ok.injEq, Prod.mk.injEq, cw, World.mk.injEq] at h2
  obtain ⟨rfl, _, rfl⟩ := h2
  rw [hK.marks] at hr
  exact hr

/-- The requirements for which nothing is added around such patterns. -/
def plainReq (c cs : Bool) : Req := ⟨false, c, cs, false⟩

/-- What is known about the parser of such a pattern. -/
structure Eating (p : Pat) (c cs : Bool) : Prop where
  built : ∃ sc, Stateless (elabP .fail (plainReq c cs) p) sc
  yes : ∀ env T j i d m, T[i]? = some d → p.takes d = true →
    Ends env (elabP .fail (plainReq c cs) p) .nil .nil T j i m .SUCCESS (i + 1) m
  no : ∀ env T j i m, (∀ d, T[i]? = some d → p.takes d = false) →
    Ends env (elabP .fail (plainReq c cs) p) .nil .nil T j i m .FAILURE i m

mutual
theorem eating : ∀ (p : Pat) (c cs : Bool), p.charLike = true → Eating p c cs
  | .char S, c, cs, _ => by
    have e : elabP .fail (plainReq c cs) (.char S) = .char S := rfl
    refine ⟨⟨.unit, ?_⟩, fun env T j i d m h1 h2 => ?_, fun env T j i m h => ?_⟩
    · rw [e]; exact ⟨rfl, fun _ _ _ _ _ => rfl⟩
    · rw [e]; exact Ends.char h1 h2 rfl
    · rw [e]; exact Ends.char_fail h
  | .alt [], _, _, h => by cases h
  | .alt (p :: ps), c, cs, h => by
    have e : elabP .fail (plainReq c cs) (.alt (p :: ps)) =
        .alt (elabP .fail (plainReq true cs) p :: elabPs .fail (plainReq true cs) ps) := by
      cases c <;> rfl
    rw [Pat.charLike, Bool.and_eq_true, Pat.charLikes, Bool.and_eq_true] at h
    obtain ⟨_, h1, h2⟩ := h
    obtain ⟨⟨sc, hb⟩, hy, hn⟩ := eating p true cs h1
    refine ⟨⟨.alt 0 sc, ?_⟩, fun env T j i d m hd ht => ?_, fun env T j i m hf => ?_⟩
    · rw [e]
      refine ⟨hb.marks, fun t i m call S => ?_⟩
      rw [mk, (hb.built t i m).bind]
      rfl
    · rw [e]
      exact (eatings (p :: ps) cs (by simp) (by rw [Pat.charLikes, h1, h2]; rfl)).1 env T j i d m hd ht |>.ends
    · rw [e]
      exact (eatings (p :: ps) cs (by simp) (by rw [Pat.charLikes, h1, h2]; rfl)).2 env T j i m hf |>.ends
  | .discard p, c, cs, h => by
    have e : elabP .fail (plainReq c cs) (.discard p) = .discard (elabP .fail (plainReq c cs) p) := by
      cases c <;> rfl
    obtain ⟨⟨sc, hb⟩, hy, hn⟩ := eating p c cs h
    refine ⟨⟨.wrap sc, ?_⟩, fun env T j i d m hd ht => ?_, fun env T j i m hf => ?_⟩
    · rw [e]; exact ⟨hb.marks, fun t i m => (hb.built t i m).discard⟩
    · rw [e]; exact (hy env T j i d m hd ht).discard
    · rw [e]; exact (hn env T j i m hf).discard
  | .lexeme p, c, cs, h => by
    have e : elabP .fail (plainReq c cs) (.lexeme p) = .lexeme (elabP .fail (plainReq c cs) p) := by
      cases c <;> rfl
    obtain ⟨⟨sc, hb⟩, hy, hn⟩ := eating p c cs h
    refine ⟨⟨.wrap sc, ?_⟩, fun env T j i d m hd ht => ?_, fun env T j i m hf => ?_⟩
    · rw [e]; exact ⟨hb.marks, fun t i m => (hb.built t i m).lexeme⟩
    · rw [e]; exact (hy env T j i d m hd ht).lexeme
    · rw [e]; exact (hn env T j i m hf).lexeme
  | .bindDst p, c, cs, h => by
    have e : elabP .fail (plainReq c cs) (.bindDst p) = .bindDst (elabP .fail (plainReq c cs) p) := by
      cases c <;> rfl
    obtain ⟨⟨sc, hb⟩, hy, hn⟩ := eating p c cs h
    refine ⟨⟨.wrap sc, ?_⟩, fun env T j i d m hd ht => ?_, fun env T j i m hf => ?_⟩
    · rw [e]; exact ⟨hb.marks, fun t i m => (hb.built t i m).bindDst⟩
    · rw [e]; exact (hy env T j i d m hd ht).bindDst
    · rw [e]; exact (hn env T j i m hf).bindDst
theorem eatings : ∀ (ps : List Pat) (cs : Bool), ps ≠ [] → Pat.charLikes ps = true →
    (∀ env T j i d m, T[i]? = some d → Pat.anyTakes d ps = true →
      AltEnds env .nil .nil T (elabPs .fail (plainReq true cs) ps) j i m .SUCCESS (i + 1) m) ∧
    (∀ env T j i m, (∀ d, T[i]? = some d → Pat.anyTakes d ps = false) →
      AltEnds env .nil .nil T (elabPs .fail (plainReq true cs) ps) j i m .FAILURE i m)
  | [], _, h, _ => absurd rfl h
  | [p], cs, _, h => by
    rw [Pat.charLikes, Bool.and_eq_true] at h
    obtain ⟨_, hy, hn⟩ := eating p true cs h.1
    refine ⟨fun env T j i d m hd ht => ?_, fun env T j i m hf => ?_⟩
    · exact .here (hy env T j i d m hd (by simpa [Pat.anyTakes] using ht))
    · exact .last (hn env T j i m fun d hd => by simpa [Pat.anyTakes] using hf d hd)
  | p :: q :: ps, cs, _, h => by
    rw [Pat.charLikes, Bool.and_eq_true] at h
    obtain ⟨_, hy, hn⟩ := eating p true cs h.1
    obtain ⟨hys, hns⟩ := eatings (q :: ps) cs (by simp) h.2
    refine ⟨fun env T j i d m hd ht => ?_, fun env T j i m hf => ?_⟩
    · cases hp : p.takes d with
      | true => exact .here (hy env T j i d m hd hp)
      | false =>
        rw [Pat.anyTakes, hp, Bool.false_or] at ht
        refine .cons (hn env T j i m fun d' hd' => ?_) (hys env T i i d m hd ht)
        rw [hd] at hd'; cases hd'; exact hp
    · have h1 : ∀ d, T[i]? = some d → p.takes d = false ∧ Pat.anyTakes d (q :: ps) = false := fun d hd => by
        have := hf d hd
        rw [Pat.anyTakes, Bool.or_eq_false_iff] at this
        exact this
      exact .cons (hn env T j i m fun d hd => (h1 d hd).1) (hns env T i i m fun d hd => (h1 d hd).2)
end

mutual
theorem charLike_quiet : ∀ (p : Pat), p.charLike = true → p.quiet = true
  | .char _, _ => rfl
  | .alt ps, h => by
    rw [Pat.charLike, Bool.and_eq_true] at h
    exact charLikes_quiet ps h.2
  | .discard p, h => charLike_quiet p h
  | .lexeme p, h => charLike_quiet p h
  | .bindDst p, h => charLike_quiet p h
theorem charLikes_quiet : ∀ (ps : List Pat), Pat.charLikes ps = true → Pat.quiets ps = true
  | [], _ => rfl
  | p :: ps, h => by
    rw [Pat.charLikes, Bool.and_eq_true] at h
    rw [Pat.quiets, charLike_quiet p h.1, charLikes_quiet ps h.2]; rfl
end

/-- The parser of such a skipper. -/
theorem Pat.SkipsSet.eater {s : Pat} {S : CharSet} (h : s.SkipsSet S) :
    ∃ E : Eater, E.set = S ∧ E.K = skipParser s := by
  obtain ⟨⟨sc, hb⟩, hy, hn⟩ := eating s true true h.1
  refine ⟨⟨S, skipParser s, sc, skipParser_isFail ?_, elab_quiet s (charLike_quiet s h.1) rfl, hb,
    fun env T i c m h1 h2 => hb.runs (hy env T i i c m h1 ((h.2 c).trans h2)),
    fun env T i m h1 => hb.runs (hn env T i i m fun d hd => (h.2 d).trans (h1 d hd))⟩, rfl, rfl⟩
  rintro rfl
  cases h.1

end Abu
