import Verif.Proofs.Marked
import Verif.Proofs.Recognise
/-
The parsers of all patterns, from `parse` to the specification with saved positions and back.
-/
namespace Abu

theorem guarded_eq : ∀ p : Pat, p.FAILS_CLEANLY = !p.guarded
  | .withSkipper p s => by rw [Pat.FAILS_CLEANLY, Pat.guarded, guarded_eq p]
  | .char _ => rfl
  | .charSymbol _ => rfl
  | .strLit _ => rfl
  | .symbol _ => rfl
  | .int _ _ mx => by simp [Pat.FAILS_CLEANLY, Pat.guarded, bne]
  | .uint _ _ mx => by simp [Pat.FAILS_CLEANLY, Pat.guarded, bne]
  | .eoi => rfl
  | .pass => rfl
  | .fail => rfl
  | .seq _ => rfl
  | .alt _ => rfl
  | .rep .. => rfl
  | .opt _ => rfl
  | .not _ => rfl
  | .discard _ => rfl
  | .lexeme _ => rfl
  | .bindDst _ => rfl
  | .construct .. => rfl
  | .action .. => rfl
  | .except .. => rfl
  | .list .. => rfl
  | .recur .. => rfl

/-- Requirements of the type `RecurChildReqs` ask for nothing. -/
def Req.Sane (r : Req) : Prop := r.recurChild = true → r.FAILS_CLEANLY = false

theorem needsClean_eq {r : Req} (hr : r.Sane) (p : Pat) :
    r.needsClean p = (r.FAILS_CLEANLY && p.guarded) := by
  unfold Req.needsClean
  rw [guarded_eq]
  cases h : r.recurChild with
  | false => simp
  | true => rw [hr h]; simp

theorem lower_fails {r : Req} (hr : r.Sane) (p : Pat) :
    (r.lower p).FAILS_CLEANLY = (r.FAILS_CLEANLY && !p.guarded) := by
  unfold Req.lower
  split
  · rename_i h; rw [hr h]; rfl
  · simp only [needsClean_eq hr]
    cases r.FAILS_CLEANLY <;> cases p.guarded <;> rfl

theorem lower_recurChild {r : Req} (p : Pat) : (r.lower p).recurChild = r.recurChild := by
  unfold Req.lower
  split <;> simp_all

theorem lower_sane {r : Req} (hr : r.Sane) (p : Pat) : (r.lower p).Sane := by
  intro h
  rw [lower_recurChild] at h
  rw [lower_fails hr, hr h]; rfl

theorem marks_isFail {K : Prog} (h : K.isFail = true) : marks K = 0 := by
  cases K <;> first | rfl | cases h

theorem marks_adapt_req {K : Prog} {r : Req} {p : Pat} {at' cl} {raw : Prog} {m : Nat}
    (hm : marks K = m) (hcl : cl = (r.FAILS_CLEANLY && p.guarded)) :
    marks (adapt (r.skipper K) at' cl raw) =
      (if (!r.recurChild) = true then m else 0) + (r.FAILS_CLEANLY && p.guarded).toNat + marks raw := by
  rw [marks_adapt_skip, hcl]
  have h1 : (if (r.skipper K).isFail = true then 0 else marks (r.skipper K)) =
      if (!r.recurChild) = true then m else 0 := by
    unfold Req.skipper
    cases h : r.recurChild with
    | true => rfl
    | false =>
      simp only [Bool.false_eq_true, if_false, Bool.not_false, if_true, hm]
      split
      · rename_i h; rw [← hm, marks_isFail h]
      · rfl
  rw [h1]
  cases r.FAILS_CLEANLY && p.guarded <;> simp <;> omega

theorem marks_elab : ∀ (p : Pat) {K : Prog} {r : Req} {m : Nat}, marks K = m → r.Sane →
    marks (elabP K r p) = p.saves m (!r.recurChild) r.FAILS_CLEANLY
  | .char _, K, r, m, hK, hr => by
    rw [elabP, marks_adapt_req (p := .char _) hK (by simp [Pat.guarded])]; rfl
  | .charSymbol _, K, r, m, hK, hr => by
    rw [elabP, marks_adapt_req (p := .charSymbol _) hK (by simp [Pat.guarded])]; rfl
  | .strLit _, K, r, m, hK, hr => by rw [elabP, marks_adapt_req hK (needsClean_eq hr _)]; rfl
  | .symbol _, K, r, m, hK, hr => by rw [elabP, marks_adapt_req hK (needsClean_eq hr _)]; rfl
  | .int .., K, r, m, hK, hr => by rw [elabP, marks_adapt_req hK (needsClean_eq hr _)]; rfl
  | .uint .., K, r, m, hK, hr => by rw [elabP, marks_adapt_req hK (needsClean_eq hr _)]; rfl
  | .eoi, K, r, m, hK, hr => by
    rw [elabP, marks_adapt_req (p := .eoi) hK (by simp [Pat.guarded])]; rfl
  | .pass, K, r, m, hK, hr => by
    rw [elabP, marks_adapt_req (p := .pass) hK (by simp [Pat.guarded])]; rfl
  | .fail, K, r, m, hK, hr => by
    rw [elabP, marks_adapt_req (p := .fail) hK (by simp [Pat.guarded])]; rfl
  | .seq [], K, r, m, hK, hr => by
    rw [elabP, marks_adapt_req hK (needsClean_eq hr _)]
    simp [elabPs, marks, Pat.saves, Pat.guarded]
  | .seq (p :: ps), K, r, m, hK, hr => by
    rw [elabP, marks_adapt_req hK (needsClean_eq hr _)]
    have := marks_elab p (r := ⟨false, false, false, false⟩) hK (fun h => by cases h)
    simp only [elabPs, marks, Pat.saves, Pat.guarded, Bool.and_true, this]; rfl
  | .alt [], K, r, m, hK, hr => by
    rw [elabP, marks_adapt_req hK (needsClean_eq hr _)]
    simp [elabPs, marks, Pat.saves, Pat.guarded]
  | .alt (p :: ps), K, r, m, hK, hr => by
    rw [elabP, marks_adapt_req hK (needsClean_eq hr _)]
    have := marks_elab p (r := { (r.lower (.alt (p :: ps))).derive with FAILS_CLEANLY := true }) hK
      (fun h => by cases h)
    simp only [elabPs, marks, Pat.saves, Pat.guarded, Bool.and_false, this]; rfl
  | .rep mn mx p, K, r, m, hK, hr => by
    rw [elabP, marks_adapt_req hK (needsClean_eq hr _)]
    have := marks_elab p (r := ⟨true, mn != mx || mx == 0, r.CONSUMES, false⟩) hK
      (fun h => by cases h)
    simp only [marks, Pat.saves, Pat.guarded, Bool.and_true, this]; rfl
  | .opt p, K, r, m, hK, hr => by
    rw [elabP, marks_adapt_req hK (needsClean_eq hr _)]
    have := marks_elab p (r := ⟨true, false, r.CONSUMES, false⟩) hK (fun h => by cases h)
    simp only [marks, Pat.saves, Pat.guarded, Bool.and_false, Bool.toNat_false, this]
    simp; omega
  | .not p, K, r, m, hK, hr => by
    rw [elabP, marks_adapt_req hK (needsClean_eq hr _)]
    have := marks_elab p (r := { r.derive with ATOMIC := false, FAILS_CLEANLY := false }) hK
      (fun h => by cases h)
    simp only [marks, Pat.saves, Pat.guarded, Bool.and_false, Bool.toNat_false, this]
    simp [Req.derive]; omega
  | .discard p, K, r, m, hK, hr => by
    rw [elabP, marks_adapt_req hK (needsClean_eq hr _)]
    have := marks_elab p hK (lower_sane hr (.discard p))
    rw [lower_fails hr, lower_recurChild] at this
    simp only [marks, Pat.saves, this, Pat.guarded, Bool.and_false, Bool.not_false, Bool.and_true]
    simp
  | .lexeme p, K, r, m, hK, hr => by
    rw [elabP, marks_adapt_req hK (needsClean_eq hr _)]
    have := marks_elab p (K := .fail) (m := 0) rfl (lower_sane hr (.lexeme p))
    rw [lower_fails hr, lower_recurChild] at this
    simp only [marks, Pat.saves, this, Pat.guarded, Bool.and_false, Bool.not_false, Bool.and_true]
    simp
  | .bindDst p, K, r, m, hK, hr => by
    rw [elabP, marks_adapt_req hK (needsClean_eq hr _)]
    simp only [marks, Pat.saves]
    rw [marks_elab p hK (fun h => by cases h)]
    show _ + p.saves m true (r.lower (.bindDst p)).FAILS_CLEANLY = _
    rw [lower_fails hr]
    simp [Pat.guarded]
  | .construct tys p, K, r, m, hK, hr => by
    rw [elabP, marks_adapt_req hK (needsClean_eq hr _)]
    simp only [marks, Pat.saves]
    rw [marks_elab p hK (fun h => by cases h)]
    show _ + p.saves m true (r.lower (.construct tys p)).FAILS_CLEANLY = _
    rw [lower_fails hr]
    simp [Pat.guarded]
  | .action a p, K, r, m, hK, hr => by
    rw [elabP, marks_adapt_req hK (needsClean_eq hr _)]
    simp only [marks, Pat.saves]
    rw [marks_elab p hK (fun h => by cases h)]
    show _ + p.saves m true (r.lower (.action a p)).FAILS_CLEANLY = _
    rw [lower_fails hr]
    simp [Pat.guarded]
  | .except op neg, K, r, m, hK, hr => by
    rw [elabP, marks_adapt_req hK (needsClean_eq hr _)]
    have := marks_elab neg (r := ⟨false, true, false, false⟩) hK (fun h => by cases h)
    simp only [marks, Pat.saves, Pat.guarded, Bool.and_true, this]; rfl
  | .list op sep, K, r, m, hK, hr => by
    rw [elabP, marks_adapt_req hK (needsClean_eq hr _)]
    have := marks_elab op (r := ⟨true, false, false, false⟩) hK (fun h => by cases h)
    simp only [marks, Pat.saves, Pat.guarded, Bool.and_false, Bool.toNat_false, this]
    simp; omega
  | .withSkipper p s, K, r, m, hK, hr => by
    rw [elabP, marks_adapt_req hK (needsClean_eq hr _)]
    have h1 := marks_elab s (K := .fail) (m := 0) (r := SkipReqs) rfl (fun h => by cases h)
    have := marks_elab p h1 (lower_sane hr (.withSkipper p s))
    rw [lower_fails hr, lower_recurChild] at this
    simp only [marks, Pat.saves, this, Pat.guarded]
    rfl
  | .recur id n, K, r, m, hK, hr => by rw [elabP, marks_adapt_req hK (needsClean_eq hr _)]; rfl

theorem skipProg_isFail {s : Pat} (h : (elabP .fail SkipReqs s).isFail = true) : s = .fail := by
  have hn : ∀ a c (raw : Prog), raw.isFail = false → (adapt (SkipReqs.skipper .fail) a c raw).isFail = false := by
    intro a c raw h
    cases a <;> cases c <;> first | exact h | rfl
  cases s with
  | fail => rfl
  | _ => rw [elabP, hn _ _ _ rfl] at h; cases h

/-- The parser of the skipper in force performs it. -/
def SkipCf (k : Option Pat) : Prop :=
  ∀ s, k = some s → Cf (elabP .fail SkipReqs s) (fresh (elabP .fail SkipReqs s))
    (.one true none true s)

theorem fresh_atomic {raw : Prog} : fresh (.atomic raw) = .buffered .nil (fresh raw) := by
  rw [fresh]

theorem cf_adapt {k : Option Pat} {r : Req} {p : Pat} {at' cl} {raw : Prog}
    (hk : SkipCf k) (hcl : cl = (r.FAILS_CLEANLY && p.guarded))
    (hraw : Cf raw (fresh raw) (.raw (!r.recurChild) k (r.FAILS_CLEANLY && !p.guarded) p)) :
    Cf (adapt (r.skipper (skipProg k)) at' cl raw)
      (fresh (adapt (r.skipper (skipProg k)) at' cl raw))
      (.one (!r.recurChild) k r.FAILS_CLEANLY p) := by
  have h1 : Cf (if at' = true then Prog.atomic raw else raw)
      (fresh (if at' = true then Prog.atomic raw else raw))
      (.raw (!r.recurChild) k (r.FAILS_CLEANLY && !p.guarded) p) := by
    cases at' with
    | false => exact hraw
    | true =>
      simp only [if_true]
      rw [fresh_atomic]
      exact .thru rfl hraw (fun b _ _ _ => by cases b <;> rfl)
  generalize hA : (if at' = true then Prog.atomic raw else raw) = A at h1
  have h2 : Cf (if cl = true then Prog.clean A else A) (fresh (if cl = true then Prog.clean A else A))
      (.raw (!r.recurChild) k r.FAILS_CLEANLY p) := by
    cases cl with
    | false =>
      simp only [Bool.false_eq_true, if_false]
      have : (r.FAILS_CLEANLY && !p.guarded) = r.FAILS_CLEANLY := by
        cases h : r.FAILS_CLEANLY <;> cases h' : p.guarded <;> rw [h, h'] at hcl <;>
          first | rfl | cases hcl
      rwa [this] at h1
    | true =>
      have h := hcl.symm
      simp only [Bool.and_eq_true] at h
      rw [h.1, h.2] at h1
      rw [h.1]
      simp only [if_true]
      exact .clean h.2 h1
  generalize hC : (if cl = true then Prog.clean A else A) = C at h2
  have he : adapt (r.skipper (skipProg k)) at' cl raw =
      if (r.skipper (skipProg k)).isFail = true then C else .skip (r.skipper (skipProg k)) C := by
    rw [← hC, ← hA]; rfl
  rw [he]
  cases hrc : r.recurChild with
  | true =>
    rw [hrc] at h2
    have : (r.skipper (skipProg k)).isFail = true := by simp [Req.skipper, hrc, Prog.isFail]
    rw [this]
    exact .bare (.inl rfl) h2
  | false =>
    rw [hrc] at h2
    have hs : r.skipper (skipProg k) = skipProg k := by simp [Req.skipper, hrc]
    rw [hs]
    cases k with
    | none => exact .bare (.inr (.inl rfl)) h2
    | some s =>
      cases hf : (skipProg (some s)).isFail with
      | true =>
        have := skipProg_isFail hf
        subst this
        exact .bare (.inr (.inr rfl)) h2
      | false =>
        exact .skip (hk s rfl) (marks_elab s (K := .fail) (m := 0) (r := SkipReqs) rfl
          (fun h => by cases h)) h2

theorem cf_wrap {P W : Prog} {T : Task} (hc : childOf W (fresh W) = some (P, fresh P))
    (h : Cf P (fresh P) T)
    (ha : ∀ b cs' i S, after W (fresh W) (res b) cs' i S = some (.ret (res b) i S)) :
    Cf W (fresh W) T := .thru hc h ha

theorem elabPs_at {K : Prog} {r : Req} : ∀ (ps : List Pat) (m : Nat) {P p},
    (elabPs K r ps)[m]? = some P → ps[m]? = some p → P = elabP K r p
  | [], m, P, p, h, h' => by simp at h'
  | q :: ps, 0, P, p, h, h' => by simp [elabPs] at h h'; rw [← h, h']
  | q :: ps, m + 1, P, p, h, h' => by
    simp only [elabPs, List.getElem?_cons_succ] at h h'
    exact elabPs_at ps m h h'

theorem marks_skipProg (k : Option Pat) : marks (skipProg k) = skipSaves k := by
  cases k with
  | none => rfl
  | some s => exact marks_elab s (K := .fail) (m := 0) (r := SkipReqs) rfl (fun h => by cases h)

mutual
theorem cf_elab : ∀ (p : Pat) {k : Option Pat} {r : Req}, p.filled = true →
    (∀ s, k = some s → s.filled = true) → SkipCf k → r.Sane →
    Cf (elabP (skipProg k) r p) (fresh (elabP (skipProg k) r p))
      (.one (!r.recurChild) k r.FAILS_CLEANLY p)
  | .char _, k, r, hp, hf, hk, hr => by
    rw [elabP]
    exact cf_adapt hk (by simp [Pat.guarded]) (.leaf .char fun _ => rfl)
  | .charSymbol _, k, r, hp, hf, hk, hr => by
    rw [elabP]
    exact cf_adapt hk (by simp [Pat.guarded]) (.leaf .charSymbol fun _ => rfl)
  | .strLit _, k, r, hp, hf, hk, hr => by
    rw [elabP]
    exact cf_adapt hk (needsClean_eq hr _) (.leaf .strLit fun h => by simp [Pat.guarded] at h)
  | .symbol _, k, r, hp, hf, hk, hr => by
    rw [elabP]
    exact cf_adapt hk (needsClean_eq hr _) (.leaf .symbol fun h => by simp [Pat.guarded] at h)
  | .int .., k, r, hp, hf, hk, hr => by
    rw [elabP]
    exact cf_adapt hk (needsClean_eq hr _) (.leaf .int fun h => by simp at h; exact h.2)
  | .uint .., k, r, hp, hf, hk, hr => by
    rw [elabP]
    exact cf_adapt hk (needsClean_eq hr _) (.leaf .uint fun h => by simp at h; exact h.2)
  | .eoi, k, r, hp, hf, hk, hr => by
    rw [elabP]
    exact cf_adapt hk (by simp [Pat.guarded]) (.leaf .eoi fun _ => rfl)
  | .pass, k, r, hp, hf, hk, hr => by
    rw [elabP]
    exact cf_adapt hk (by simp [Pat.guarded]) (.leaf .pass fun _ => rfl)
  | .fail, k, r, hp, hf, hk, hr => by
    rw [elabP]
    exact cf_adapt hk (by simp [Pat.guarded]) (.leaf .fail fun _ => rfl)
  | .seq ps, k, r, hp, hf, hk, hr => by
    rw [elabP]
    refine cf_adapt hk (needsClean_eq hr _) ?_
    rw [show (r.FAILS_CLEANLY && !(Pat.seq ps).guarded) = false by simp [Pat.guarded]]
    refine .seq0 ?_
    have hs := cf_elabs ps (k := k) (r := ⟨false, false, false, false⟩) (band_right hp) hf hk
      (fun h => by cases h)
    cases ps with
    | nil => cases hp
    | cons q ps =>
      exact .seq (n := 0) (ps := q :: ps) (elabPs_length _ _ _)
        (by rw [elabPs_length, tupleSlots_length]) hs
        (fun m P p h h' => by
          rw [elabPs_at _ _ h h', marks_elab p (marks_skipProg k) (fun h => by cases h)]; rfl)
        rfl
  | .alt ps, k, r, hp, hf, hk, hr => by
    rw [elabP]
    refine cf_adapt hk (needsClean_eq hr _) (.alt0 ?_)
    have hs := cf_elabs ps (k := k)
      (r := { (r.lower (.alt ps)).derive with FAILS_CLEANLY := true }) (band_right hp) hf hk
      (fun h => by cases h)
    cases ps with
    | nil => cases hp
    | cons q ps =>
      exact .alt (n := 0) (ps := q :: ps) (elabPs_length _ _ _) hs
        (fun m P p h h' => by
          rw [elabPs_at _ _ h h', marks_elab p (marks_skipProg k) (fun h => by cases h)]; rfl)
        rfl
  | .rep mn mx p, k, r, hp, hf, hk, hr => by
    rw [elabP]
    refine cf_adapt hk (needsClean_eq hr _) ?_
    rw [show (r.FAILS_CLEANLY && !(Pat.rep mn mx p).guarded) = false by simp [Pat.guarded]]
    exact .rep0 (.rep (cf_elab p (r := ⟨true, mn != mx || mx == 0, r.CONSUMES, false⟩) hp hf hk
      (fun h => by cases h)) (marks_elab p (marks_skipProg k) (fun h => by cases h)))
  | .opt p, k, r, hp, hf, hk, hr => by
    rw [elabP]
    exact cf_adapt hk (needsClean_eq hr _) (.opt (cf_elab p (r := ⟨true, false, r.CONSUMES, false⟩)
      hp hf hk (fun h => by cases h)))
  | .not p, k, r, hp, hf, hk, hr => by
    rw [elabP]
    exact cf_adapt hk (needsClean_eq hr _) (.not (cf_elab p
      (r := { r.derive with ATOMIC := false, FAILS_CLEANLY := false }) hp hf hk
      (fun h => by cases h)))
  | .discard p, k, r, hp, hf, hk, hr => by
    rw [elabP]
    refine cf_adapt hk (needsClean_eq hr _) (.discard ?_)
    have := cf_elab p hp hf hk (lower_sane hr (.discard p))
    rw [lower_recurChild, lower_fails hr] at this
    exact .thru rfl this (fun b _ _ _ => by cases b <;> rfl)
  | .lexeme p, k, r, hp, hf, hk, hr => by
    rw [elabP]
    refine cf_adapt hk (needsClean_eq hr _) (.lexeme ?_)
    have := cf_elab p (k := none) hp (fun _ h => by cases h) (fun _ h => by cases h)
      (lower_sane hr (.lexeme p))
    rw [lower_recurChild, lower_fails hr] at this
    exact .thru rfl this (fun b _ _ _ => by cases b <;> rfl)
  | .bindDst p, k, r, hp, hf, hk, hr => by
    rw [elabP]
    refine cf_adapt hk (needsClean_eq hr _) (.bindDst ?_)
    have := cf_elab p (r := { (r.lower (.bindDst p)).derive with ATOMIC := false }) hp hf hk
      (fun h => by cases h)
    rw [← lower_fails hr]
    exact .thru rfl this (fun b _ _ _ => by cases b <;> rfl)
  | .construct tys p, k, r, hp, hf, hk, hr => by
    rw [elabP]
    refine cf_adapt hk (needsClean_eq hr _) (.construct ?_)
    have := cf_elab p (r := { (r.lower (.construct tys p)).derive with ATOMIC := false }) hp hf hk
      (fun h => by cases h)
    rw [← lower_fails hr]
    exact .thru rfl this (fun b _ _ _ => by cases b <;> rfl)
  | .action a p, k, r, hp, hf, hk, hr => by
    rw [elabP]
    refine cf_adapt hk (needsClean_eq hr _) (.action ?_)
    have := cf_elab p (r := ⟨false, (r.lower (.action a p)).FAILS_CLEANLY, r.CONSUMES, false⟩)
      hp hf hk (fun h => by cases h)
    rw [← lower_fails hr]
    exact .thru rfl this (fun b _ _ _ => by cases b <;> rfl)
  | .except op neg, k, r, hp, hf, hk, hr => by
    rw [elabP]
    refine cf_adapt hk (needsClean_eq hr _) ?_
    rw [show (r.FAILS_CLEANLY && !(Pat.except op neg).guarded) = false by simp [Pat.guarded]]
    exact .except (cf_elab op
        (r := { (r.lower (.except op neg)).derive with FAILS_CLEANLY := false })
        (band_left hp) hf hk (fun h => by cases h))
      (cf_elab neg (r := ⟨false, true, false, false⟩) (band_right hp) hf hk (fun h => by cases h))
      (marks_elab op (marks_skipProg k) (fun h => by cases h))
  | .list op sep, k, r, hp, hf, hk, hr => by
    rw [elabP]
    exact cf_adapt hk (needsClean_eq hr _) (.list0 (.item
      (cf_elab op (r := ⟨true, false, false, false⟩) (band_left hp) hf hk (fun h => by cases h))
      (cf_elab sep (r := ⟨false, false, false, false⟩) (band_right hp) hf hk (fun h => by cases h))
      (marks_elab op (marks_skipProg k) (fun h => by cases h))
      (marks_elab sep (marks_skipProg k) (fun h => by cases h))))
  | .withSkipper p s, k, r, hp, hf, hk, hr => by
    rw [elabP]
    refine cf_adapt hk (needsClean_eq hr _) (.withSkipper ?_ ?_)
    · simp [Pat.guarded]
    · have hs : SkipCf (some s) := by
        intro s' h; cases h
        exact cf_elab s (k := none) (r := SkipReqs) (band_right hp) (fun _ h => by cases h)
          (fun _ h => by cases h) (fun h => by cases h)
      have := cf_elab p (k := some s) (band_left hp) (fun _ h => by cases h; exact band_right hp) hs
        (lower_sane hr (.withSkipper p s))
      rw [lower_recurChild, lower_fails hr] at this
      exact .thru rfl this (fun b _ _ _ => by cases b <;> rfl)
  | .recur id n, k, r, hp, hf, hk, hr => by
    rw [elabP]
    refine cf_adapt hk (needsClean_eq hr _) ?_
    rw [show (r.FAILS_CLEANLY && !(Pat.recur id n).guarded) = false by simp [Pat.guarded]]
    exact .recur hf
theorem cf_elabs : ∀ (ps : List Pat) {k : Option Pat} {r : Req}, Pat.filledAll ps = true →
    (∀ s, k = some s → s.filled = true) → SkipCf k → r.Sane →
    ∀ (m : Nat) (P : Prog) (p : Pat), (elabPs (skipProg k) r ps)[m]? = some P → ps[m]? = some p →
      Cf P (fresh P) (.one (!r.recurChild) k r.FAILS_CLEANLY p)
  | [], k, r, hp, hf, hk, hr, m, P, p, h, h' => by simp at h'
  | q :: ps, k, r, hp, hf, hk, hr, 0, P, p, h, h' => by
    simp only [elabPs, List.getElem?_cons_zero, Option.some.injEq] at h h'
    subst h h'
    exact cf_elab q (band_left hp) hf hk hr
  | q :: ps, k, r, hp, hf, hk, hr, m + 1, P, p, h, h' => by
    simp only [elabPs, List.getElem?_cons_succ] at h h'
    exact cf_elabs ps (band_right hp) hf hk hr m P p h h'
end

theorem skipCf_of_filled {k : Option Pat} (hf : ∀ s, k = some s → s.filled = true) : SkipCf k :=
  fun s h => cf_elab s (k := none) (r := SkipReqs) (hf s h) (fun _ h => by cases h)
    (fun _ h => by cases h) (fun h => by cases h)

theorem envCf {env : Env} (h : env.filled) : EnvCf env := by
  intro id q k hq hf
  exact ⟨cf_elab q (r := RecurChildReqs) (h id q hq) hf (skipCf_of_filled hf) (fun _ => rfl),
    marks_elab q (marks_skipProg k) (fun _ => rfl)⟩

mutual
theorem comp_filled : ∀ (p : Pat) {r : Req} {K : Prog}, Comp K → p.filled = true → Comp (elabP K r p)
  | .char s, r, K, hK, h => comp_adapt (comp_skipper hK) .char
  | .charSymbol s, r, K, hK, h => comp_adapt (comp_skipper hK) .charSymbol
  | .strLit s, r, K, hK, h => comp_adapt (comp_skipper hK) .strLit
  | .symbol s, r, K, hK, h => comp_adapt (comp_skipper hK) .symbol
  | .int .., r, K, hK, h => comp_adapt (comp_skipper hK) .int
  | .uint .., r, K, hK, h => comp_adapt (comp_skipper hK) .uint
  | .eoi, r, K, hK, h => comp_adapt (comp_skipper hK) .eoi
  | .pass, r, K, hK, h => comp_adapt (comp_skipper hK) .pass
  | .fail, r, K, hK, h => comp_adapt (comp_skipper hK) .fail
  | .seq ps, r, K, hK, h => by
    rw [elabP]
    refine comp_adapt (comp_skipper hK) (.seq ?_ ?_ (comp_filledAll ps hK (band_right h)))
    · have := band_left h
      cases ps with
      | nil => cases this
      | cons => simp [elabPs]
    · rw [tupleSlots_length, elabPs_length]
  | .alt ps, r, K, hK, h => by
    rw [elabP]
    refine comp_adapt (comp_skipper hK) (.alt ?_ (comp_filledAll ps hK (band_right h)))
    have := band_left h
    cases ps with
    | nil => cases this
    | cons => simp [elabPs]
  | .rep mn mx p, r, K, hK, h => by
    rw [elabP]; exact comp_adapt (comp_skipper hK) (.rep (comp_filled p hK h))
  | .opt p, r, K, hK, h => by
    rw [elabP]; exact comp_adapt (comp_skipper hK) (.opt (comp_filled p hK h))
  | .not p, r, K, hK, h => by
    rw [elabP]; exact comp_adapt (comp_skipper hK) (.not (comp_filled p hK h))
  | .discard p, r, K, hK, h => by
    rw [elabP]; exact comp_adapt (comp_skipper hK) (.discard (comp_filled p hK h))
  | .lexeme p, r, K, hK, h => by
    rw [elabP]; exact comp_adapt (comp_skipper hK) (.lexeme (comp_filled p .fail h))
  | .bindDst p, r, K, hK, h => by
    rw [elabP]; exact comp_adapt (comp_skipper hK) (.bindDst (comp_filled p hK h))
  | .construct tys p, r, K, hK, h => by
    rw [elabP]; exact comp_adapt (comp_skipper hK) (.construct (comp_filled p hK h))
  | .action a p, r, K, hK, h => by
    rw [elabP]; exact comp_adapt (comp_skipper hK) (.action (comp_filled p hK h))
  | .except op neg, r, K, hK, h => by
    rw [elabP]
    exact comp_adapt (comp_skipper hK)
      (.except (comp_filled op hK (band_left h)) (comp_filled neg hK (band_right h)))
  | .list op sep, r, K, hK, h => by
    rw [elabP]
    exact comp_adapt (comp_skipper hK)
      (.list (comp_filled op hK (band_left h)) (comp_filled sep hK (band_right h)))
  | .withSkipper p s, r, K, hK, h => by
    rw [elabP]
    exact comp_adapt (comp_skipper hK)
      (.withSkipper (comp_filled p (comp_filled s .fail (band_right h)) (band_left h)))
  | .recur id n, r, K, hK, h => by
    rw [elabP]; exact comp_adapt (comp_skipper hK) (.recur hK)
theorem comp_filledAll : ∀ (ps : List Pat) {r : Req} {K : Prog}, Comp K →
    Pat.filledAll ps = true → ∀ P ∈ elabPs K r ps, Comp P
  | [], r, K, hK, h => by simp [elabPs]
  | p :: ps, r, K, hK, h => by
    intro P hP
    rw [elabPs, List.mem_cons] at hP
    rcases hP with rfl | hP
    · exact comp_filled p hK (band_left h)
    · exact comp_filledAll ps hK (band_right h) P hP
end

theorem ghost_marked {env : Env} {p : Pat} {t r rest} (henv : env.filled) (hp : p.filled = true) :
    GhostParses env (topParser p) t r rest ↔ ∃ b, r = res b ∧ MarkedFor env p t b rest := by
  have hcf : Cf (topParser p) (fresh (topParser p)) (.one true none false p) :=
    cf_elab p (k := none) (r := DefaultReqs) hp (fun _ h => by cases h) (fun _ h => by cases h)
      (fun h => by cases h)
  have hmk : marks (topParser p) = p.saves 0 true false :=
    marks_elab p (K := .fail) (m := 0) (r := DefaultReqs) rfl (fun h => by cases h)
  rw [ghost_iff (P := topParser p) (comp_filled p .fail hp)
    (fun id q sk hq hsk => comp_filled q hsk (henv id q hq)), hmk]
  have hbeg : begun none true false p 0 [] = List.replicate (p.saves 0 true false) 0 := by
    simp [begun, skipSaves]
  constructor
  · rintro ⟨j, S', hB, rfl⟩
    obtain ⟨b, h1, h2⟩ := big_marked (envCf henv) hB _ hcf
    exact ⟨b, h1, j, S', by rw [hbeg]; exact h2, rfl⟩
  · rintro ⟨b, rfl, j, S', hm, rfl⟩
    rw [hbeg] at hm
    exact ⟨j, S', marked_big (envCf henv) hm _ _ hcf, rfl⟩

end Abu
