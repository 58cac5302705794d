import Verif.Proofs.RetryRun
/-
The parser objects of `Pat.retriable` patterns.
-/
namespace Abu

theorem adapt_settles {ok sk at' cl raw} (h : raw.settles ok = true) (hc : cl = false)
    (ha : ok = true → at' = false) : (adapt sk at' cl raw).settles ok = true := by
  subst hc
  have h1 : (if at' then Prog.atomic raw else raw).settles ok = true := by
    split
    · cases ok with
      | true => have := ha rfl; simp_all
      | false => simpa [Prog.settles] using h
    · exact h
  simp only [adapt, Bool.false_eq_true, if_false]
  split
  · exact h1
  · simpa only [Prog.settles] using h1

theorem tupleSlots_len_r (ps : List Pat) (n) : (tupleSlots n ps).length = ps.length := by
  induction ps generalizing n with
  | nil => rfl
  | cons p ps ih => simp only [tupleSlots]; split <;> simp [ih]

theorem elabPs_len_r (ps : List Pat) (sk r) : (elabPs sk r ps).length = ps.length := by
  induction ps with
  | nil => rfl
  | cons p ps ih => simp [elabPs, ih]

theorem needsClean_of {r : Req} {p : Pat} (h : r.FAILS_CLEANLY = true → p.FAILS_CLEANLY = true) :
    r.needsClean p = false := by
  unfold Req.needsClean
  cases hf : r.FAILS_CLEANLY with
  | false => simp
  | true => simp [h hf]

theorem needsAtomic_of {r : Req} {p : Pat} (h : r.ATOMIC = false) : r.needsAtomic p = false := by
  simp [Req.needsAtomic, h]

theorem lower_clean {r : Req} {p : Pat} (h : r.FAILS_CLEANLY = true → p.FAILS_CLEANLY = true) :
    (r.lower p).FAILS_CLEANLY = r.FAILS_CLEANLY := by
  unfold Req.lower
  split
  · rfl
  · simp [needsClean_of h]

theorem lower_atomic_r {r : Req} {p : Pat} (h : r.ATOMIC = false) : (r.lower p).ATOMIC = false := by
  unfold Req.lower
  split
  · exact h
  · simp [h]

mutual
theorem elab_settles : ∀ (p : Pat) {sk r ok}, p.settles ok r.FAILS_CLEANLY = true →
    (ok = true → r.ATOMIC = false) → (elabP sk r p).settles ok = true
  | .strLit _, sk, r, ok, h, ha => by
    simp only [Pat.settles, Bool.not_eq_true'] at h
    exact adapt_settles rfl (needsClean_of (by simp [h])) (fun _ => rfl)
  | .eoi, sk, r, ok, h, ha => adapt_settles rfl rfl fun _ => rfl
  | .pass, sk, r, ok, h, ha => adapt_settles rfl rfl fun _ => rfl
  | .fail, sk, r, ok, h, ha => adapt_settles rfl rfl fun _ => rfl
  | .char _, sk, r, ok, h, ha => adapt_settles h rfl fun _ => rfl
  | .charSymbol _, sk, r, ok, h, ha => adapt_settles h rfl fun _ => rfl
  | .uint _ _ mx, sk, r, ok, h, ha => by
    simp only [Pat.settles, Bool.and_eq_true] at h
    refine adapt_settles h.1 (needsClean_of fun hf => ?_) (fun hok => needsAtomic_of (ha hok))
    rw [hf] at h; simpa [Pat.FAILS_CLEANLY] using h.2
  | .symbol _, sk, r, ok, h, ha => by
    simp only [Pat.settles, Bool.and_eq_true, Bool.not_eq_true'] at h
    exact adapt_settles (by simp [Prog.settles, h.1]) (needsClean_of (by simp [h.2])) (fun _ => rfl)
  | .seq ps, sk, r, ok, h, ha => by
    simp only [Pat.settles, Bool.and_eq_true, Bool.not_eq_true'] at h
    refine adapt_settles ?_ (needsClean_of (by simp [h.1])) (fun hok => needsAtomic_of (ha hok))
    simp only [Prog.settles, tupleSlots_len_r, elabPs_len_r, beq_self_eq_true, Bool.true_and]
    cases ok with
    | true => exact elab_lastSettles ps h.2 (fun _ => rfl)
    | false => exact elab_allSettle ps h.2 (fun _ => rfl)
  | .alt ps, sk, r, ok, h, ha => by
    simp only [Pat.settles] at h
    refine adapt_settles ?_ (needsClean_of fun _ => rfl) (fun hok => needsAtomic_of (ha hok))
    simp only [Prog.settles]
    cases ok with
    | true => exact elab_allSettle ps h (fun hok => lower_atomic_r (ha hok))
    | false => exact elab_lastSettles ps h nofun
  | .rep mn mx p, sk, r, ok, h, ha => by
    simp only [Pat.settles, Bool.and_eq_true, Bool.not_eq_true'] at h
    refine adapt_settles ?_ (needsClean_of (by simp [h.1.1])) (fun hok => needsAtomic_of (ha hok))
    simp only [Prog.settles, Bool.and_eq_true]
    exact ⟨h.1.2, elab_settles p (r := ⟨true, mn != mx || mx == 0, r.CONSUMES, false⟩) h.2 nofun⟩
  | .except p q, sk, r, ok, h, ha => by
    simp only [Pat.settles, Bool.and_eq_true, Bool.not_eq_true'] at h
    refine adapt_settles ?_ (needsClean_of (by simp [h.1])) (fun hok => needsAtomic_of (ha hok))
    simp only [Prog.settles]
    cases ok with
    | true => exact elab_settles p h.2 (fun hok => lower_atomic_r (ha hok))
    | false =>
      simp only [Bool.false_eq_true, if_false, Bool.and_eq_true] at h ⊢
      exact ⟨elab_settles p h.2.1 nofun, elab_settles q h.2.2 (fun _ => rfl)⟩
  | .discard p, sk, r, ok, h, ha => by
    refine adapt_settles ?_ (needsClean_of fun _ => rfl) (fun hok => needsAtomic_of (ha hok))
    exact elab_settles p (r := r.lower (.discard p)) (by rw [lower_clean fun _ => rfl]; exact h)
      (fun hok => lower_atomic_r (ha hok))
  | .lexeme p, sk, r, ok, h, ha => by
    refine adapt_settles ?_ (needsClean_of fun _ => rfl) (fun hok => needsAtomic_of (ha hok))
    exact elab_settles p (r := r.lower (.lexeme p)) (by rw [lower_clean fun _ => rfl]; exact h)
      (fun hok => lower_atomic_r (ha hok))
  | .bindDst p, sk, r, ok, h, ha => by
    refine adapt_settles ?_ (needsClean_of fun _ => rfl) (fun hok => needsAtomic_of (ha hok))
    exact elab_settles p (r := { (r.lower (.bindDst p)).derive with ATOMIC := false })
      (by show p.settles ok (r.lower (.bindDst p)).FAILS_CLEANLY = true
          rw [lower_clean fun _ => rfl]; exact h) (fun _ => rfl)
  | .withSkipper p s, sk, r, ok, h, ha => by
    simp only [Pat.settles, Bool.and_eq_true] at h
    have hc : r.FAILS_CLEANLY = true → (Pat.withSkipper p s).FAILS_CLEANLY = true := by
      intro hf; rw [hf] at h; simpa [Pat.FAILS_CLEANLY] using h.1
    refine adapt_settles ?_ (needsClean_of hc) (fun hok => needsAtomic_of (ha hok))
    exact elab_settles p (r := r.lower (.withSkipper p s)) (by rw [lower_clean hc]; exact h.2)
      (fun hok => lower_atomic_r (ha hok))
  | .action a p, sk, r, ok, h, ha => by
    simp only [Pat.settles, Bool.and_eq_true, Bool.not_eq_true'] at h
    obtain ⟨rfl, h⟩ := h
    refine adapt_settles ?_ (needsClean_of fun _ => rfl) nofun
    exact elab_settles p (r := ⟨false, (r.lower (.action a p)).FAILS_CLEANLY, r.CONSUMES, false⟩)
      (by show p.settles false (r.lower (.action a p)).FAILS_CLEANLY = true
          rw [lower_clean fun _ => rfl]; exact h) nofun
  | .construct tys p, sk, r, ok, h, ha => by
    simp only [Pat.settles, Bool.and_eq_true, Bool.not_eq_true'] at h
    obtain ⟨rfl, h⟩ := h
    refine adapt_settles ?_ (needsClean_of fun _ => rfl) nofun
    exact elab_settles p (r := { (r.lower (.construct tys p)).derive with ATOMIC := false })
      (by show p.settles false (r.lower (.construct tys p)).FAILS_CLEANLY = true
          rw [lower_clean fun _ => rfl]; exact h) nofun
theorem elab_allSettle : ∀ (ps : List Pat) {sk r ok}, Pat.allSettle ok r.FAILS_CLEANLY ps = true →
    (ok = true → r.ATOMIC = false) → Prog.allSettle ok (elabPs sk r ps) = true
  | [], _, _, _, _, _ => rfl
  | p :: ps, sk, r, ok, h, ha => by
    simp only [Pat.allSettle, Bool.and_eq_true] at h
    simp only [elabPs, Prog.allSettle, Bool.and_eq_true]
    exact ⟨elab_settles p h.1 ha, elab_allSettle ps h.2 ha⟩
theorem elab_lastSettles : ∀ (ps : List Pat) {sk r ok}, Pat.lastSettles ok r.FAILS_CLEANLY ps = true →
    (ok = true → r.ATOMIC = false) → Prog.lastSettles ok (elabPs sk r ps) = true
  | [], _, _, _, _, _ => rfl
  | [p], sk, r, ok, h, ha => elab_settles p h ha
  | _ :: p :: ps, sk, r, ok, h, ha => elab_lastSettles (p :: ps) h ha
end

theorem adapt_retriable {sk at' cl raw} (hs : sk.retriable = true) (h : raw.retriable = true) :
    (adapt sk at' cl raw).retriable = true := by
  have h1 : (if at' then Prog.atomic raw else raw).retriable = true := by split <;> exact h
  have h2 : ∀ x : Prog, x.retriable = true → (if cl then Prog.clean x else x).retriable = true := by
    intro x hx; split <;> exact hx
  simp only [adapt]
  split
  · exact h2 _ h1
  · simp only [Prog.retriable, Bool.and_eq_true]; exact ⟨hs, h2 _ h1⟩

theorem skipper_retriable {r : Req} {sk} (h : sk.retriable = true) : (r.skipper sk).retriable = true := by
  unfold Req.skipper; split
  · rfl
  · exact h

theorem lower_recur {r : Req} {p : Pat} (h : r.recurChild = true → r.FAILS_CLEANLY = false) :
    (r.lower p).recurChild = true → (r.lower p).FAILS_CLEANLY = false := by
  unfold Req.lower
  split
  · exact h
  · intro hr; simp_all

theorem lower_withSkipper {r : Req} {p s : Pat} (h : r.recurChild = true → r.FAILS_CLEANLY = false) :
    (r.lower (.withSkipper p s)).FAILS_CLEANLY = (r.FAILS_CLEANLY && p.FAILS_CLEANLY) := by
  unfold Req.lower Req.needsClean
  split
  · rename_i hr; rw [h hr]; rfl
  · simp_all [Pat.FAILS_CLEANLY]
    cases r.FAILS_CLEANLY <;> cases p.FAILS_CLEANLY <;> rfl

mutual
theorem elab_retriable : ∀ (p : Pat) {sk r}, p.retriable r.FAILS_CLEANLY = true →
    (r.recurChild = true → r.FAILS_CLEANLY = false) → sk.retriable = true →
    (elabP sk r p).retriable = true
  | .action a p, sk, r, h, hr, hs => by
    simp only [Pat.retriable, Bool.and_eq_true] at h
    refine adapt_retriable (skipper_retriable hs) ?_
    have hc : (r.lower (.action a p)).FAILS_CLEANLY = r.FAILS_CLEANLY := lower_clean fun _ => rfl
    simp only [Prog.retriable, Bool.and_eq_true]
    exact ⟨⟨h.1.1, elab_settles p (by rw [hc]; exact h.1.2) (fun _ => rfl)⟩,
      elab_retriable p (by rw [hc]; exact h.2) nofun hs⟩
  | .seq ps, sk, r, h, hr, hs => adapt_retriable (skipper_retriable hs) (elab_retriables ps h nofun hs)
  | .alt ps, sk, r, h, hr, hs => adapt_retriable (skipper_retriable hs) (elab_retriables ps h nofun hs)
  | .rep mn mx p, sk, r, h, hr, hs =>
    adapt_retriable (skipper_retriable hs) (elab_retriable p h nofun hs)
  | .opt p, sk, r, h, hr, hs => adapt_retriable (skipper_retriable hs) (elab_retriable p h nofun hs)
  | .not p, sk, r, h, hr, hs => adapt_retriable (skipper_retriable hs) (elab_retriable p h nofun hs)
  | .discard p, sk, r, h, hr, hs =>
    adapt_retriable (skipper_retriable hs)
      (elab_retriable p (r := r.lower (.discard p)) (by rw [lower_clean fun _ => rfl]; exact h)
        (lower_recur hr) hs)
  | .lexeme p, sk, r, h, hr, hs =>
    adapt_retriable (skipper_retriable hs)
      (elab_retriable p (r := r.lower (.lexeme p)) (by rw [lower_clean fun _ => rfl]; exact h)
        (lower_recur hr) rfl)
  | .bindDst p, sk, r, h, hr, hs => by
    refine adapt_retriable (skipper_retriable hs) (elab_retriable p
      (r := { (r.lower (.bindDst p)).derive with ATOMIC := false }) ?_ nofun hs)
    show p.retriable (r.lower (.bindDst p)).FAILS_CLEANLY = true
    rw [lower_clean fun _ => rfl]; exact h
  | .construct tys p, sk, r, h, hr, hs => by
    refine adapt_retriable (skipper_retriable hs) (elab_retriable p
      (r := { (r.lower (.construct tys p)).derive with ATOMIC := false }) ?_ nofun hs)
    show p.retriable (r.lower (.construct tys p)).FAILS_CLEANLY = true
    rw [lower_clean fun _ => rfl]; exact h
  | .except p q, sk, r, h, hr, hs => by
    simp only [Pat.retriable, Bool.and_eq_true] at h
    refine adapt_retriable (skipper_retriable hs) ?_
    simp only [Prog.retriable, Bool.and_eq_true]
    exact ⟨elab_retriable p h.1 nofun hs, elab_retriable q h.2 nofun hs⟩
  | .list p q, sk, r, h, hr, hs => by
    simp only [Pat.retriable, Bool.and_eq_true] at h
    refine adapt_retriable (skipper_retriable hs) ?_
    simp only [Prog.retriable, Bool.and_eq_true]
    exact ⟨elab_retriable p h.1 nofun hs, elab_retriable q h.2 nofun hs⟩
  | .withSkipper p s, sk, r, h, hr, hs => by
    simp only [Pat.retriable, Bool.and_eq_true] at h
    exact adapt_retriable (skipper_retriable hs) (elab_retriable p (r := r.lower (.withSkipper p s))
      (by rw [lower_withSkipper hr]; exact h.1) (lower_recur hr) (elab_retriable s h.2 nofun rfl))
  | .recur _ _, sk, r, h, hr, hs => adapt_retriable (skipper_retriable hs) hs
  | .char _, sk, r, h, hr, hs => adapt_retriable (skipper_retriable hs) rfl
  | .charSymbol _, sk, r, h, hr, hs => adapt_retriable (skipper_retriable hs) rfl
  | .strLit _, sk, r, h, hr, hs => adapt_retriable (skipper_retriable hs) rfl
  | .symbol _, sk, r, h, hr, hs => adapt_retriable (skipper_retriable hs) rfl
  | .int .., sk, r, h, hr, hs => adapt_retriable (skipper_retriable hs) rfl
  | .uint .., sk, r, h, hr, hs => adapt_retriable (skipper_retriable hs) rfl
  | .eoi, sk, r, h, hr, hs => adapt_retriable (skipper_retriable hs) rfl
  | .pass, sk, r, h, hr, hs => adapt_retriable (skipper_retriable hs) rfl
  | .fail, sk, r, h, hr, hs => adapt_retriable (skipper_retriable hs) rfl
theorem elab_retriables : ∀ (ps : List Pat) {sk r}, Pat.retriables r.FAILS_CLEANLY ps = true →
    (r.recurChild = true → r.FAILS_CLEANLY = false) → sk.retriable = true →
    Prog.retriables (elabPs sk r ps) = true
  | [], _, _, _, _, _ => rfl
  | p :: ps, sk, r, h, hr, hs => by
    simp only [Pat.retriables, Bool.and_eq_true] at h
    simp only [elabPs, Prog.retriables, Bool.and_eq_true]
    exact ⟨elab_retriable p h.1 hr hs, elab_retriables ps h.2 hr hs⟩
end

theorem Env.retriable.prog {env : Env} (h : env.retriable) : env.retriable' :=
  fun _ _ _ h1 h2 => elab_retriable _ (h _ _ h1) (fun _ => rfl) h2

theorem retrying_pat {M T env} (p : Pat) (dst m ops v) (he : env.retriable) (hp : p.retriable false = true) :
    MakeParserRunBy (retrying M T env) p dst m ops v ↔ MakeParserRunBy (persisting T env) p dst m ops v := by
  have hp' : (topParser p).retriable = true := elab_retriable p (r := DefaultReqs) hp nofun rfl
  exact ⟨fun h => h.congr fun st w o => (retrying_iff he.prog _ hp' dst dst st w o).1,
    fun h => h.congr fun st w o => (retrying_iff he.prog _ hp' dst dst st w o).2⟩

end Abu
