import Verif.Proofs.Complete
import Verif.Spec.Tidy
/-
The parsers of tidy patterns belong to the class of programs that implement the grammar.
-/
namespace Abu

theorem elabPs_length (sk : Prog) (r : Req) (ps : List Pat) : (elabPs sk r ps).length = ps.length := by
  induction ps with
  | nil => rfl
  | cons p ps ih => simp only [elabPs, List.length_cons, ih]

theorem tupleSlots_length (n : Nat) (ps : List Pat) : (tupleSlots n ps).length = ps.length := by
  induction ps generalizing n with
  | nil => rfl
  | cons p ps ih =>
    simp only [tupleSlots]
    split <;> simp [ih]

theorem Impl.comp {K useSk els elf sk full c ls lf P p} (hK : useSk = true → Comp K)
    (h : Impl K useSk els elf sk full c ls lf P p) : Comp P := by
  induction h with
  | plain _ ih => exact ih
  | skip hu _ ih => exact .skip (hK hu) ih
  | leaf h => cases h <;> constructor
  | clean _ ih => exact .clean ih
  | atomic _ ih => exact .atomic ih
  | seq hne hl hsl _ ih =>
    refine .seq hne hsl fun P hP => ?_
    obtain ⟨k, hk, rfl⟩ := List.getElem_of_mem hP
    exact ih k _ _ (List.getElem?_eq_getElem hk) (List.getElem?_eq_getElem (by omega))
  | alt hne hl _ ih =>
    refine .alt hne fun P hP => ?_
    obtain ⟨k, hk, rfl⟩ := List.getElem_of_mem hP
    exact ih k _ _ (List.getElem?_eq_getElem hk) (List.getElem?_eq_getElem (by omega))
  | rep _ ih => exact .rep ih
  | opt _ _ ih => exact .opt ih
  | not _ ih => exact .not ih
  | discard _ ih => exact .discard ih
  | lexeme _ _ ih => exact .lexeme ih
  | lexemeClean _ _ ih => exact .lexeme (.clean ih)
  | bindDst _ ih => exact .bindDst ih
  | construct _ ih => exact .construct ih
  | action _ ih => exact .action ih
  | except _ _ ih1 ih2 => exact .except ih1 ih2
  | list _ _ ih1 ih2 => exact .list ih1 ih2
  | @recur sk _ _ _ _ hu => 
    refine .recur ?_
    cases sk
    · exact .fail
    · exact hK (hu rfl)

/-- Construction of the parser creates no rollback point. -/
theorem marks_adapt {at' cl} {raw : Prog} :
    marks (adapt .fail at' cl raw) = marks raw + if cl then 1 else 0 := by
  cases at' <;> cases cl <;> rfl

theorem marks_adapt_skip {K : Prog} {at' cl} {raw : Prog} :
    marks (adapt K at' cl raw) = (if K.isFail then 0 else marks K) + marks raw + if cl then 1 else 0 := by
  cases at' <;> cases cl <;> simp only [adapt] <;> cases K.isFail <;> simp [marks] <;> omega

theorem Req.lower_fc {r : Req} {p : Pat} (h : (r.lower p).FAILS_CLEANLY = true) :
    r.FAILS_CLEANLY = true := by
  unfold Req.lower at h
  split at h
  · exact h
  · exact band_left h

theorem Req.needsClean_fc {r : Req} {p : Pat} (h : r.needsClean p = true) :
    r.FAILS_CLEANLY = true ∧ p.FAILS_CLEANLY = false := by
  unfold Req.needsClean at h
  simp only [Bool.and_eq_true, Bool.not_eq_true'] at h
  exact ⟨h.1.2, h.2⟩

theorem Req.needsClean_not {r : Req} {p : Pat} {c : Bool} (h : r.FAILS_CLEANLY = true → c = true)
    (hc : (!c) = true) : r.needsClean p = false := by
  cases hn : r.needsClean p with
  | false => rfl
  | true => have := h (Req.needsClean_fc hn).1; simp [this] at hc

theorem Req.skipper_fail (r : Req) : r.skipper .fail = .fail := by
  unfold Req.skipper; split <;> rfl

theorem Req.needsClean_of {r : Req} {p : Pat} (h : p.FAILS_CLEANLY = true) :
    r.needsClean p = false := by
  cases hn : r.needsClean p with
  | false => rfl
  | true => have := (Req.needsClean_fc hn).2; rw [h] at this; cases this

theorem noMark_marks : ∀ (p : Pat) {r : Req} {c}, (r.FAILS_CLEANLY = true → c = true) →
    p.noMark c = true → marks (elabP .fail r p) = 0
  | .char _, r, c, hr, h => by simp [elabP, Req.skipper_fail, marks_adapt, marks]
  | .charSymbol _, r, c, hr, h => by simp [elabP, Req.skipper_fail, marks_adapt, marks]
  | .eoi, r, c, hr, h => by simp [elabP, Req.skipper_fail, marks_adapt, marks]
  | .pass, r, c, hr, h => by simp [elabP, Req.skipper_fail, marks_adapt, marks]
  | .fail, r, c, hr, h => by simp [elabP, Req.skipper_fail, marks_adapt, marks]
  | .strLit _, r, c, hr, h => by
    simp [elabP, Req.skipper_fail, marks_adapt, marks, Req.needsClean_not hr h]
  | .symbol _, r, c, hr, h => by
    simp [elabP, Req.skipper_fail, marks_adapt, marks, Req.needsClean_not hr h]
  | .int b mn mx, r, c, hr, h => by
    simp only [elabP, Req.skipper_fail, marks_adapt, marks]
    simp only [Pat.noMark, Bool.or_eq_true] at h
    rcases h with h | h
    · simp [Req.needsClean_not hr h]
    · simp [Req.needsClean_of (p := .int b mn mx) h]
  | .uint b mn mx, r, c, hr, h => by
    simp only [elabP, Req.skipper_fail, marks_adapt, marks]
    simp only [Pat.noMark, Bool.or_eq_true] at h
    rcases h with h | h
    · simp [Req.needsClean_not hr h]
    · simp [Req.needsClean_of (p := .uint b mn mx) h]
  | .seq [], r, c, hr, h => by cases h
  | .seq (p :: ps), r, c, hr, h => by
    have h1 := noMark_marks p (r := ⟨false, false, false, false⟩) (c := false) (by simp)
      (band_right h)
    simp only [elabP, elabPs, Req.skipper_fail, marks_adapt, marks, h1,
      Req.needsClean_not hr (band_left h)]; rfl
  | .alt [], r, c, hr, h => by cases h
  | .alt (p :: ps), r, c, hr, h => by
    simp only [elabP, elabPs, Req.skipper_fail, marks_adapt, marks,
      Req.needsClean_of (p := .alt (p :: ps)) rfl]
    rw [noMark_marks p (c := true) (by simp) h]; rfl
  | .rep mn mx p, r, c, hr, h => by
    simp only [elabP, Req.skipper_fail, marks_adapt, marks, Req.needsClean_not hr (band_left h)]
    rw [noMark_marks p (c := (mn != mx || mx == 0)) (by simp) (band_right h)]; rfl
  | .discard p, r, c, hr, h => by
    simp only [elabP, Req.skipper_fail, marks_adapt, marks, Req.needsClean_of (p := .discard p) rfl]
    rw [noMark_marks p (c := c) (fun h => hr (Req.lower_fc h)) h]; rfl
  | .lexeme p, r, c, hr, h => by
    simp only [elabP, Req.skipper_fail, marks_adapt, marks, Req.needsClean_of (p := .lexeme p) rfl]
    rw [noMark_marks p (c := c) (fun h => hr (Req.lower_fc h)) h]; rfl
  | .bindDst p, r, c, hr, h => by
    simp only [elabP, Req.skipper_fail, marks_adapt, marks, Req.needsClean_of (p := .bindDst p) rfl]
    have := noMark_marks p (r := { (r.lower (.bindDst p)).derive with ATOMIC := false }) (c := c) (fun h => hr (Req.lower_fc (p := .bindDst p) h)) h
    rw [this]; rfl
  | .construct tys p, r, c, hr, h => by
    simp only [elabP, Req.skipper_fail, marks_adapt, marks,
      Req.needsClean_of (p := .construct tys p) rfl]
    have := noMark_marks p (r := { (r.lower (.construct tys p)).derive with ATOMIC := false }) (c := c) (fun h => hr (Req.lower_fc (p := .construct tys p) h)) h
    rw [this]; rfl
  | .action a p, r, c, hr, h => by
    simp only [elabP, Req.skipper_fail, marks_adapt, marks,
      Req.needsClean_of (p := .action a p) rfl]
    have := noMark_marks p (r := ⟨false, (r.lower (.action a p)).FAILS_CLEANLY, r.CONSUMES, false⟩) (c := c) (fun h => hr (Req.lower_fc (p := .action a p) h)) h
    rw [this]; rfl
  | .except op neg, r, c, hr, h => by
    simp only [elabP, Req.skipper_fail, marks_adapt, marks, Req.needsClean_not hr (band_left h)]
    rw [noMark_marks neg (c := true) (by simp) (band_right h)]; rfl
  | .recur id n, r, c, hr, h => by
    simp only [elabP, Req.skipper_fail, marks_adapt, marks, Req.needsClean_not hr h]; rfl
  | .withSkipper p s, r, c, hr, h => by cases h
  | .opt _, r, c, hr, h => by cases h
  | .not _, r, c, hr, h => by cases h
  | .list _ _, r, c, hr, h => by cases h

section
variable {K : Prog} {useSk : Bool} {els elf : Stale}

theorem Stale.under_false (a : Stale) : a.under false = a := rfl

theorem partLeft_succ (ls lf : Stale) (k n : Nat) :
    partLeft ls lf (k + 1) (n + 1) = partLeft ls.later lf.later k n := by
  unfold partLeft
  rw [if_neg (by omega)]
  by_cases h : k + 1 = n
  · rw [if_pos (by omega), if_pos h, Stale.later_later]; split <;> rfl
  · rw [if_neg (by omega), if_neg h, Stale.later_meet, Stale.later_meet, Stale.later_later,
      Stale.later_later]
    split <;> rfl

theorem partLost_succ (lf : Stale) (k : Nat) : partLost lf (k + 1) = partLost lf.later k := by
  unfold partLost
  rw [if_neg (by omega), Stale.later_later]; split <;> rfl

theorem adapt_impl {sk c ls lf raw p at' cl} {r : Req} (hKf : K.isFail = false)
    (hu : sk = true → useSk = true) (hrc : r.recurChild = true → r.FAILS_CLEANLY = false)
    (hc : c = r.FAILS_CLEANLY) (hcl : cl = r.needsClean p)
    (h : Impl K useSk els elf sk false (c && p.FAILS_CLEANLY) ls (lf.under (c && !p.FAILS_CLEANLY))
      raw p) :
    Impl K useSk els elf sk (!r.recurChild) c ls lf
      (adapt (r.skipper (if sk then K else .fail)) at' cl raw) p := by
  subst hc hcl
  have core : Impl K useSk els elf sk false r.FAILS_CLEANLY ls lf
      (let a := if at' then .atomic raw else raw
       if r.needsClean p then .clean a else a) p := by
    cases hn : r.needsClean p with
    | true =>
      obtain ⟨h1, h2⟩ := Req.needsClean_fc hn
      rw [h1, h2] at h
      have h : Impl K useSk els elf sk false false ls (lf.meet .start) raw p := by
        simpa [Stale.under] using h
      cases at'
      · exact .clean h
      · exact .clean (.atomic h)
    | false =>
      have hcf : r.FAILS_CLEANLY = true → p.FAILS_CLEANLY = true := by
        intro hr
        unfold Req.needsClean at hn
        rw [hr] at hn
        cases hrc' : r.recurChild with
        | true => rw [hrc hrc'] at hr; cases hr
        | false =>
          rw [hrc'] at hn
          simpa using hn
      have e1 : (r.FAILS_CLEANLY && p.FAILS_CLEANLY) = r.FAILS_CLEANLY := by
        cases hr : r.FAILS_CLEANLY with
        | false => rfl
        | true => rw [hcf hr]; rfl
      have e2 : (r.FAILS_CLEANLY && !p.FAILS_CLEANLY) = false := by
        cases hr : r.FAILS_CLEANLY with
        | false => rfl
        | true => rw [hcf hr]; rfl
      rw [e1, e2] at h
      have h : Impl K useSk els elf sk false r.FAILS_CLEANLY ls lf raw p := by
        simpa [Stale.under] using h
      cases at'
      · exact h
      · exact .atomic h
  unfold adapt Req.skipper
  cases r.recurChild with
  | true => simpa [Prog.isFail] using core
  | false =>
    cases sk with
    | false => simpa [Prog.isFail] using Impl.plain core
    | true => simpa [hKf] using Impl.skip (hu rfl) core

theorem elab_clean {r : Req} {p : Pat} (hr : r.recurChild = false) (hc : r.FAILS_CLEANLY = true)
    (hp : p.FAILS_CLEANLY = false) (hm : p.noMark false = true) :
    elabP .fail r p = .clean (elabP .fail { r with FAILS_CLEANLY := false } p) := by
  have h1 : r.needsClean p = true := by simp [Req.needsClean, hr, hc, hp]
  have h2 : ({ r with FAILS_CLEANLY := false } : Req).needsClean p = false := by
    simp [Req.needsClean]
  cases p <;> simp only [Pat.FAILS_CLEANLY, Bool.true_eq_false] at hp
  case withSkipper => cases hm
  all_goals
    simp only [elabP, h1, h2, Req.skipper_fail, adapt, Prog.isFail, if_true]
    try rfl
  case except op neg =>
    simp [Req.needsAtomic, Pat.ATOMIC, Req.lower, hr, Req.derive]

theorem lexeme_impl {sk c ls lf p} {r : Req} (hr : r.recurChild = true → r.FAILS_CLEANLY = false)
    (hc : c = r.FAILS_CLEANLY)
    (h : Impl K useSk els elf false (!r.recurChild) c ls lf (elabP .fail r p) p)
    (hm : (!sk || p.noMark (c && p.FAILS_CLEANLY)) = true) :
    Impl K useSk els elf sk false c ls lf (.lexeme (elabP .fail r p)) (.lexeme p) := by
  have h' : Impl K useSk els elf false false c ls lf (elabP .fail r p) p := by
    cases hrc : r.recurChild with
    | true => rw [hrc] at h; exact h
    | false =>
      rw [hrc] at h
      cases h; assumption
  cases sk with
  | false => exact .lexeme h' (by simp)
  | true =>
    have hm : p.noMark (c && p.FAILS_CLEANLY) = true := by simpa using hm
    by_cases hcl : c = true ∧ p.FAILS_CLEANLY = false
    · obtain ⟨h1, h2⟩ := hcl
      have hrc : r.recurChild = false := by
        cases hrc : r.recurChild with
        | false => rfl
        | true => rw [hr hrc] at hc; rw [hc] at h1; cases h1
      rw [h2, Bool.and_false] at hm
      rw [elab_clean hrc (hc ▸ h1) h2 hm] at h' ⊢
      cases h' with
      | leaf h => cases h
      | clean h' =>
        exact .lexemeClean h' (noMark_marks p (c := false) (by simp) hm)
    · refine .lexeme h' fun _ => noMark_marks p (c := c && p.FAILS_CLEANLY) ?_ hm
      intro hf
      rw [← hc] at hf
      rw [hf]
      cases hpf : p.FAILS_CLEANLY with
      | true => rfl
      | false => exact absurd ⟨hf, hpf⟩ hcl

theorem Req.lower_rc (r : Req) (p : Pat) : (r.lower p).recurChild = r.recurChild := by
  unfold Req.lower; split <;> rfl

theorem Req.lower_fc_eq {r : Req} {p : Pat} (h : p.FAILS_CLEANLY = true) :
    (r.lower p).FAILS_CLEANLY = r.FAILS_CLEANLY := by
  unfold Req.lower; split
  · rfl
  · simp [Req.needsClean_of h]

variable (hKf : K.isFail = false)
include hKf

mutual
theorem impl_elab : ∀ (p : Pat) {sk c ls lf} {r : Req}, (sk = true → useSk = true) →
    (r.recurChild = true → r.FAILS_CLEANLY = false) → c = r.FAILS_CLEANLY →
    p.tidy sk els elf c ls lf = true →
    Impl K useSk els elf sk (!r.recurChild) c ls lf (elabP (if sk then K else .fail) r p) p
  | .char s, sk, c, ls, lf, r, hu, hr, hc, h => by
    rw [elabP]
    exact adapt_impl hKf hu hr hc (Req.needsClean_of rfl).symm (.leaf .char)
  | .charSymbol _, sk, c, ls, lf, r, hu, hr, hc, h => by cases h
  | .strLit _, sk, c, ls, lf, r, hu, hr, hc, h => by
    rw [elabP]
    exact adapt_impl hKf hu hr hc rfl (by rw [Pat.FAILS_CLEANLY, Bool.and_false]; exact .leaf .strLit)
  | .symbol _, sk, c, ls, lf, r, hu, hr, hc, h => by
    rw [elabP]
    exact adapt_impl hKf hu hr hc rfl (by rw [Pat.FAILS_CLEANLY, Bool.and_false]; exact .leaf .symbol)
  | .int b mn mx, sk, c, ls, lf, r, hu, hr, hc, h => by
    rw [elabP]
    refine adapt_impl hKf hu hr hc rfl ?_
    have h1 : mx = 0 ∨ mn ≤ mx := by have := band_left h; simpa using this
    have h2 := band_right h
    have : (c && (Pat.int b mn mx).FAILS_CLEANLY) = false := by
      cases c
      · rfl
      · simpa [Pat.FAILS_CLEANLY] using h2
    rw [this]; exact .leaf (.int h1)
  | .uint b mn mx, sk, c, ls, lf, r, hu, hr, hc, h => by
    rw [elabP]
    refine adapt_impl hKf hu hr hc rfl ?_
    have h1 : mx = 0 ∨ mn ≤ mx := by simpa [Pat.tidy] using h
    cases hx : (c && (Pat.uint b mn mx).FAILS_CLEANLY) with
    | false => exact .leaf (.uint h1)
    | true =>
      have hx := band_right hx
      simp only [Pat.FAILS_CLEANLY, beq_iff_eq] at hx
      subst hx
      exact .leaf (.uint1 (by omega))
  | .eoi, sk, c, ls, lf, r, hu, hr, hc, h => by
    rw [elabP]
    exact adapt_impl hKf hu hr hc (Req.needsClean_of rfl).symm (.leaf .eoi)
  | .pass, sk, c, ls, lf, r, hu, hr, hc, h => by
    rw [elabP]
    exact adapt_impl hKf hu hr hc (Req.needsClean_of rfl).symm (.leaf .pass)
  | .fail, sk, c, ls, lf, r, hu, hr, hc, h => by
    rw [elabP]
    exact adapt_impl hKf hu hr hc (Req.needsClean_of rfl).symm (.leaf .fail)
  | .seq ps, sk, c, ls, lf, r, hu, hr, hc, h => by
    rw [elabP]
    refine adapt_impl hKf hu hr hc rfl ?_
    rw [Pat.FAILS_CLEANLY, Bool.and_false, Bool.not_false, Bool.and_true]
    have h1 := band_left h
    have h2 := band_right h
    refine .seq ?_ (elabPs_length _ _ _).symm ?_ ?_
    · cases ps with
      | nil => cases h1
      | cons => simp [elabPs]
    · rw [tupleSlots_length, elabPs_length]
    · rw [elabPs_length]
      exact impl_seq ps hu h2
  | .alt ps, sk, c, ls, lf, r, hu, hr, hc, h => by
    rw [elabP]
    refine adapt_impl hKf hu hr hc rfl ?_
    have e : (c && !(Pat.alt ps).FAILS_CLEANLY) = false := by cases c <;> rfl
    rw [e, Stale.under_false]
    have h1 := band_left h
    have h2 := band_right h
    refine .alt ?_ (elabPs_length _ _ _).symm ?_
    · cases ps with
      | nil => cases h1
      | cons => simp [elabPs]
    · rw [elabPs_length]
      exact impl_alt ps hu rfl rfl h2
  | .rep mn mx p, sk, c, ls, lf, r, hu, hr, hc, h => by
    rw [elabP]
    refine adapt_impl hKf hu hr hc rfl ?_
    rw [Pat.FAILS_CLEANLY, Bool.and_false, Bool.not_false, Bool.and_true]
    exact .rep (impl_elab p (r := ⟨true, mn != mx || mx == 0, r.CONSUMES, false⟩) hu (by simp) rfl h)
  | .opt p, sk, c, ls, lf, r, hu, hr, hc, h => by
    rw [elabP]
    refine adapt_impl hKf hu hr hc rfl ?_
    have h1 := band_left h
    have h2 := band_right h
    exact .opt h1 (impl_elab p (r := ⟨true, false, r.CONSUMES, false⟩) hu (by simp) rfl h2)
  | .not p, sk, c, ls, lf, r, hu, hr, hc, h => by
    rw [elabP]
    refine adapt_impl hKf hu hr hc rfl ?_
    rw [Pat.FAILS_CLEANLY, Bool.not_true, Bool.and_false, Stale.under_false]
    exact .not (impl_elab p (r := { r.derive with ATOMIC := false, FAILS_CLEANLY := false }) hu
      (by simp) rfl h)
  | .discard p, sk, c, ls, lf, r, hu, hr, hc, h => by
    rw [elabP]
    refine adapt_impl hKf hu hr hc rfl ?_
    rw [Pat.FAILS_CLEANLY, Bool.not_true, Bool.and_false, Bool.and_true, Stale.under_false]
    have hfc : (r.lower (.discard p)).FAILS_CLEANLY = r.FAILS_CLEANLY := Req.lower_fc_eq rfl
    exact .discard (impl_elab p (r := r.lower (.discard p)) hu
      (by rw [Req.lower_rc, hfc]; exact hr) (by rw [hfc]; exact hc) h)
  | .lexeme p, sk, c, ls, lf, r, hu, hr, hc, h => by
    rw [elabP]
    refine adapt_impl hKf hu hr hc rfl ?_
    rw [Pat.FAILS_CLEANLY, Bool.not_true, Bool.and_false, Bool.and_true, Stale.under_false]
    have hfc : (r.lower (.lexeme p)).FAILS_CLEANLY = r.FAILS_CLEANLY := Req.lower_fc_eq rfl
    refine lexeme_impl (by rw [Req.lower_rc, hfc]; exact hr) (by rw [hfc]; exact hc)
      (impl_elab p (sk := false) (r := r.lower (.lexeme p)) (by simp)
      (by rw [Req.lower_rc, hfc]; exact hr) (by rw [hfc]; exact hc) (band_right h)) (band_left h)
  | .bindDst p, sk, c, ls, lf, r, hu, hr, hc, h => by
    rw [elabP]
    refine adapt_impl hKf hu hr hc rfl ?_
    rw [Pat.FAILS_CLEANLY, Bool.not_true, Bool.and_false, Bool.and_true, Stale.under_false]
    have hfc : (r.lower (.bindDst p)).FAILS_CLEANLY = r.FAILS_CLEANLY := Req.lower_fc_eq rfl
    exact .bindDst (impl_elab p (r := { (r.lower (.bindDst p)).derive with ATOMIC := false }) hu
      (by simp [Req.derive]) (by simp only [Req.derive]; rw [hfc]; exact hc) h)
  | .construct tys p, sk, c, ls, lf, r, hu, hr, hc, h => by
    rw [elabP]
    refine adapt_impl hKf hu hr hc rfl ?_
    rw [Pat.FAILS_CLEANLY, Bool.not_true, Bool.and_false, Bool.and_true, Stale.under_false]
    have hfc : (r.lower (.construct tys p)).FAILS_CLEANLY = r.FAILS_CLEANLY := Req.lower_fc_eq rfl
    exact .construct (impl_elab p (r := { (r.lower (.construct tys p)).derive with ATOMIC := false })
      hu (by simp [Req.derive]) (by simp only [Req.derive]; rw [hfc]; exact hc) h)
  | .action a p, sk, c, ls, lf, r, hu, hr, hc, h => by
    rw [elabP]
    refine adapt_impl hKf hu hr hc rfl ?_
    rw [Pat.FAILS_CLEANLY, Bool.not_true, Bool.and_false, Bool.and_true, Stale.under_false]
    have hfc : (r.lower (.action a p)).FAILS_CLEANLY = r.FAILS_CLEANLY := Req.lower_fc_eq rfl
    exact .action (impl_elab p
      (r := ⟨false, (r.lower (.action a p)).FAILS_CLEANLY, r.CONSUMES, false⟩)
      hu (by simp) (by simp only; rw [hfc]; exact hc) h)
  | .except op neg, sk, c, ls, lf, r, hu, hr, hc, h => by
    rw [elabP]
    refine adapt_impl hKf hu hr hc rfl ?_
    rw [Pat.FAILS_CLEANLY, Bool.and_false, Bool.not_false, Bool.and_true]
    exact .except (impl_elab op
        (r := { (r.lower (.except op neg)).derive with FAILS_CLEANLY := false }) hu
        (by simp) rfl (band_left h))
      (impl_elab neg (r := ⟨false, true, false, false⟩) hu (by simp) rfl (band_right h))
  | .list op sep, sk, c, ls, lf, r, hu, hr, hc, h => by
    rw [elabP]
    refine adapt_impl hKf hu hr hc rfl ?_
    exact .list (impl_elab op (r := ⟨true, false, false, false⟩) hu (by simp) rfl (band_left h))
      (impl_elab sep (r := ⟨false, false, false, false⟩) hu (by simp) rfl (band_right h))
  | .withSkipper p s, sk, c, ls, lf, r, hu, hr, hc, h => by cases h
  | .recur id n, sk, c, ls, lf, r, hu, hr, hc, h => by
    rw [elabP]
    refine adapt_impl hKf hu hr hc rfl ?_
    rw [Pat.FAILS_CLEANLY, Bool.and_false, Bool.not_false, Bool.and_true]
    have h1 := band_left h
    have h2 := band_right h
    exact .recur hu h1 h2
theorem impl_seq : ∀ (ps : List Pat) {sk ls lf}, (sk = true → useSk = true) →
    Pat.tidySeq sk els elf ls lf ps = true →
    ∀ (k : Nat) (P : Prog) (p : Pat),
      (elabPs (if sk then K else .fail) ⟨false, false, false, false⟩ ps)[k]? = some P →
      ps[k]? = some p →
      Impl K useSk els elf sk true false (partLeft ls lf k ps.length) (partLost lf k) P p
  | [], _, _, _, _, _ => by intro k P p h; simp [elabPs] at h
  | q :: qs, sk, ls, lf, hu, h => by
    intro k P p hP hp
    rw [elabPs] at hP
    cases k with
    | zero =>
      cases hP
      cases hp
      have e : partLeft ls lf 0 (q :: qs).length = if qs.isEmpty then ls else ls.meet lf := by
        cases qs <;> rfl
      rw [e]
      exact impl_elab q (r := ⟨false, false, false, false⟩) hu (by simp) rfl (band_left h)
    | succ k =>
      rw [List.length_cons, partLeft_succ, partLost_succ]
      exact impl_seq qs hu (band_right h) k P p hP hp
theorem impl_alt : ∀ (ps : List Pat) {sk ls lf} {r : Req}, (sk = true → useSk = true) →
    r.recurChild = false → r.FAILS_CLEANLY = true →
    Pat.tidyAlt sk els elf ls lf ps = true →
    ∀ (k : Nat) (P : Prog) (p : Pat),
      (elabPs (if sk then K else .fail) r ps)[k]? = some P →
      ps[k]? = some p →
      Impl K useSk els elf sk true true ls
        (if k + 1 = ps.length then lf else ls.meet lf) P p
  | [], _, _, _, _, _, _, _, _ => by intro k P p h; simp [elabPs] at h
  | q :: qs, sk, ls, lf, r, hu, h1, h2, h => by
    intro k P p hP hp
    rw [elabPs] at hP
    cases k with
    | zero =>
      cases hP
      cases hp
      have e : (if 0 + 1 = (q :: qs).length then lf else ls.meet lf) =
          if qs.isEmpty then lf else ls.meet lf := by
        cases qs <;> simp
      rw [e]
      have := impl_elab q (r := r) hu (by simp [h1]) h2.symm (band_left h)
      rw [h1] at this; exact this
    | succ k =>
      have := impl_alt qs hu h1 h2 (band_right h) k P p hP hp
      have e : (if k + 1 + 1 = (q :: qs).length then lf else ls.meet lf) =
          if k + 1 = qs.length then lf else ls.meet lf := by simp
      rw [e]; exact this
end

end

end Abu
