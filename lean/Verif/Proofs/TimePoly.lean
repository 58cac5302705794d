import Verif.Proofs.TimeBound
import Verif.Proofs.Terminates
import Verif.Spec.Time
/-
The number of iterations is a polynomial in the length of the text.
-/
namespace Abu

/-- Wherever constructed, on any text, the parser returns after a number of iterations bounded by
a polynomial of degree `d`. -/
def TakesPoly (P : Prog) (d : Nat) : Prop :=
  ∃ K, ∀ t, TakesAt (fun _ => none) t P (K * (t.length + 1) ^ d)

theorem pow_pos' (L d : Nat) : 1 ≤ (L + 1) ^ d := Nat.pow_pos (Nat.succ_pos L)

theorem TakesPoly.of {P d} (h : ∃ A B : Nat, ∀ t, TakesAt (fun _ => none) t P
    (A * (t.length + 1) ^ d + B)) : TakesPoly P d := by
  obtain ⟨A, B, h⟩ := h
  refine ⟨A + B, fun t => (h t).mono ?_⟩
  rw [Nat.add_mul]
  have := Nat.mul_le_mul_left B (pow_pos' t.length d)
  omega

theorem TakesPoly.mono {P d e} (h : TakesPoly P d) (hd : d ≤ e) : TakesPoly P e := by
  obtain ⟨K, h⟩ := h
  exact ⟨K, fun t => (h t).mono (Nat.mul_le_mul_left _ (Nat.pow_le_pow_right (by omega) hd))⟩

theorem noEnv_comp (_ : Nat) (q : Pat) (sk : Prog) (h : (none : Option Pat) = some q) :
    Comp sk → Comp (elabP sk RecurChildReqs q) := by cases h

theorem noEnv_eats (c : Nat → Bool) (id : Nat) (q : Pat) (h : (none : Option Pat) = some q) :
    c id = true → q.eats c = true := by cases h

section
variable {c : Nat → Bool}

theorem takesPoly_leaf {P : Prog} (hl : P.isLeaf = true) {d}
    (h : ∃ K, ∀ L, P.leafSteps L ≤ K * (L + 1) ^ d) : TakesPoly P d := by
  obtain ⟨K, h⟩ := h
  refine ⟨K, fun t lo i own S hs => ?_⟩
  obtain ⟨n, r, st', i', hr, _⟩ := leaf_halts (env := fun _ => none) (t := t) hl i (own ++ S)
  exact ⟨r, i', _, _, .leaf hl hr, Nat.le_trans (steps_leaf_le hl hs.high _ _) (h _)⟩

theorem takesPoly_once {P p d} (hP : Comp P) (hl : P.isLeaf = false)
    (hr : ∀ id sk, P ≠ .recur id sk)
    (hch : childOf P (fresh P) = some (p, fresh p)) (hp : TakesPoly p d)
    (hno : ∀ r cs i S st2 i2 S2, after P (fresh P) r cs i S ≠ some (.cont st2 i2 S2)) :
    TakesPoly P d := by
  obtain ⟨K, h⟩ := hp
  exact .of ⟨K, 1, fun t => takesAt_once (c := fun _ => false) noEnv_comp (noEnv_eats _) hP hl hr hch
    (h t) hno⟩

/-- A skipper that consumes, with a polynomial one degree below `sk`. -/
structure SkipsPoly (c : Nat → Bool) (sk : Nat) (K : Prog) : Prop where
  comp : Comp K
  eats : K.eats c = true
  takes : K.isFail = true ∨ ∃ d, TakesPoly K d ∧ d + 1 ≤ sk

theorem SkipsPoly.fail {sk} : SkipsPoly c sk .fail := ⟨.fail, rfl, .inl rfl⟩

theorem takesPoly_adapt {K raw sk d} {r : Req} {a b : Bool} (hK : SkipsPoly c sk K)
    (hc : Comp raw) (h : TakesPoly raw d) (hd : sk ≤ d) :
    TakesPoly (adapt (r.skipper K) a b raw) d := by
  have hA : TakesPoly (if a then .atomic raw else raw) d ∧ Comp (if a then .atomic raw else raw) := by
    cases a with
    | false => exact ⟨h, hc⟩
    | true => exact ⟨takesPoly_once (.atomic hc) rfl (by simp) rfl h
        (by intro r; intros; cases r <;> simp [after, fresh]), .atomic hc⟩
  generalize hx : (if a then Prog.atomic raw else raw) = x at hA
  have hB : TakesPoly (if b then .clean x else x) d ∧ Comp (if b then .clean x else x) := by
    cases b with
    | false => exact hA
    | true =>
      refine ⟨takesPoly_once (.clean hA.2) rfl (by simp) rfl hA.1 ?_, .clean hA.2⟩
      intro r cs i S; intros
      cases r <;> cases S <;> simp [after, fresh, back]
  have hS : SkipsPoly c sk (r.skipper K) := by
    unfold Req.skipper; split
    · exact .fail
    · exact hK
  unfold adapt
  simp only [hx]
  cases hf : (r.skipper K).isFail
  · simp only [Bool.false_eq_true, if_false]
    obtain ⟨e, ⟨A, hA'⟩, he⟩ := hS.takes.resolve_left (by simp [hf])
    obtain ⟨⟨B, hB1⟩, hB2⟩ := hB
    refine .of ⟨A + 1 + B, 1, fun t => (takesAt_skip (c := c) noEnv_comp (noEnv_eats _)
      hS.comp hB2 hS.eats (hA' t) (hB1 t)).mono ?_⟩
    have h1 : (t.length + 1) * (A * (t.length + 1) ^ e + 1) ≤ (A + 1) * (t.length + 1) ^ d := by
      have e1 : A * (t.length + 1) ^ e + 1 ≤ (A + 1) * (t.length + 1) ^ e := by
        have := pow_pos' t.length e
        rw [Nat.add_mul]; omega
      calc (t.length + 1) * (A * (t.length + 1) ^ e + 1)
          ≤ (t.length + 1) * ((A + 1) * (t.length + 1) ^ e) := Nat.mul_le_mul_left _ e1
        _ = (A + 1) * (t.length + 1) ^ (e + 1) := by
          rw [Nat.pow_succ]; ac_rfl
        _ ≤ _ := Nat.mul_le_mul_left _ (Nat.pow_le_pow_right (by omega) (by omega))
    rw [Nat.add_mul (A + 1) B]
    generalize (t.length + 1) * (A * (t.length + 1) ^ e + 1) = x at h1 ⊢
    omega
  · simp only [if_true]
    exact hB.1

theorem takesPoly_all {ps : List Prog} {d : Nat} (h : ∀ p ∈ ps, TakesPoly p d) :
    ∃ (C : Prog → Nat → Nat) (K : Nat), (∀ t, ∀ p ∈ ps, TakesAt (fun _ => none) t p (C p t.length)) ∧
      ∀ L, sumOf (fun p => C p L) ps ≤ K * (L + 1) ^ d := by
  have hC : ∃ f : Prog → Nat, ∀ p ∈ ps, ∀ t, TakesAt (fun _ => none) t p (f p * (t.length + 1) ^ d) := by
    refine Classical.skolem (p := fun p K => p ∈ ps → ∀ t, TakesAt (fun _ => none) t p
      (K * (t.length + 1) ^ d)) |>.1 fun p => ?_
    by_cases hp : p ∈ ps
    · obtain ⟨K, hK⟩ := h p hp
      exact ⟨K, fun _ => hK⟩
    · exact ⟨0, fun h => absurd h hp⟩
  obtain ⟨f, hf⟩ := hC
  refine ⟨fun p L => f p * (L + 1) ^ d, sumOf f ps, fun t p hp => hf p hp t, fun L => ?_⟩
  clear h hf
  induction ps with
  | nil => exact Nat.zero_le _
  | cons p ps ih =>
    simp only [sumOf, Nat.add_mul]
    have := pow_pos' L d
    simp only at ih
    omega

theorem Pat.sk_le (sk : Nat) : ∀ p : Pat, sk ≤ p.loops sk
  | .rep _ _ p => by rw [Pat.loops]; have := Pat.sk_le sk p; omega
  | .opt p | .not p | .discard p | .bindDst p | .construct _ p | .action _ p => by
    rw [Pat.loops]; exact Pat.sk_le sk p
  | .except op neg => by rw [Pat.loops]; have := Pat.sk_le sk op; omega
  | .list op sep => by rw [Pat.loops]; have := Pat.sk_le sk op; omega
  | .seq _ | .alt _ | .lexeme _ | .withSkipper .. | .int .. | .uint .. => by
    rw [Pat.loops]; omega
  | .char _ | .charSymbol _ | .strLit _ | .symbol _ | .eoi | .pass | .fail | .recur .. => by
    simp [Pat.loops]

theorem Pat.loopsMax_mem {sk : Nat} {ps : List Pat} {p : Pat} (h : p ∈ ps) :
    p.loops sk ≤ Pat.loopsMax sk ps := by
  induction ps with
  | nil => cases h
  | cons q ps ih =>
    rw [Pat.loopsMax]
    rcases List.mem_cons.1 h with rfl | h
    · omega
    · have := ih h; omega

theorem Pat.refsAll_nil {ps : List Pat} (h : Pat.refsAll ps = []) : ∀ p ∈ ps, p.refs = [] := by
  intro p hp
  refine List.eq_nil_iff_forall_not_mem.2 fun a ha => ?_
  have := Pat.refsAll_mem hp a ha
  rw [h] at this; cases this

/-- At most a constant, for parsers without children but numbers. -/
theorem leaf_const {f : Nat → Nat} (B : Nat) (h : ∀ L, f L = B) (d : Nat) :
    ∃ K, ∀ L, f L ≤ K * (L + 1) ^ d := by
  refine ⟨B, fun L => ?_⟩
  rw [h]
  have := Nat.mul_le_mul_left B (pow_pos' L d)
  omega

theorem leaf_number {mx B : Nat} {d : Nat} (hd : (if mx = 0 then 1 else 0) ≤ d) :
    ∃ K, ∀ L, (if mx = 0 then L else mx) + B ≤ K * (L + 1) ^ d := by
  by_cases h : mx = 0
  · refine ⟨B + 1, fun L => ?_⟩
    simp only [h, if_true] at hd ⊢
    have h1 : (L + 1) ^ 1 ≤ (L + 1) ^ d := Nat.pow_le_pow_right (by omega) hd
    rw [Nat.pow_one] at h1
    have h2 := Nat.mul_le_mul_left (B + 1) h1
    have h3 : (B + 1) * (L + 1) = B * L + B + (L + 1) := by
      rw [Nat.add_mul, Nat.mul_add]; omega
    omega
  · simp only [h, if_false]
    exact leaf_const _ (fun _ => rfl) d

theorem mul_poly {A L d : Nat} (b : Nat) : b * (A * (L + 1) ^ d + 1) ≤ (b * (A + 1)) * (L + 1) ^ d := by
  rw [Nat.mul_assoc]
  refine Nat.mul_le_mul_left _ ?_
  rw [Nat.add_mul]
  have := pow_pos' L d
  omega

theorem takesPoly_elab : ∀ (p : Pat), p.refs = [] → p.loopsEat c = true →
    ∀ K r sk, SkipsPoly c sk K → TakesPoly (elabP K r p) (p.loops sk)
  | .char s, _, hl, K, r, sk, hK =>
    takesPoly_adapt hK .char (takesPoly_leaf rfl (leaf_const _ (fun _ => rfl) _)) (Pat.sk_le _ _)
  | .charSymbol s, _, hl, K, r, sk, hK =>
    takesPoly_adapt hK .charSymbol (takesPoly_leaf rfl (leaf_const _ (fun _ => rfl) _)) (Pat.sk_le _ _)
  | .strLit s, _, hl, K, r, sk, hK =>
    takesPoly_adapt hK .strLit (takesPoly_leaf rfl (leaf_const _ (fun _ => rfl) _)) (Pat.sk_le _ _)
  | .symbol s, _, hl, K, r, sk, hK =>
    takesPoly_adapt hK .symbol (takesPoly_leaf rfl (leaf_const _ (fun _ => rfl) _)) (Pat.sk_le _ _)
  | .int b mn mx, _, hl, K, r, sk, hK =>
    takesPoly_adapt hK .int (takesPoly_leaf rfl (leaf_number (B := 2) (by rw [Pat.loops]; omega)))
      (Pat.sk_le _ _)
  | .uint b mn mx, _, hl, K, r, sk, hK =>
    takesPoly_adapt hK .uint (takesPoly_leaf rfl (leaf_number (B := 1) (by rw [Pat.loops]; omega)))
      (Pat.sk_le _ _)
  | .eoi, _, hl, K, r, sk, hK =>
    takesPoly_adapt hK .eoi (takesPoly_leaf rfl (leaf_const _ (fun _ => rfl) _)) (Pat.sk_le _ _)
  | .pass, _, hl, K, r, sk, hK =>
    takesPoly_adapt hK .pass (takesPoly_leaf rfl (leaf_const _ (fun _ => rfl) _)) (Pat.sk_le _ _)
  | .fail, _, hl, K, r, sk, hK =>
    takesPoly_adapt hK .fail (takesPoly_leaf rfl (leaf_const _ (fun _ => rfl) _)) (Pat.sk_le _ _)
  | .seq ps, hr, hl, K, r, sk, hK => by
    have hcomp := comp_loops c (.seq ps) (r := RecurChildReqs) hK.comp hl
    rw [elabP] at hcomp ⊢
    change Comp (.seq _ _) at hcomp
    refine takesPoly_adapt hK hcomp ?_ (Pat.sk_le _ _)
    have hall : ∀ P ∈ elabPs K ⟨false, false, false, false⟩ ps, TakesPoly P (Pat.loops sk (.seq ps)) := by
      intro P hP
      obtain ⟨k, hk⟩ := List.getElem?_of_mem hP
      obtain ⟨p, hk', rfl⟩ := elabPs_get hk
      have hm := List.mem_of_getElem? hk'
      refine (takesPoly_elab p (Pat.refsAll_nil hr p hm) (Pat.allLoopsEat_mem (band_right hl) p hm)
        K _ sk hK).mono ?_
      rw [Pat.loops]
      have := Pat.loopsMax_mem (sk := sk) hm
      omega
    obtain ⟨C, A, h1, h2⟩ := takesPoly_all hall
    exact ⟨A, fun t => (takesAt_seq (c := c) noEnv_comp (noEnv_eats _) hcomp (h1 t)).mono (h2 _)⟩
  | .alt ps, hr, hl, K, r, sk, hK => by
    rw [elabP]
    have hcomp : Comp (.alt (elabPs K { (r.lower (.alt ps)).derive with FAILS_CLEANLY := true } ps)) := by
      refine .alt ?_ (comp_allLoops c ps hK.comp (band_right hl))
      have := band_left hl
      cases ps with
      | nil => cases this
      | cons => simp [elabPs]
    refine takesPoly_adapt hK hcomp ?_ (Pat.sk_le _ _)
    have hall : ∀ P ∈ elabPs K { (r.lower (.alt ps)).derive with FAILS_CLEANLY := true } ps,
        TakesPoly P (Pat.loops sk (.alt ps)) := by
      intro P hP
      obtain ⟨k, hk⟩ := List.getElem?_of_mem hP
      obtain ⟨p, hk', rfl⟩ := elabPs_get hk
      have hm := List.mem_of_getElem? hk'
      refine (takesPoly_elab p (Pat.refsAll_nil hr p hm) (Pat.allLoopsEat_mem (band_right hl) p hm)
        K _ sk hK).mono ?_
      rw [Pat.loops]
      have := Pat.loopsMax_mem (sk := sk) hm
      omega
    obtain ⟨C, A, h1, h2⟩ := takesPoly_all hall
    exact ⟨A, fun t => (takesAt_alt (c := c) noEnv_comp (noEnv_eats _) hcomp (h1 t)).mono (h2 _)⟩
  | .rep mn mx p, hr, hl, K, r, sk, hK => by
    have hl' := band_right hl
    rw [elabP]
    have hcp := comp_loops c p (r := ⟨true, mn != mx || mx == 0, r.CONSUMES, false⟩) hK.comp hl'
    refine takesPoly_adapt hK (.rep hcp) ?_ (Pat.sk_le _ _)
    obtain ⟨A, h⟩ := takesPoly_elab p hr hl' K ⟨true, mn != mx || mx == 0, r.CONSUMES, false⟩ sk hK
    have he : mx ≠ 0 ∨ (elabP K ⟨true, mn != mx || mx == 0, r.CONSUMES, false⟩ p).eats c = true := by
      have := band_left hl
      rw [elabP_eats]
      simpa using this
    have hb : ∀ t, _ := fun t =>
      takesAt_rep (mn := mn) (c := c) (t := t) noEnv_comp (noEnv_eats _) hcp he (h t)
    rw [Pat.loops]
    by_cases hmx : mx = 0
    · simp only [hmx, if_true] at hb ⊢
      refine ⟨A + 1, fun t => (hb t).mono ?_⟩
      rw [Nat.pow_succ, ← Nat.mul_assoc, Nat.mul_comm (t.length + 1)]
      refine Nat.mul_le_mul_right _ ?_
      have := mul_poly (A := A) (L := t.length) (d := p.loops sk) 1
      simpa using this
    · simp only [hmx, if_false] at hb ⊢
      exact ⟨mx * (A + 1), fun t => (hb t).mono (mul_poly mx)⟩
  | .opt p, hr, hl, K, r, sk, hK => by
    rw [elabP]
    have hcp := fun r => comp_loops c p (r := r) hK.comp hl
    exact takesPoly_adapt hK (.opt (hcp _)) (takesPoly_once (.opt (hcp _)) rfl
      (by simp) rfl (takesPoly_elab p hr hl K _ sk hK)
      (by intro r cs i S; intros; cases r <;> cases S <;> simp [after, fresh, back])) (Pat.sk_le _ _)
  | .not p, hr, hl, K, r, sk, hK => by
    rw [elabP]
    have hcp := fun r => comp_loops c p (r := r) hK.comp hl
    exact takesPoly_adapt hK (.not (hcp _)) (takesPoly_once (.not (hcp _)) rfl
      (by simp) rfl (takesPoly_elab p hr hl K _ sk hK)
      (by intro r cs i S; intros; cases r <;> cases S <;> simp [after, fresh, back])) (Pat.sk_le _ _)
  | .discard p, hr, hl, K, r, sk, hK => by
    rw [elabP]
    have hcp := fun r => comp_loops c p (r := r) hK.comp hl
    exact takesPoly_adapt hK (.discard (hcp _)) (takesPoly_once (.discard (hcp _)) rfl
      (by simp) rfl (takesPoly_elab p hr hl K _ sk hK)
      (by intro r cs i S; intros; cases r <;> simp [after, fresh])) (Pat.sk_le _ _)
  | .lexeme p, hr, hl, K, r, sk, hK => by
    rw [elabP]
    have hcp := fun r => comp_loops c p (r := r) .fail hl
    exact takesPoly_adapt hK (.lexeme (hcp _)) (takesPoly_once (.lexeme (hcp _)) rfl
      (by simp) rfl ((takesPoly_elab p hr hl .fail _ 0 .fail).mono (by rw [Pat.loops]; omega))
      (by intro r cs i S; intros; cases r <;> simp [after, fresh])) (Pat.sk_le _ _)
  | .bindDst p, hr, hl, K, r, sk, hK => by
    rw [elabP]
    have hcp := fun r => comp_loops c p (r := r) hK.comp hl
    exact takesPoly_adapt hK (.bindDst (hcp _)) (takesPoly_once (.bindDst (hcp _)) rfl
      (by simp) rfl (takesPoly_elab p hr hl K _ sk hK)
      (by intro r cs i S; intros; cases r <;> simp [after, fresh])) (Pat.sk_le _ _)
  | .construct tys p, hr, hl, K, r, sk, hK => by
    rw [elabP]
    have hcp := fun r => comp_loops c p (r := r) hK.comp hl
    exact takesPoly_adapt hK (.construct (hcp _)) (takesPoly_once (.construct (hcp _)) rfl
      (by simp) rfl (takesPoly_elab p hr hl K _ sk hK)
      (by intro r cs i S; intros; cases r <;> simp [after, fresh])) (Pat.sk_le _ _)
  | .action a p, hr, hl, K, r, sk, hK => by
    rw [elabP]
    have hcp := fun r => comp_loops c p (r := r) hK.comp hl
    exact takesPoly_adapt hK (.action (hcp _)) (takesPoly_once (.action (hcp _)) rfl
      (by simp) rfl (takesPoly_elab p hr hl K _ sk hK)
      (by intro r cs i S; intros; cases r <;> simp [after, fresh])) (Pat.sk_le _ _)
  | .except op neg, hr, hl, K, r, sk, hK => by
    rw [elabP]
    rw [Pat.refs, List.append_eq_nil_iff] at hr
    have hl1 : op.loopsEat c = true := band_left hl
    have hl2 : neg.loopsEat c = true := band_right hl
    have h1 := fun r => comp_loops c op (r := r) hK.comp hl1
    have h2 := fun r => comp_loops c neg (r := r) hK.comp hl2
    refine takesPoly_adapt hK (.except (h1 _) (h2 _)) ?_ (Pat.sk_le _ _)
    obtain ⟨A, hA⟩ := (takesPoly_elab op hr.1 hl1 K
      { (r.lower (.except op neg)).derive with FAILS_CLEANLY := false } sk hK).mono
      (Nat.le_max_left _ (neg.loops sk))
    obtain ⟨B, hB⟩ := (takesPoly_elab neg hr.2 hl2 K ⟨false, true, false, false⟩ sk hK).mono
      (Nat.le_max_right (op.loops sk) _)
    rw [Pat.loops]
    refine .of ⟨A + B, 2, fun t => (takesAt_except (c := c) noEnv_comp (noEnv_eats _) (h1 _) (h2 _)
      (hA t) (hB t)).mono ?_⟩
    rw [Nat.add_mul]
    omega
  | .list op sep, hr, hl, K, r, sk, hK => by
    rw [elabP]
    rw [Pat.refs, List.append_eq_nil_iff] at hr
    have hl1 : op.loopsEat c = true := band_right (band_left hl)
    have hl2 : sep.loopsEat c = true := band_right hl
    have h1 := fun r => comp_loops c op (r := r) hK.comp hl1
    have h2 := fun r => comp_loops c sep (r := r) hK.comp hl2
    refine takesPoly_adapt hK (.list (h1 _) (h2 _)) ?_ (Pat.sk_le _ _)
    obtain ⟨A, hA⟩ := (takesPoly_elab op hr.1 hl1 K ⟨true, false, false, false⟩ sk hK).mono
      (Nat.le_max_left _ (sep.loops sk))
    obtain ⟨B, hB⟩ := (takesPoly_elab sep hr.2 hl2 K ⟨false, false, false, false⟩ sk hK).mono
      (Nat.le_max_right (op.loops sk) _)
    have he : (elabP K ⟨true, false, false, false⟩ op).eats c = true ∨
        (elabP K ⟨false, false, false, false⟩ sep).eats c = true := by
      have := band_left (band_left hl)
      rw [elabP_eats, elabP_eats]
      simpa using this
    rw [Pat.loops]
    refine ⟨A + B + 2, fun t => (takesAt_list (c := c) noEnv_comp (noEnv_eats _) (h1 _) (h2 _) he
      (hA t) (hB t)).mono ?_⟩
    rw [Nat.pow_succ, ← Nat.mul_assoc, Nat.mul_comm (t.length + 1)]
    refine Nat.mul_le_mul_right _ ?_
    have := pow_pos' t.length (max (op.loops sk) (sep.loops sk))
    rw [Nat.add_mul, Nat.add_mul]
    omega
  | .withSkipper p s, hr, hl, K, r, sk, hK => by
    rw [elabP]
    rw [Pat.refs, List.append_eq_nil_iff] at hr
    have hls : s.loopsEat c = true := band_right (band_left hl)
    have hlp : p.loopsEat c = true := band_right hl
    have hse : s.eats c = true := band_left (band_left hl)
    have hS : SkipsPoly c (s.loops 0 + 1) (elabP .fail SkipReqs s) :=
      ⟨comp_loops c s .fail hls, by rw [elabP_eats]; exact hse,
        .inr ⟨_, takesPoly_elab s hr.2 hls .fail SkipReqs 0 .fail, Nat.le_refl _⟩⟩
    have hcp := fun r => comp_loops c p (r := r) hS.comp hlp
    exact takesPoly_adapt hK (.withSkipper (hcp _)) (takesPoly_once (.withSkipper (hcp _)) rfl
      (by simp) rfl ((takesPoly_elab p hr.1 hlp _ _ _ hS).mono (by rw [Pat.loops]; omega))
      (by intro r cs i S; intros; cases r <;> simp [after, fresh])) (Pat.sk_le _ _)
  | .recur id n, hr, hl, K, r, sk, hK => by cases hr

end
end Abu
