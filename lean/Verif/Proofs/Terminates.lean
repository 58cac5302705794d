import Verif.Proofs.Halt
import Verif.Proofs.Recognise
/-
Patterns whose loops consume and that are not left recursive: parsing ends.
-/
namespace Abu

mutual
theorem comp_loops (c : Nat → Bool) : ∀ (p : Pat) {r : Req} {K : Prog}, Comp K →
    p.loopsEat c = true → Comp (elabP K r p)
  | .char s, r, K, hK, h => comp_adapt (comp_skipper hK) .char
  | .charSymbol s, r, K, hK, h => comp_adapt (comp_skipper hK) .charSymbol
  | .strLit s, r, K, hK, h => comp_adapt (comp_skipper hK) .strLit
  | .symbol s, r, K, hK, h => comp_adapt (comp_skipper hK) .symbol
  | .int .., r, K, hK, h => comp_adapt (comp_skipper hK) .int
  | .uint .., r, K, hK, h => comp_adapt (comp_skipper hK) .uint
  | .eoi, r, K, hK, h => comp_adapt (comp_skipper hK) .eoi
  | .pass, r, K, hK, h => comp_adapt (comp_skipper hK) .pass
  | .fail, r, K, hK, h => comp_adapt (comp_skipper hK) .fail
  | .seq ps, r, K, hK, h => by
    rw [elabP]
    refine comp_adapt (comp_skipper hK) (.seq ?_ ?_ (comp_allLoops c ps hK (band_right h)))
    · have := band_left h
      cases ps with
      | nil => cases this
      | cons => simp [elabPs]
    · rw [tupleSlots_length, elabPs_length]
  | .alt ps, r, K, hK, h => by
    rw [elabP]
    refine comp_adapt (comp_skipper hK) (.alt ?_ (comp_allLoops c ps hK (band_right h)))
    have := band_left h
    cases ps with
    | nil => cases this
    | cons => simp [elabPs]
  | .rep mn mx p, r, K, hK, h => by
    rw [elabP]; exact comp_adapt (comp_skipper hK) (.rep (comp_loops c p hK (band_right h)))
  | .opt p, r, K, hK, h => by
    rw [elabP]; exact comp_adapt (comp_skipper hK) (.opt (comp_loops c p hK h))
  | .not p, r, K, hK, h => by
    rw [elabP]; exact comp_adapt (comp_skipper hK) (.not (comp_loops c p hK h))
  | .discard p, r, K, hK, h => by
    rw [elabP]; exact comp_adapt (comp_skipper hK) (.discard (comp_loops c p hK h))
  | .lexeme p, r, K, hK, h => by
    rw [elabP]; exact comp_adapt (comp_skipper hK) (.lexeme (comp_loops c p .fail h))
  | .bindDst p, r, K, hK, h => by
    rw [elabP]; exact comp_adapt (comp_skipper hK) (.bindDst (comp_loops c p hK h))
  | .construct tys p, r, K, hK, h => by
    rw [elabP]; exact comp_adapt (comp_skipper hK) (.construct (comp_loops c p hK h))
  | .action a p, r, K, hK, h => by
    rw [elabP]; exact comp_adapt (comp_skipper hK) (.action (comp_loops c p hK h))
  | .except op neg, r, K, hK, h => by
    rw [elabP]
    exact comp_adapt (comp_skipper hK)
      (.except (comp_loops c op hK (band_left h)) (comp_loops c neg hK (band_right h)))
  | .list op sep, r, K, hK, h => by
    rw [elabP]
    exact comp_adapt (comp_skipper hK)
      (.list (comp_loops c op hK (band_right (band_left h))) (comp_loops c sep hK (band_right h)))
  | .withSkipper p s, r, K, hK, h => by
    rw [elabP]
    exact comp_adapt (comp_skipper hK) (.withSkipper
      (comp_loops c p (comp_loops c s .fail (band_right (band_left h))) (band_right h)))
  | .recur id n, r, K, hK, h => by
    rw [elabP]; exact comp_adapt (comp_skipper hK) (.recur hK)
theorem comp_allLoops (c : Nat → Bool) : ∀ (ps : List Pat) {r : Req} {K : Prog}, Comp K →
    Pat.allLoopsEat c ps = true → ∀ P ∈ elabPs K r ps, Comp P
  | [], r, K, hK, h => by simp [elabPs]
  | p :: ps, r, K, hK, h => by
    intro P hP
    rw [elabPs, List.mem_cons] at hP
    rcases hP with rfl | hP
    · exact comp_loops c p hK (band_left h)
    · exact comp_allLoops c ps hK (band_right h) P hP
end

section
variable {env : Env} {t : List Ch} {c : Nat → Bool} (hE : env.LoopsEat c)
include hE

theorem Env.LoopsEat.comp : ∀ id q sk, env id = some q → Comp sk →
    Comp (elabP sk RecurChildReqs q) :=
  fun id q _ hq hsk => comp_loops c q hsk (hE.loops id q hq)

theorem haltsAt_leaf (lo : Nat) {P : Prog} (hl : P.isLeaf = true) : HaltsAt env t lo P := by
  intro i own S _
  obtain ⟨n, r, st', i', hr, _⟩ := leaf_halts (env := env) (t := t) hl i (own ++ S)
  exact ⟨r, i', _, .leaf hl hr⟩

omit hE in
/-- A skipper that consumes and returns. -/
structure SkipsAt (env : Env) (t : List Ch) (c : Nat → Bool) (lo : Nat) (K : Prog) : Prop where
  comp : Comp K
  eats : K.eats c = true
  halts : HaltsAt env t lo K

omit hE in
theorem SkipsAt.mono {lo lo' K} (h : SkipsAt env t c lo K) (hl : lo ≤ lo') :
    SkipsAt env t c lo' K := ⟨h.comp, h.eats, h.halts.mono hl⟩

theorem SkipsAt.fail {lo} : SkipsAt env t c lo .fail := ⟨.fail, rfl, haltsAt_leaf hE lo rfl⟩

theorem haltsAt_atomic {lo} {b : Bool} {P : Prog} (hP : Comp P) (h : HaltsAt env t lo P) :
    HaltsAt env t lo (if b then .atomic P else P) ∧ Comp (if b then .atomic P else P) := by
  cases b with
  | false => exact ⟨h, hP⟩
  | true => exact ⟨haltsAt_once hE.comp hE.eats (.atomic hP) rfl (by simp) rfl h
      (by intro r; intros; cases r <;> simp [after, fresh]), .atomic hP⟩

theorem haltsAt_clean {lo} {b : Bool} {P : Prog} (hP : Comp P) (h : HaltsAt env t lo P) :
    HaltsAt env t lo (if b then .clean P else P) ∧ Comp (if b then .clean P else P) := by
  cases b with
  | false => exact ⟨h, hP⟩
  | true =>
    refine ⟨haltsAt_once hE.comp hE.eats (.clean hP) rfl (by simp) rfl h ?_, .clean hP⟩
    intro r cs i S; intros
    cases r <;> cases S <;> simp [after, fresh, back]

theorem haltsAt_adapt {lo K raw} {r : Req} {a b : Bool} (hK : SkipsAt env t c lo K)
    (hc : Comp raw) (h : HaltsAt env t lo raw) : HaltsAt env t lo (adapt (r.skipper K) a b raw) := by
  have hA := haltsAt_atomic hE (b := a) hc h
  have hB := haltsAt_clean hE (b := b) hA.2 hA.1
  have hS : SkipsAt env t c lo (r.skipper K) := by
    unfold Req.skipper; split
    · exact .fail hE
    · exact hK
  unfold adapt
  cases hf : (r.skipper K).isFail
  · simp only [Bool.false_eq_true, if_false]
    exact haltsAt_skip hE.comp hE.eats hS.comp hB.2 hS.eats hS.halts hB.1
  · simp only [if_true]
    exact hB.1

/-- The pattern is all right as far as termination goes. -/
structure Fine (env : Env) (c : Nat → Bool) (p : Pat) : Prop where
  loops : p.loopsEat c = true
  set : ∀ a ∈ p.refs, env a ≠ none

/-- Patterns of the class return when constructed at `lo` or later. -/
def AllHalt (env : Env) (t : List Ch) (c : Nat → Bool) (lo : Nat) : Prop :=
  ∀ p, Fine env c p → ∀ K r, SkipsAt env t c lo K → HaltsAt env t lo (elabP K r p)

/-- The pattern of a `Recur` returns. -/
def RecurHalts (env : Env) (t : List Ch) (c : Nat → Bool) (lo id : Nat) : Prop :=
  ∀ q, env id = some q → ∀ K, SkipsAt env t c lo K → HaltsAt env t lo (elabP K RecurChildReqs q)

omit hE in
theorem Pat.allLoopsEat_mem {ps : List Pat} (h : Pat.allLoopsEat c ps = true) :
    ∀ p ∈ ps, p.loopsEat c = true := by
  induction ps with
  | nil => intro p hp; cases hp
  | cons q ps ih =>
    intro p hp
    rw [Pat.allLoopsEat] at h
    rcases List.mem_cons.1 hp with rfl | hp
    · exact band_left h
    · exact ih (band_right h) p hp

omit hE in
theorem Pat.refsAll_mem {ps : List Pat} {p} (hp : p ∈ ps) : ∀ a ∈ p.refs, a ∈ Pat.refsAll ps := by
  induction ps with
  | nil => cases hp
  | cons q ps ih =>
    intro a ha
    rw [Pat.refsAll, List.mem_append]
    rcases List.mem_cons.1 hp with rfl | hp
    · exact .inl ha
    · exact .inr (ih hp a ha)

omit hE in
theorem Pat.headsAll_mem {ps : List Pat} {p} (hp : p ∈ ps) :
    ∀ a ∈ p.heads c, a ∈ Pat.headsAll c ps := by
  induction ps with
  | nil => cases hp
  | cons q ps ih =>
    intro a ha
    rw [Pat.headsAll, List.mem_append]
    rcases List.mem_cons.1 hp with rfl | hp
    · exact .inl ha
    · exact .inr (ih hp a ha)

omit hE in
theorem Pat.headsSeq_get {ps : List Pat} : ∀ {k : Nat} {p : Pat}, ps[k]? = some p →
    (∀ (j : Nat) (q : Pat), j < k → ps[j]? = some q → q.eats c = false) →
    ∀ a ∈ p.heads c, a ∈ Pat.headsSeq c ps := by
  induction ps with
  | nil => intro k p hp; cases hp
  | cons q ps ih =>
    intro k p hp hk a ha
    rw [Pat.headsSeq, List.mem_append]
    cases k with
    | zero => cases hp; exact .inl ha
    | succ k =>
      refine .inr ?_
      rw [hk 0 q (by omega) rfl]
      exact ih (k := k) hp (fun j q hj hq => hk (j + 1) q (by omega) hq) a ha

omit hE in
theorem elabPs_get {K r} {ps : List Pat} : ∀ {k : Nat} {P : Prog}, (elabPs K r ps)[k]? = some P →
    ∃ p, ps[k]? = some p ∧ P = elabP K r p := by
  induction ps with
  | nil => intro k P h; cases h
  | cons p ps ih =>
    intro k P h
    cases k with
    | zero => cases h; exact ⟨p, rfl, rfl⟩
    | succ k => exact ih (k := k) h

omit hE in
theorem elabPs_get' {K r} {ps : List Pat} : ∀ {k : Nat} {p : Pat}, ps[k]? = some p →
    (elabPs K r ps)[k]? = some (elabP K r p) := by
  induction ps with
  | nil => intro k P h; cases h
  | cons p ps ih =>
    intro k P h
    cases k with
    | zero => cases h; rfl
    | succ k => exact ih (k := k) h

theorem haltsAt_elab {lo : Nat} (hup : ∀ b, lo < b → AllHalt env t c b) : ∀ (p : Pat),
    Fine env c p → (∀ a ∈ p.heads c, RecurHalts env t c lo a) →
    ∀ K r, SkipsAt env t c lo K → HaltsAt env t lo (elabP K r p)
  | .char s, hp, hh, K, r, hK => haltsAt_adapt hE hK .char (haltsAt_leaf hE lo rfl)
  | .charSymbol s, hp, hh, K, r, hK => haltsAt_adapt hE hK .charSymbol (haltsAt_leaf hE lo rfl)
  | .strLit s, hp, hh, K, r, hK => haltsAt_adapt hE hK .strLit (haltsAt_leaf hE lo rfl)
  | .symbol s, hp, hh, K, r, hK => haltsAt_adapt hE hK .symbol (haltsAt_leaf hE lo rfl)
  | .int .., hp, hh, K, r, hK => haltsAt_adapt hE hK .int (haltsAt_leaf hE lo rfl)
  | .uint .., hp, hh, K, r, hK => haltsAt_adapt hE hK .uint (haltsAt_leaf hE lo rfl)
  | .eoi, hp, hh, K, r, hK => haltsAt_adapt hE hK .eoi (haltsAt_leaf hE lo rfl)
  | .pass, hp, hh, K, r, hK => haltsAt_adapt hE hK .pass (haltsAt_leaf hE lo rfl)
  | .fail, hp, hh, K, r, hK => haltsAt_adapt hE hK .fail (haltsAt_leaf hE lo rfl)
  | .seq ps, hp, hh, K, r, hK => by
    have hcomp := comp_loops c (.seq ps) (r := RecurChildReqs) hK.comp hp.loops
    rw [elabP] at hcomp ⊢
    change Comp (.seq _ _) at hcomp
    have hfine : ∀ p ∈ ps, Fine env c p := fun p hm =>
      ⟨Pat.allLoopsEat_mem (band_right hp.loops) p hm, fun a ha => hp.set a (Pat.refsAll_mem hm a ha)⟩
    refine haltsAt_adapt hE hK hcomp (haltsAt_seq hE.comp hE.eats hcomp ?_ ?_)
    · intro P hP b hb
      obtain ⟨k, hk⟩ := List.getElem?_of_mem hP
      obtain ⟨p, hk', rfl⟩ := elabPs_get hk
      exact hup b hb p (hfine p (List.mem_of_getElem? hk')) K _ (hK.mono (Nat.le_of_lt hb))
    · intro k P hk hj
      obtain ⟨p, hk', rfl⟩ := elabPs_get hk
      have hm := List.mem_of_getElem? hk'
      refine haltsAt_elab hup p (hfine p hm) (fun a ha => hh a ?_) K _ hK
      refine Pat.headsSeq_get hk' (fun j q hjk hq => ?_) a ha
      have := hj j _ hjk (elabPs_get' hq)
      rwa [elabP_eats] at this
  | .alt ps, hp, hh, K, r, hK => by
    have hcomp := comp_loops c (.alt ps) (r := RecurChildReqs) hK.comp hp.loops
    rw [elabP] at hcomp ⊢
    have hfine : ∀ p ∈ ps, Fine env c p := fun p hm =>
      ⟨Pat.allLoopsEat_mem (band_right hp.loops) p hm, fun a ha => hp.set a (Pat.refsAll_mem hm a ha)⟩
    have hcomp' := comp_allLoops c ps (r := { (r.lower (.alt ps)).derive with FAILS_CLEANLY := true })
      hK.comp (band_right hp.loops)
    have hcomp2 : Comp (.alt (elabPs K { (r.lower (.alt ps)).derive with FAILS_CLEANLY := true } ps)) := by
      refine .alt ?_ hcomp'
      have := band_left hp.loops
      cases ps with
      | nil => cases this
      | cons => simp [elabPs]
    refine haltsAt_adapt hE hK hcomp2 (haltsAt_alt hE.comp hE.eats hcomp2 ?_)
    intro P hP
    obtain ⟨k, hk⟩ := List.getElem?_of_mem hP
    obtain ⟨p, hk', rfl⟩ := elabPs_get hk
    have hm := List.mem_of_getElem? hk'
    exact haltsAt_elab hup p (hfine p hm) (fun a ha => hh a (Pat.headsAll_mem hm a ha)) K _ hK
  | .rep mn mx p, hp, hh, K, r, hK => by
    have hl := band_right hp.loops
    rw [elabP]
    refine haltsAt_adapt hE hK (.rep (comp_loops c p hK.comp hl))
      (haltsAt_rep hE.comp hE.eats (comp_loops c p hK.comp hl) ?_
        (haltsAt_elab hup p ⟨hl, hp.set⟩ hh K _ hK))
    have := band_left hp.loops
    rw [elabP_eats]
    simpa using this
  | .opt p, hp, hh, K, r, hK => by
    rw [elabP]
    have hcp := fun r => comp_loops c p (r := r) hK.comp hp.loops
    exact haltsAt_adapt hE hK (.opt (hcp _)) (haltsAt_once hE.comp hE.eats (.opt (hcp _)) rfl
      (by simp) rfl (haltsAt_elab hup p ⟨hp.loops, hp.set⟩ hh K _ hK)
      (by intro r cs i S; intros; cases r <;> cases S <;> simp [after, fresh, back]))
  | .not p, hp, hh, K, r, hK => by
    rw [elabP]
    have hcp := fun r => comp_loops c p (r := r) hK.comp hp.loops
    exact haltsAt_adapt hE hK (.not (hcp _)) (haltsAt_once hE.comp hE.eats (.not (hcp _)) rfl
      (by simp) rfl (haltsAt_elab hup p ⟨hp.loops, hp.set⟩ hh K _ hK)
      (by intro r cs i S; intros; cases r <;> cases S <;> simp [after, fresh, back]))
  | .discard p, hp, hh, K, r, hK => by
    rw [elabP]
    have hcp := fun r => comp_loops c p (r := r) hK.comp hp.loops
    exact haltsAt_adapt hE hK (.discard (hcp _)) (haltsAt_once hE.comp hE.eats (.discard (hcp _)) rfl
      (by simp) rfl (haltsAt_elab hup p ⟨hp.loops, hp.set⟩ hh K _ hK)
      (by intro r cs i S; intros; cases r <;> simp [after, fresh]))
  | .lexeme p, hp, hh, K, r, hK => by
    rw [elabP]
    have hcp := fun r => comp_loops c p (r := r) .fail hp.loops
    exact haltsAt_adapt hE hK (.lexeme (hcp _)) (haltsAt_once hE.comp hE.eats (.lexeme (hcp _)) rfl
      (by simp) rfl (haltsAt_elab hup p ⟨hp.loops, hp.set⟩ hh .fail _ (.fail hE))
      (by intro r cs i S; intros; cases r <;> simp [after, fresh]))
  | .bindDst p, hp, hh, K, r, hK => by
    rw [elabP]
    have hcp := fun r => comp_loops c p (r := r) hK.comp hp.loops
    exact haltsAt_adapt hE hK (.bindDst (hcp _)) (haltsAt_once hE.comp hE.eats (.bindDst (hcp _)) rfl
      (by simp) rfl (haltsAt_elab hup p ⟨hp.loops, hp.set⟩ hh K _ hK)
      (by intro r cs i S; intros; cases r <;> simp [after, fresh]))
  | .construct tys p, hp, hh, K, r, hK => by
    rw [elabP]
    have hcp := fun r => comp_loops c p (r := r) hK.comp hp.loops
    exact haltsAt_adapt hE hK (.construct (hcp _)) (haltsAt_once hE.comp hE.eats
      (.construct (hcp _)) rfl
      (by simp) rfl (haltsAt_elab hup p ⟨hp.loops, hp.set⟩ hh K _ hK)
      (by intro r cs i S; intros; cases r <;> simp [after, fresh]))
  | .action a p, hp, hh, K, r, hK => by
    rw [elabP]
    have hcp := fun r => comp_loops c p (r := r) hK.comp hp.loops
    exact haltsAt_adapt hE hK (.action (hcp _)) (haltsAt_once hE.comp hE.eats (.action (hcp _)) rfl
      (by simp) rfl (haltsAt_elab hup p ⟨hp.loops, hp.set⟩ hh K _ hK)
      (by intro r cs i S; intros; cases r <;> simp [after, fresh]))
  | .except op neg, hp, hh, K, r, hK => by
    rw [elabP]
    have hl1 : op.loopsEat c = true := band_left hp.loops
    have hl2 : neg.loopsEat c = true := band_right hp.loops
    have h1 := fun r => comp_loops c op (r := r) hK.comp hl1
    have h2 := fun r => comp_loops c neg (r := r) hK.comp hl2
    refine haltsAt_adapt hE hK (.except (h1 _) (h2 _)) (haltsAt_except hE.comp hE.eats (h1 _) (h2 _)
      (haltsAt_elab hup op ⟨hl1, fun a ha => hp.set a ?_⟩ (fun a ha => hh a ?_) K _ hK)
      (haltsAt_elab hup neg ⟨hl2, fun a ha => hp.set a ?_⟩ (fun a ha => hh a ?_) K _ hK))
    all_goals first | rw [Pat.refs] | rw [Pat.heads]
    all_goals simp [ha]
  | .list op sep, hp, hh, K, r, hK => by
    rw [elabP]
    have hl1 : op.loopsEat c = true := band_right (band_left hp.loops)
    have hl2 : sep.loopsEat c = true := band_right hp.loops
    have h1 := fun r => comp_loops c op (r := r) hK.comp hl1
    have h2 := fun r => comp_loops c sep (r := r) hK.comp hl2
    have hf2 : Fine env c sep := ⟨hl2, fun a ha => hp.set a (by rw [Pat.refs]; simp [ha])⟩
    refine haltsAt_adapt hE hK (.list (h1 _) (h2 _)) (haltsAt_list hE.comp hE.eats (h1 _) (h2 _)
      ?_ (haltsAt_elab hup op ⟨hl1, fun a ha => hp.set a ?_⟩ (fun a ha => hh a ?_) K _ hK)
      (fun b hb => hup b hb sep hf2 K _ (hK.mono (Nat.le_of_lt hb)))
      fun he => haltsAt_elab hup sep hf2 (fun a ha => hh a ?_) K _ hK)
    · have := band_left (band_left hp.loops)
      rw [elabP_eats, elabP_eats]
      simpa using this
    · rw [Pat.refs]; simp [ha]
    · rw [Pat.heads]; simp [ha]
    · rw [elabP_eats] at he
      rw [Pat.heads, he]; simp [ha]
  | .withSkipper p s, hp, hh, K, r, hK => by
    rw [elabP]
    have hl1 : p.loopsEat c = true := band_right hp.loops
    have hl2 : s.loopsEat c = true := band_right (band_left hp.loops)
    have hcs := comp_loops c s (r := SkipReqs) .fail hl2
    have hskip : SkipsAt env t c lo (elabP .fail SkipReqs s) := by
      refine ⟨hcs, ?_, haltsAt_elab hup s ⟨hl2, fun a ha => hp.set a ?_⟩ (fun a ha => hh a ?_) .fail _
        (.fail hE)⟩
      · rw [elabP_eats]; exact band_left (band_left hp.loops)
      · rw [Pat.refs]; simp [ha]
      · rw [Pat.heads]; simp [ha]
    have hcp := fun r => comp_loops c p (r := r) hcs hl1
    refine haltsAt_adapt hE hK (.withSkipper (hcp _)) (haltsAt_once hE.comp hE.eats
      (.withSkipper (hcp _)) rfl (by simp) rfl
      (haltsAt_elab hup p ⟨hl1, fun a ha => hp.set a ?_⟩ (fun a ha => hh a ?_) _ _ hskip)
      (by intro r cs i S; intros; cases r <;> simp [after, fresh]))
    · rw [Pat.refs]; simp [ha]
    · rw [Pat.heads]; simp [ha]
  | .recur id n, hp, hh, K, r, hK => by
    rw [elabP]
    refine haltsAt_adapt hE hK (.recur hK.comp) ?_
    intro i own S hs
    cases hq : env id with
    | none => exact absurd hq (hp.set id (by rw [Pat.refs]; simp))
    | some q =>
      have := hh id (by rw [Pat.heads]; simp) q hq K hK i _ (own ++ S) (.new hs.low hs.high)
      obtain ⟨r', i', S', hb⟩ := this
      exact ⟨r', i', S', .recurNone hq hb⟩

/-- Patterns of the class return. -/
theorem allHalt (hwf : WellFounded (LeftCalls env c)) : ∀ lo, AllHalt env t c lo := by
  have key : ∀ d lo, t.length + 1 - lo = d → AllHalt env t c lo := by
    intro d
    induction d using Nat.strongRecOn with
    | ind d ih =>
      intro lo hd
      rcases Nat.lt_or_ge t.length lo with hlo | hlo
      · intro p _ K r _ i own S hs
        have := hs.low; have := hs.high; omega
      · have hup : ∀ b, lo < b → AllHalt env t c b := fun b hb => ih (t.length + 1 - b) (by omega) b rfl
        have hrec : ∀ id, RecurHalts env t c lo id := by
          intro id
          induction id using hwf.induction with
          | _ id ih2 =>
            intro q hq K hK
            exact haltsAt_elab hE hup q ⟨hE.loops id q hq, hE.set id q hq⟩
              (fun a ha => ih2 a ⟨q, hq, ha⟩) K _ hK
        intro p hp K r hK
        exact haltsAt_elab hE hup p hp (fun a _ => hrec a) K r hK
  intro lo
  exact key _ lo rfl

/-- The ghost machine returns. -/
theorem ghost_halts (hwf : WellFounded (LeftCalls env c)) {p : Pat} (hp : Fine env c p)
    (t : List Ch) : ∃ r rest, GhostParses env (topParser p) t r rest := by
  have hcomp : Comp (topParser p) := comp_loops c p .fail hp.loops
  obtain ⟨r, i', S', hb⟩ := allHalt (t := t) hE hwf 0 p hp .fail DefaultReqs (.fail hE) 0 _ []
    (.new (Nat.le_refl _) (Nat.zero_le _))
  obtain ⟨n, st', hn⟩ := run_of_big hb hE.comp hcomp (.refl _)
  refine ⟨r, _, fresh (topParser p), _, n, st', _, ?_, hn, rfl⟩
  exact exec_mk hcomp _

end

/-- A prefix of the operations of a parser object that ends, ends. -/
theorem Session.initial {env p dst} {ops more : List SOp} : ∀ {st} {w : World Cursor Mem} {v},
    Session Cursor.addBuffer env p dst st w (ops ++ more) v →
    ∃ v', Session Cursor.addBuffer env p dst st w ops v' := by
  induction ops with
  | nil => intro st w v _; exact ⟨_, .nil w.ds.reads_drop⟩
  | cons op ops ih =>
    intro st w v h
    rw [List.cons_append] at h
    cases h with
    | addBad h => exact ⟨_, .addBad h⟩
    | add h h' => obtain ⟨v', hv⟩ := ih h'; exact ⟨_, .add h hv⟩
    | error h => exact ⟨_, .error h⟩
    | verdict h hr hrd => exact ⟨_, .verdict h hr hrd⟩
    | more h h' => obtain ⟨v', hv⟩ := ih h'; exact ⟨_, .more h hv⟩

theorem makeParser_of_session {env p dst m ops v st w}
    (hc : Abu.construct (topParser p) dst dst (⟨Cursor.start, m⟩ : World Cursor Mem)
      = .ok (st, w))
    (h : Session Cursor.addBuffer env (topParser p) dst st w ops v) :
    MakeParserRun env p dst m ops v := by
  have hrel0 : ContainerSeq.Rel ContainerSeq.make Cursor.start := ⟨_, ContainerSeq.sim_make⟩
  have hsim := construct_sim ContainerSeq.dsSim (topParser p) dst dst m hrel0
  rw [hc] at hsim
  generalize hs : Abu.construct (topParser p) dst dst
    (⟨ContainerSeq.make, m⟩ : World ContainerSeq Mem) = y at hsim
  cases hsim with
  | @ok st s c m' hr =>
    refine .run hs ?_
    exact Session.sim (R := fun c s => ContainerSeq.Rel s c) ContainerSeq.dsSim.flip
      (fun b f h => (ContainerSeq.addBuffer_rel h b f).flip) h hr

/-- Operations within the contract can be completed. -/
theorem Legal.completed {ops} (h : Legal ops) : ∃ more, Complete (ops ++ more) := by
  induction ops with
  | nil => exact ⟨[.add [] true, .consume], trivial, rfl⟩
  | cons op ops ih =>
    cases op with
    | consume => exact ih h
    | add b f =>
      cases f with
      | false => exact ih h
      | true =>
        have h : ∀ b f, SOp.add b f ∉ ops := h
        have key : opsText ops = [] := by
          rename_i h0
          clear ih h0
          induction ops with
          | nil => rfl
          | cons op ops ih =>
            cases op with
            | consume => exact ih fun b f hm => h b f (List.mem_cons_of_mem _ hm)
            | add b f => exact absurd (by simp) (h b f)
        refine ⟨[.consume], ?_, ?_⟩
        · cases ops with
          | nil => trivial
          | cons op ops =>
            cases op with
            | consume => trivial
            | add b f => exact absurd (by simp) (h b f)
        · show opsText (ops ++ [.consume]) = []
          rw [opsText_append, key]; rfl

/-- `parse` does not end when `consume` does not return. -/
theorem never_of_diverges {env p dst m t st w}
    (hc : construct (topParser p) dst dst (⟨Cursor.whole t, m⟩ : World Cursor Mem) = .ok (st, w))
    (h : Diverges env (topParser p) dst dst st w) (v : Verdict) : ¬ Parses env p dst m t v := by
  rw [parses_iff_cursor]
  unfold CursorParses
  rw [hc]
  rintro ⟨o, ho, _⟩
  exact ho.not_diverges h

end Abu
