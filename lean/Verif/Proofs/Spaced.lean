import Verif.Spec.Spaced
import Verif.Proofs.PegN
/-
Skipping by hand and the grammar semantics with skipping.
-/
namespace Abu

section
variable {env : Env} {t : List Ch} {s : Pat}

theorem spacedEnv_even (id : Nat) : spacedEnv s env (2 * id) = (env id).map Pat.unspaced := by
  have h1 : 2 * id / 2 = id := by omega
  have h2 : 2 * id % 2 = 0 := by omega
  simp [spacedEnv, h1, h2]

theorem spacedEnv_odd (id : Nat) : spacedEnv s env (2 * id + 1) = (env id).map (spaced s) := by
  have h1 : (2 * id + 1) / 2 = id := by omega
  have h2 : ¬ (2 * id + 1) % 2 = 0 := by omega
  simp only [spacedEnv, h1, h2, if_false]

/-! ### Renaming -/

theorem Peg.unspaced {p i o} (h : Peg env t p i o) : Peg (spacedEnv s env) t p.unspaced i o := by
  induction h with
  | char h1 h2 => exact .char h1 h2
  | charNo h => exact .charNo h
  | charSymbol h1 h2 => exact .charSymbol h1 h2
  | charSymbolNo h => exact .charSymbolNo h
  | strLit h => exact .strLit h
  | strLitNo h => exact .strLitNo h
  | symbol h1 h2 => exact .symbol h1 h2
  | symbolNo h => exact .symbolNo h
  | uint h => exact .uint h
  | uintNo h => exact .uintNo h
  | int h1 h2 => exact .int h1 h2
  | intNo h1 h2 => exact .intNo h1 h2
  | eoi h => exact .eoi h
  | eoiNo h => exact .eoiNo h
  | pass => exact .pass
  | fail => exact .fail
  | seqNil => exact .seqNil
  | seqNo _ ih => exact .seqNo ih
  | seq _ _ ih1 ih2 => exact .seq ih1 ih2
  | altNil => exact .altNil
  | alt _ ih => exact .alt ih
  | altNo _ _ ih1 ih2 => exact .altNo ih1 ih2
  | repStop _ ih => exact .repStop ih
  | repFew h _ ih => exact .repFew h ih
  | repLast _ ih => exact .repLast ih
  | repMore h _ _ ih1 ih2 => exact .repMore h ih1 ih2
  | opt _ ih => exact .opt ih
  | optNo _ ih => exact .optNo ih
  | not _ ih => exact .not ih
  | notNo _ ih => exact .notNo ih
  | discard _ ih => exact .discard ih
  | lexeme _ ih => exact .lexeme ih
  | bindDst _ ih => exact .bindDst ih
  | construct _ ih => exact .construct ih
  | action _ ih => exact .action ih
  | except _ _ ih1 ih2 => exact .except ih1 ih2
  | exceptNo _ ih => exact .exceptNo ih
  | listNil _ ih => exact .listNil ih
  | list _ _ ih1 ih2 => exact .list ih1 ih2
  | recur hq _ ih => exact .recur (by rw [spacedEnv_even, hq]; rfl) ih

theorem unspaced_seq {ps : List Pat} {p : Pat} (h : .seq ps = p.unspaced) :
    ∃ qs, p = .seq qs ∧ ps = Pat.relabels (2 * ·) qs := by
  cases p <;> first | exact ⟨_, rfl, Pat.seq.inj h⟩ | cases h

theorem unspaced_alt {ps : List Pat} {p : Pat} (h : .alt ps = p.unspaced) :
    ∃ qs, p = .alt qs ∧ ps = Pat.relabels (2 * ·) qs := by
  cases p <;> first | exact ⟨_, rfl, Pat.alt.inj h⟩ | cases h

theorem relabels_nil {qs : List Pat} (h : [] = Pat.relabels (2 * ·) qs) : qs = [] := by
  cases qs with
  | nil => rfl
  | cons => cases h

theorem relabels_cons {p : Pat} {ps qs : List Pat} (h : p :: ps = Pat.relabels (2 * ·) qs) :
    ∃ q qs', qs = q :: qs' ∧ p = q.unspaced ∧ ps = Pat.relabels (2 * ·) qs' := by
  cases qs with
  | nil => cases h
  | cons q qs => exact ⟨q, qs, rfl, (List.cons.inj h).1, (List.cons.inj h).2⟩

theorem Peg.respaced' {P i o} (h : Peg (spacedEnv s env) t P i o) :
    ∀ p : Pat, P = p.unspaced → Peg env t p i o := by
  induction h with
  | char h1 h2 => intro p hp; cases p <;> cases hp; exact .char h1 h2
  | charNo h => intro p hp; cases p <;> cases hp; exact .charNo h
  | charSymbol h1 h2 => intro p hp; cases p <;> cases hp; exact .charSymbol h1 h2
  | charSymbolNo h => intro p hp; cases p <;> cases hp; exact .charSymbolNo h
  | strLit h => intro p hp; cases p <;> cases hp; exact .strLit h
  | strLitNo h => intro p hp; cases p <;> cases hp; exact .strLitNo h
  | symbol h1 h2 => intro p hp; cases p <;> cases hp; exact .symbol h1 h2
  | symbolNo h => intro p hp; cases p <;> cases hp; exact .symbolNo h
  | uint h => intro p hp; cases p <;> cases hp; exact .uint h
  | uintNo h => intro p hp; cases p <;> cases hp; exact .uintNo h
  | int h1 h2 => intro p hp; cases p <;> cases hp; exact .int h1 h2
  | intNo h1 h2 => intro p hp; cases p <;> cases hp; exact .intNo h1 h2
  | eoi h => intro p hp; cases p <;> cases hp; exact .eoi h
  | eoiNo h => intro p hp; cases p <;> cases hp; exact .eoiNo h
  | pass => intro p hp; cases p <;> cases hp; exact .pass
  | fail => intro p hp; cases p <;> cases hp; exact .fail
  | seqNil =>
    intro p hp
    obtain ⟨qs, rfl, h⟩ := unspaced_seq hp
    cases relabels_nil h
    exact .seqNil
  | altNil =>
    intro p hp
    obtain ⟨qs, rfl, h⟩ := unspaced_alt hp
    cases relabels_nil h
    exact .altNil
  | seqNo _ ih =>
    intro p hp
    obtain ⟨qs, rfl, h⟩ := unspaced_seq hp
    obtain ⟨q, qs, rfl, h1, h2⟩ := relabels_cons h
    exact .seqNo (ih _ h1)
  | seq _ _ ih1 ih2 =>
    intro p hp
    obtain ⟨qs, rfl, h⟩ := unspaced_seq hp
    obtain ⟨q, qs, rfl, h1, h2⟩ := relabels_cons h
    exact .seq (ih1 _ h1) (ih2 (.seq qs) (congrArg Pat.seq h2))
  | alt _ ih =>
    intro p hp
    obtain ⟨qs, rfl, h⟩ := unspaced_alt hp
    obtain ⟨q, qs, rfl, h1, h2⟩ := relabels_cons h
    exact .alt (ih _ h1)
  | altNo _ _ ih1 ih2 =>
    intro p hp
    obtain ⟨qs, rfl, h⟩ := unspaced_alt hp
    obtain ⟨q, qs, rfl, h1, h2⟩ := relabels_cons h
    exact .altNo (ih1 _ h1) (ih2 (.alt qs) (congrArg Pat.alt h2))
  | repStop _ ih => intro p hp; cases p <;> cases hp; exact .repStop (ih _ rfl)
  | repFew h _ ih => intro p hp; cases p <;> cases hp; exact .repFew h (ih _ rfl)
  | repLast _ ih => intro p hp; cases p <;> cases hp; exact .repLast (ih _ rfl)
  | repMore h _ _ ih1 ih2 =>
    intro p hp; cases p <;> cases hp; exact .repMore h (ih1 _ rfl) (ih2 (.rep _ _ _) rfl)
  | opt _ ih => intro p hp; cases p <;> cases hp; exact .opt (ih _ rfl)
  | optNo _ ih => intro p hp; cases p <;> cases hp; exact .optNo (ih _ rfl)
  | not _ ih => intro p hp; cases p <;> cases hp; exact .not (ih _ rfl)
  | notNo _ ih => intro p hp; cases p <;> cases hp; exact .notNo (ih _ rfl)
  | discard _ ih => intro p hp; cases p <;> cases hp; exact .discard (ih _ rfl)
  | lexeme _ ih => intro p hp; cases p <;> cases hp; exact .lexeme (ih _ rfl)
  | bindDst _ ih => intro p hp; cases p <;> cases hp; exact .bindDst (ih _ rfl)
  | construct _ ih => intro p hp; cases p <;> cases hp; exact .construct (ih _ rfl)
  | action _ ih => intro p hp; cases p <;> cases hp; exact .action (ih _ rfl)
  | except _ _ ih1 ih2 => intro p hp; cases p <;> cases hp; exact .except (ih1 _ rfl) (ih2 _ rfl)
  | exceptNo _ ih => intro p hp; cases p <;> cases hp; exact .exceptNo (ih _ rfl)
  | listNil _ ih => intro p hp; cases p <;> cases hp; exact .listNil (ih _ rfl)
  | list _ _ ih1 ih2 =>
    intro p hp; cases p <;> cases hp
    exact .list (ih1 _ rfl) (ih2 (.rep 0 0 (.seq [_, _])) rfl)
  | recur hq _ ih =>
    intro p hp; cases p <;> cases hp
    rename_i id
    rw [spacedEnv_even] at hq
    cases hid : env id with
    | none => rw [hid] at hq; cases hq
    | some q => rw [hid] at hq; cases hq; exact .recur hid (ih _ rfl)

theorem Peg.respaced {p : Pat} {i o} (h : Peg (spacedEnv s env) t p.unspaced i o) : Peg env t p i o :=
  h.respaced' p rfl

/-! ### Skipping -/

theorem Peg.rep_stopped {P i o} (h : Peg env t P i o) :
    P = .rep 0 0 s → ∃ k, o = some k ∧ Peg env t s k none := by
  induction h with
  | repStop h => intro e; cases e; exact ⟨_, rfl, h⟩
  | repMore _ _ _ _ ih => intro e; cases e; exact ih rfl
  | repFew h => intro e; cases e; cases h
  | _ => intro e; cases e

theorem Peg.rep_congr {a b : Pat} (hab : ∀ i o, Peg env t a i o → Peg env t b i o) {P i o}
    (h : Peg env t P i o) : ∀ {mn mx}, P = .rep mn mx a → Peg env t (.rep mn mx b) i o := by
  induction h with
  | repStop h => intro mn mx e; cases e; exact .repStop (hab _ _ h)
  | repFew hm h => intro mn mx e; cases e; exact .repFew hm (hab _ _ h)
  | repLast h => intro mn mx e; cases e; exact .repLast (hab _ _ h)
  | repMore hm h _ _ ih => intro mn mx e; cases e; exact .repMore hm (hab _ _ h) (ih rfl)
  | _ => intro mn mx e; cases e

variable {N : Nat → Nat} (hN : ∀ i, Peg env t (.rep 0 0 s) i (some (N i)))
include hN

theorem skips_idem (i : Nat) : N (N i) = N i := by
  obtain ⟨k, hk, h⟩ := (hN i).rep_stopped rfl
  cases hk
  have := (hN (N i)).unique (.repStop h)
  simpa using this

theorem skips_stop {i} (h : Peg env t s i none) : N i = i := by
  simpa using (hN i).unique (.repStop h)

theorem skips_step {i j} (h : Peg env t s i (some j)) : N j = N i := by
  simpa using (Peg.repMore (mn := 0) (mx := 0) (by simp) h (hN j)).unique (hN i)

theorem skip_discard (i : Nat) :
    Peg (spacedEnv s env) t (.discard (.rep 0 0 s.unspaced)) i (some (N i)) :=
  .discard ((hN i).unspaced (p := .rep 0 0 s))

theorem skipFirst_iff {q i o} : Peg (spacedEnv s env) t (skipFirst s q) i o ↔
    Peg (spacedEnv s env) t q (N i) o := by
  have hd : Peg (spacedEnv s env) t (.discard (.rep 0 0 s.unspaced)) i (some (N i)) :=
    .discard ((hN i).unspaced (p := .rep 0 0 s))
  constructor
  · intro h
    cases h with
    | seqNo h => cases h.unique hd
    | seq h1 h2 =>
      cases h1.unique hd
      cases h2 with
      | seqNo h => exact h
      | seq h h' => cases h'; exact h
  · intro h
    refine .seq hd ?_
    cases o with
    | none => exact .seqNo h
    | some j => exact .seq h .seqNil

theorem PegN.toSpaced {N' p i o} (h : PegN env t N' p i o) :
    N' = N → Peg (spacedEnv s env) t (within s p) i o := by
  induction h with
  | char h1 h2 => intro _; exact .char h1 h2
  | charNo h => intro _; exact .charNo h
  | charSymbol h1 h2 => intro _; exact .charSymbol h1 h2
  | charSymbolNo h => intro _; exact .charSymbolNo h
  | strLit h => intro _; exact .strLit h
  | strLitNo h => intro _; exact .strLitNo h
  | symbol h1 h2 => intro _; exact .symbol h1 h2
  | symbolNo h => intro _; exact .symbolNo h
  | uint h => intro _; exact .uint h
  | uintNo h => intro _; exact .uintNo h
  | int h1 h2 => intro _; exact .int h1 h2
  | intNo h1 h2 => intro _; exact .intNo h1 h2
  | eoi h => intro _; exact .eoi h
  | eoiNo h => intro _; exact .eoiNo h
  | pass => intro _; exact .pass
  | fail => intro _; exact .fail
  | seqNil => intro _; exact .seqNil
  | seqNo _ ih => rintro rfl; exact .seqNo ((skipFirst_iff hN).2 (ih rfl))
  | seq _ _ ih1 ih2 => rintro rfl; exact .seq ((skipFirst_iff hN).2 (ih1 rfl)) (ih2 rfl)
  | altNil => intro _; exact .altNil
  | alt _ ih => rintro rfl; exact .alt ((skipFirst_iff hN).2 (ih rfl))
  | altNo _ _ ih1 ih2 => rintro rfl; exact .altNo ((skipFirst_iff hN).2 (ih1 rfl)) (ih2 rfl)
  | repStop _ ih => rintro rfl; exact .repStop ((skipFirst_iff hN).2 (ih rfl))
  | repFew h _ ih => rintro rfl; exact .repFew h ((skipFirst_iff hN).2 (ih rfl))
  | repLast _ ih => rintro rfl; exact .repLast ((skipFirst_iff hN).2 (ih rfl))
  | repMore h _ _ ih1 ih2 =>
    rintro rfl; exact .repMore h ((skipFirst_iff hN).2 (ih1 rfl)) (ih2 rfl)
  | opt _ ih => rintro rfl; exact .opt ((skipFirst_iff hN).2 (ih rfl))
  | optNo _ ih => rintro rfl; exact .optNo ((skipFirst_iff hN).2 (ih rfl))
  | not _ ih => rintro rfl; exact .not ((skipFirst_iff hN).2 (ih rfl))
  | notNo _ ih => rintro rfl; exact .notNo ((skipFirst_iff hN).2 (ih rfl))
  | discard _ ih => rintro rfl; exact .discard ((skipFirst_iff hN).2 (ih rfl))
  | lexeme h _ => intro _; exact .lexeme h.toPeg.unspaced
  | bindDst _ ih => rintro rfl; exact .bindDst ((skipFirst_iff hN).2 (ih rfl))
  | construct _ ih => rintro rfl; exact .construct ((skipFirst_iff hN).2 (ih rfl))
  | action _ ih => rintro rfl; exact .action ((skipFirst_iff hN).2 (ih rfl))
  | except _ _ ih1 ih2 =>
    rintro rfl; exact .except ((skipFirst_iff hN).2 (ih1 rfl)) ((skipFirst_iff hN).2 (ih2 rfl))
  | exceptNo _ ih => rintro rfl; exact .exceptNo ((skipFirst_iff hN).2 (ih rfl))
  | listNil _ ih => rintro rfl; exact .listNil ((skipFirst_iff hN).2 (ih rfl))
  | @list N op sep i j o _ _ ih1 ih2 =>
    rintro rfl
    refine .list ((skipFirst_iff hN).2 (ih1 rfl)) (Peg.rep_congr ?_ (ih2 rfl) rfl)
    intro i o h
    have hseq : Peg (spacedEnv s env) t
      (.seq [skipFirst s (within s sep), skipFirst s (within s op)]) (N i) o := (skipFirst_iff hN).1 h
    cases hseq with
    | seqNo h0 =>
      have h1 := (skipFirst_iff hN).1 h0
      rw [skips_idem hN] at h1
      exact .seqNo ((skipFirst_iff hN).2 h1)
    | seq h0 h2 =>
      have h1 := (skipFirst_iff hN).1 h0
      rw [skips_idem hN] at h1
      exact .seq ((skipFirst_iff hN).2 h1) h2
  | recur hq _ ih =>
    rintro rfl
    exact .recur (by rw [spacedEnv_odd, hq]; rfl) ((skipFirst_iff hN).2 (ih rfl))

omit hN in
theorem within_seq {ps : List Pat} {p : Pat} (h : .seq ps = within s p) :
    ∃ qs, p = .seq qs ∧ ps = withins s qs := by
  cases p <;> first | exact ⟨_, rfl, Pat.seq.inj h⟩ | cases h

omit hN in
theorem within_alt {ps : List Pat} {p : Pat} (h : .alt ps = within s p) :
    ∃ qs, p = .alt qs ∧ ps = withins s qs := by
  cases p <;> first | exact ⟨_, rfl, Pat.alt.inj h⟩ | cases h

omit hN in
theorem withins_nil {qs : List Pat} (h : [] = withins s qs) : qs = [] := by
  cases qs with
  | nil => rfl
  | cons => cases h

omit hN in
theorem withins_cons {p : Pat} {ps qs : List Pat} (h : p :: ps = withins s qs) :
    ∃ q qs', qs = q :: qs' ∧ p = skipFirst s (within s q) ∧ ps = withins s qs' := by
  cases qs with
  | nil => cases h
  | cons q qs => exact ⟨q, qs, rfl, (List.cons.inj h).1, (List.cons.inj h).2⟩

/-- What is read off a derivation for a pattern with the skipping written out. -/
structure OfSpaced (env : Env) (t : List Ch) (s : Pat) (N : Nat → Nat) (P : Pat) (i : Nat)
    (o : Option Nat) : Prop where
  within : ∀ p, P = within s p → PegN env t N p i o
  tail : ∀ p, P = .seq [Abu.within s p] → PegN env t N p i o
  spaced : ∀ p, P = skipFirst s (Abu.within s p) → PegN env t N p (N i) o
  items : ∀ op sep,
    P = .rep 0 0 (.seq [skipFirst s (Abu.within s sep), skipFirst s (Abu.within s op)]) →
    PegN env t N (.rep 0 0 (.seq [sep, op])) i o

omit hN in
theorem OfSpaced.only {P i o} (h : ∀ p, P = Abu.within s p → PegN env t N p i o)
    (h1 : ∀ ps, P ≠ .seq ps) (h2 : ∀ p, P ≠ .rep 0 0 p) : OfSpaced env t s N P i o :=
  ⟨h, fun _ e => absurd e (h1 _), fun _ e => absurd e (h1 _), fun _ _ e => absurd e (h2 _)⟩

theorem PegN.seq_idem {ps i o} (h : PegN env t N (.seq ps) i o) (hne : ps ≠ []) :
    PegN env t N (.seq ps) (N i) o := by
  cases h with
  | seqNil => exact absurd rfl hne
  | seqNo h => exact .seqNo (by rwa [skips_idem hN])
  | seq h1 h2 => exact .seq (by rwa [skips_idem hN]) h2

theorem Peg.ofSpaced {P i o} (h : Peg (spacedEnv s env) t P i o) : OfSpaced env t s N P i o := by
  induction h with
  | char h1 h2 =>
    exact .only (fun p hp => by cases p <;> cases hp; exact .char h1 h2) (by simp) (by simp)
  | charNo h =>
    exact .only (fun p hp => by cases p <;> cases hp; exact .charNo h) (by simp) (by simp)
  | charSymbol h1 h2 =>
    exact .only (fun p hp => by cases p <;> cases hp; exact .charSymbol h1 h2) (by simp) (by simp)
  | charSymbolNo h =>
    exact .only (fun p hp => by cases p <;> cases hp; exact .charSymbolNo h) (by simp) (by simp)
  | strLit h =>
    exact .only (fun p hp => by cases p <;> cases hp; exact .strLit h) (by simp) (by simp)
  | strLitNo h =>
    exact .only (fun p hp => by cases p <;> cases hp; exact .strLitNo h) (by simp) (by simp)
  | symbol h1 h2 =>
    exact .only (fun p hp => by cases p <;> cases hp; exact .symbol h1 h2) (by simp) (by simp)
  | symbolNo h =>
    exact .only (fun p hp => by cases p <;> cases hp; exact .symbolNo h) (by simp) (by simp)
  | uint h =>
    exact .only (fun p hp => by cases p <;> cases hp; exact .uint h) (by simp) (by simp)
  | uintNo h =>
    exact .only (fun p hp => by cases p <;> cases hp; exact .uintNo h) (by simp) (by simp)
  | int h1 h2 =>
    exact .only (fun p hp => by cases p <;> cases hp; exact .int h1 h2) (by simp) (by simp)
  | intNo h1 h2 =>
    exact .only (fun p hp => by cases p <;> cases hp; exact .intNo h1 h2) (by simp) (by simp)
  | eoi h =>
    exact .only (fun p hp => by cases p <;> cases hp; exact .eoi h) (by simp) (by simp)
  | eoiNo h =>
    exact .only (fun p hp => by cases p <;> cases hp; exact .eoiNo h) (by simp) (by simp)
  | pass  =>
    exact .only (fun p hp => by cases p <;> cases hp; exact .pass ) (by simp) (by simp)
  | fail  =>
    exact .only (fun p hp => by cases p <;> cases hp; exact .fail ) (by simp) (by simp)
  | opt _ ih =>
    exact .only (fun p hp => by cases p <;> cases hp; exact .opt (ih.spaced _ rfl)) (by simp) (by simp)
  | optNo _ ih =>
    exact .only (fun p hp => by cases p <;> cases hp; exact .optNo (ih.spaced _ rfl)) (by simp) (by simp)
  | not _ ih =>
    exact .only (fun p hp => by cases p <;> cases hp; exact .not (ih.spaced _ rfl)) (by simp) (by simp)
  | notNo _ ih =>
    exact .only (fun p hp => by cases p <;> cases hp; exact .notNo (ih.spaced _ rfl)) (by simp) (by simp)
  | discard _ ih =>
    exact .only (fun p hp => by cases p <;> cases hp; exact .discard (ih.spaced _ rfl)) (by simp) (by simp)
  | bindDst _ ih =>
    exact .only (fun p hp => by cases p <;> cases hp; exact .bindDst (ih.spaced _ rfl)) (by simp) (by simp)
  | construct _ ih =>
    exact .only (fun p hp => by cases p <;> cases hp; exact .construct (ih.spaced _ rfl)) (by simp) (by simp)
  | action _ ih =>
    exact .only (fun p hp => by cases p <;> cases hp; exact .action (ih.spaced _ rfl)) (by simp) (by simp)
  | exceptNo _ ih =>
    exact .only (fun p hp => by cases p <;> cases hp; exact .exceptNo (ih.spaced _ rfl)) (by simp) (by simp)
  | listNil _ ih =>
    exact .only (fun p hp => by cases p <;> cases hp; exact .listNil (ih.spaced _ rfl)) (by simp) (by simp)
  | lexeme h _ =>
    exact .only (fun p hp => by cases p <;> cases hp; exact .lexeme h.respaced.toN) (by simp) (by simp)
  | except _ _ ih1 ih2 =>
    exact .only (fun p hp => by
      cases p <;> cases hp; exact .except (ih1.spaced _ rfl) (ih2.spaced _ rfl)) (by simp) (by simp)
  | list _ _ ih1 ih2 =>
    exact .only (fun p hp => by
      cases p <;> cases hp; exact .list (ih1.spaced _ rfl) (ih2.items _ _ rfl)) (by simp) (by simp)
  | recur hq _ ih =>
    refine .only (fun p hp => ?_) (by simp) (by simp)
    cases p <;> cases hp
    rename_i id
    rw [spacedEnv_odd] at hq
    cases hid : env id with
    | none => rw [hid] at hq; cases hq
    | some q => rw [hid] at hq; cases hq; exact .recur hid (ih.spaced _ rfl)
  | seqNil =>
    refine ⟨fun p hp => ?_, fun p hp => (by cases hp), fun p hp => (by cases hp),
      fun _ _ hp => (by cases hp)⟩
    obtain ⟨qs, rfl, h⟩ := within_seq hp
    cases withins_nil h
    exact .seqNil
  | seqNo h ih =>
    refine ⟨fun p hp => ?_, fun p hp => ?_, fun p hp => ?_, fun _ _ hp => by cases hp⟩
    · obtain ⟨qs, rfl, h⟩ := within_seq hp
      obtain ⟨q, qs, rfl, h1, h2⟩ := withins_cons h
      exact .seqNo (ih.spaced _ h1)
    · cases hp; exact ih.within _ rfl
    · cases hp
      cases h.unique (skip_discard hN _)
  | seq h h' ih1 ih2 =>
    refine ⟨fun p hp => ?_, fun p hp => ?_, fun p hp => ?_, fun _ _ hp => by cases hp⟩
    · obtain ⟨qs, rfl, h⟩ := within_seq hp
      obtain ⟨q, qs, rfl, h1, h2⟩ := withins_cons h
      exact .seq (ih1.spaced _ h1) (ih2.within (.seq qs) (congrArg Pat.seq h2))
    · cases hp; cases h'; exact ih1.within _ rfl
    · cases hp
      cases h.unique (skip_discard hN _)
      exact ih2.tail _ rfl
  | altNil =>
    refine .only (fun p hp => ?_) (by simp) (by simp)
    obtain ⟨qs, rfl, h⟩ := within_alt hp
    cases withins_nil h
    exact .altNil
  | alt _ ih =>
    refine .only (fun p hp => ?_) (by simp) (by simp)
    obtain ⟨qs, rfl, h⟩ := within_alt hp
    obtain ⟨q, qs, rfl, h1, h2⟩ := withins_cons h
    exact .alt (ih.spaced _ h1)
  | altNo _ _ ih1 ih2 =>
    refine .only (fun p hp => ?_) (by simp) (by simp)
    obtain ⟨qs, rfl, h⟩ := within_alt hp
    obtain ⟨q, qs, rfl, h1, h2⟩ := withins_cons h
    exact .altNo (ih1.spaced _ h1) (ih2.within (.alt qs) (congrArg Pat.alt h2))
  | repStop _ ih =>
    refine ⟨fun p hp => ?_, fun p hp => (by cases hp), fun p hp => (by cases hp), fun op sep hp => ?_⟩
    · cases p <;> cases hp; exact .repStop (ih.spaced _ rfl)
    · cases hp
      exact .repStop ((ih.within (.seq [sep, op]) rfl).seq_idem hN (by simp))
  | repFew hm _ ih =>
    refine ⟨fun p hp => ?_, fun p hp => (by cases hp), fun p hp => (by cases hp), fun op sep hp => ?_⟩
    · cases p <;> cases hp; exact .repFew hm (ih.spaced _ rfl)
    · cases hp; cases hm
  | repLast _ ih =>
    refine ⟨fun p hp => ?_, fun p hp => (by cases hp), fun p hp => (by cases hp), fun op sep hp => ?_⟩
    · cases p <;> cases hp; exact .repLast (ih.spaced _ rfl)
    · cases hp
  | repMore hm _ _ ih1 ih2 =>
    refine ⟨fun p hp => ?_, fun p hp => (by cases hp), fun p hp => (by cases hp), fun op sep hp => ?_⟩
    · cases p <;> cases hp; exact .repMore hm (ih1.spaced _ rfl) (ih2.within (.rep _ _ _) rfl)
    · cases hp
      exact .repMore hm ((ih1.within (.seq [sep, op]) rfl).seq_idem hN (by simp)) (ih2.items _ _ rfl)

/-- Skipping by hand is skipping. -/
theorem spaced_iff {p i o} : Peg (spacedEnv s env) t (spaced s p) i o ↔ PegN env t N p (N i) o :=
  ⟨fun h => (h.ofSpaced hN).spaced p rfl, fun h => (skipFirst_iff hN).2 (h.toSpaced hN rfl)⟩

end
end Abu
