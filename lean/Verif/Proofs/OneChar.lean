import Verif.Spec.OneChar
import Verif.Proofs.ScanSkip
/-
Patterns that are decided by one character.
-/
namespace Abu

mutual
theorem oneChar_tidy : ∀ (p : Pat) {els elf : Stale} {c : Bool} {ls lf : Stale}, p.oneChar = true →
    p.tidy false els elf c ls lf = true
  | .char _, _, _, _, _, _, _ => rfl
  | .alt ps, _, _, _, _, _, h => by
    rw [Pat.oneChar, Bool.and_eq_true] at h
    rw [Pat.tidy, h.1, oneChars_tidy ps h.2]; rfl
  | .discard p, _, _, _, _, _, h => oneChar_tidy p h
  | .lexeme p, _, _, _, _, _, h => by rw [Pat.tidy, oneChar_tidy p h]; rfl
  | .bindDst p, _, _, _, _, _, h => oneChar_tidy p h
  | .construct _ p, _, _, _, _, _, h => oneChar_tidy p h
  | .action _ p, _, _, _, _, _, h => oneChar_tidy p h
theorem oneChars_tidy : ∀ (ps : List Pat) {els elf ls lf : Stale}, Pat.oneChars ps = true →
    Pat.tidyAlt false els elf ls lf ps = true
  | [], _, _, _, _, _ => rfl
  | p :: ps, _, _, _, _, h => by
    rw [Pat.oneChars, Bool.and_eq_true] at h
    rw [Pat.tidyAlt, oneChar_tidy p h.1, oneChars_tidy ps h.2]; rfl
end

theorem oneChar_noMark : ∀ (p : Pat), p.oneChar = true → p.noMark true = true
  | .char _, _ => rfl
  | .alt [], h => by cases h
  | .alt (p :: ps), h => by
    rw [Pat.oneChar, Bool.and_eq_true, Pat.oneChars, Bool.and_eq_true] at h
    rw [Pat.noMark]
    exact oneChar_noMark p h.2.1
  | .discard p, h => oneChar_noMark p h
  | .lexeme p, h => oneChar_noMark p h
  | .bindDst p, h => oneChar_noMark p h
  | .construct _ p, h => oneChar_noMark p h
  | .action _ p, h => oneChar_noMark p h

mutual
theorem oneChar_relabel (f : Nat → Nat) : ∀ (p : Pat), p.oneChar = true → p.relabel f = p
  | .char _, _ => rfl
  | .alt ps, h => by
    rw [Pat.oneChar, Bool.and_eq_true] at h
    rw [Pat.relabel, oneChars_relabel f ps h.2]
  | .discard p, h => congrArg Pat.discard (oneChar_relabel f p h)
  | .lexeme p, h => congrArg Pat.lexeme (oneChar_relabel f p h)
  | .bindDst p, h => congrArg Pat.bindDst (oneChar_relabel f p h)
  | .construct _ p, h => congrArg (Pat.construct _) (oneChar_relabel f p h)
  | .action _ p, h => congrArg (Pat.action _) (oneChar_relabel f p h)
theorem oneChars_relabel (f : Nat → Nat) : ∀ (ps : List Pat), Pat.oneChars ps = true → Pat.relabels f ps = ps
  | [], _ => rfl
  | p :: ps, h => by
    rw [Pat.oneChars, Bool.and_eq_true] at h
    rw [Pat.relabels, oneChar_relabel f p h.1, oneChars_relabel f ps h.2]
end

section
variable {env : Env} {t : List Ch}

/-- At the end of the text nothing can be said. -/
def OneStep (env : Env) (t : List Ch) (p : Pat) : Prop := ∀ i,
  (∃ o, Peg env t p i o ∧ (o = none ∨ o = some (i + 1) ∧ i < t.length)) ∧
  ∀ a, Scan env t p i a → (a = .more ↔ t.length ≤ i)

mutual
theorem oneChar_step : ∀ (p : Pat), p.oneChar = true → OneStep env t p
  | .char cs, _ => by
    intro i
    constructor
    · cases hc : t[i]? with
      | none => exact ⟨none, .charNo (fun c h => by rw [hc] at h; cases h), .inl rfl⟩
      | some c =>
        cases hv : cs.isValid c with
        | true => exact ⟨_, .char hc hv, .inr ⟨rfl, (List.getElem?_eq_some_iff.1 hc).1⟩⟩
        | false => exact ⟨none, .charNo (fun c' h => by rw [hc] at h; cases h; exact hv), .inl rfl⟩
    · intro a h
      rw [← List.drop_eq_nil_iff]
      cases h with
      | leafMore h => exact ⟨fun _ => h, fun _ => rfl⟩
      | leafNo _ h => exact ⟨nofun, fun e => absurd e h⟩
      | leaf _ h => exact ⟨nofun, fun e => absurd e h⟩
  | .alt ps, h => by
    rw [Pat.oneChar, Bool.and_eq_true] at h
    intro i
    refine ⟨(oneChars_step ps h.2 i).1, fun a ha => (oneChars_step ps h.2 i).2 a ha ?_⟩
    rintro rfl
    cases h.1
  | .discard p, h => by
    intro i
    obtain ⟨⟨o, h1, h2⟩, h3⟩ := oneChar_step p h i
    refine ⟨⟨o, .discard h1, h2⟩, fun a ha => ?_⟩
    cases ha with
    | leafMore h => exact h.elim
    | leafNo h => cases h
    | leaf h => cases h
    | discard ha => exact h3 a ha
  | .lexeme p, h => by
    intro i
    obtain ⟨⟨o, h1, h2⟩, h3⟩ := oneChar_step p h i
    refine ⟨⟨o, .lexeme h1, h2⟩, fun a ha => ?_⟩
    cases ha with
    | leafMore h => exact h.elim
    | leafNo h => cases h
    | leaf h => cases h
    | lexeme ha => exact h3 a ha
  | .bindDst p, h => by
    intro i
    obtain ⟨⟨o, h1, h2⟩, h3⟩ := oneChar_step p h i
    refine ⟨⟨o, .bindDst h1, h2⟩, fun a ha => ?_⟩
    cases ha with
    | leafMore h => exact h.elim
    | leafNo h => cases h
    | leaf h => cases h
    | bindDst ha => exact h3 a ha
  | .construct _ p, h => by
    intro i
    obtain ⟨⟨o, h1, h2⟩, h3⟩ := oneChar_step p h i
    refine ⟨⟨o, .construct h1, h2⟩, fun a ha => ?_⟩
    cases ha with
    | leafMore h => exact h.elim
    | leafNo h => cases h
    | leaf h => cases h
    | construct ha => exact h3 a ha
  | .action _ p, h => by
    intro i
    obtain ⟨⟨o, h1, h2⟩, h3⟩ := oneChar_step p h i
    refine ⟨⟨o, .action h1, h2⟩, fun a ha => ?_⟩
    cases ha with
    | leafMore h => exact h.elim
    | leafNo h => cases h
    | leaf h => cases h
    | action ha => exact h3 a ha
theorem oneChars_step : ∀ (ps : List Pat), Pat.oneChars ps = true → ∀ i,
    (∃ o, Peg env t (.alt ps) i o ∧ (o = none ∨ o = some (i + 1) ∧ i < t.length)) ∧
    ∀ a, Scan env t (.alt ps) i a → ps ≠ [] → (a = .more ↔ t.length ≤ i)
  | [], _ => fun _ => ⟨⟨none, .altNil, .inl rfl⟩, fun _ _ h => absurd rfl h⟩
  | p :: ps, h => by
    rw [Pat.oneChars, Bool.and_eq_true] at h
    intro i
    obtain ⟨⟨o, h1, h2⟩, h3⟩ := oneChar_step p h.1 i
    obtain ⟨⟨o', h1', h2'⟩, h3'⟩ := oneChars_step ps h.2 i
    constructor
    · cases o with
      | none => exact ⟨o', .altNo h1 h1', h2'⟩
      | some j => exact ⟨some j, .alt h1, h2⟩
    · intro a ha _
      cases ha with
      | leafMore h => exact h.elim
      | leafNo h => cases h
      | leaf h => cases h
      | altMore ha => exact h3 _ ha
      | alt ha => exact ⟨nofun, fun e => absurd ((h3 _ ha).2 e) nofun⟩
      | altNo ha ha' =>
        have hlt : ¬ t.length ≤ i := fun e => absurd ((h3 _ ha).2 e) nofun
        cases ps with
        | nil =>
          cases ha' with
          | leafMore h => exact h.elim
          | leafNo h => cases h
          | leaf h => cases h
          | altNil => exact ⟨nofun, fun e => absurd e hlt⟩
        | cons p' ps' => exact h3' _ ha' (by simp)
end

variable {s : Pat}

/-- Such a pattern can be skipped everywhere. -/
theorem oneChar_skips (hs : s.oneChar = true) :
    ∃ N : Nat → Nat, (∀ i, Peg env t (.rep 0 0 s) i (some (N i))) ∧ ∀ i, i ≤ N i := by
  have : ∀ n i, t.length - i ≤ n → ∃ j, Peg env t (.rep 0 0 s) i (some j) ∧ i ≤ j := by
    intro n
    induction n with
    | zero =>
      intro i hi
      obtain ⟨o, h1, h2⟩ := (oneChar_step (env := env) (t := t) s hs i).1
      rcases h2 with rfl | ⟨rfl, h2⟩
      · exact ⟨i, .repStop h1, Nat.le_refl _⟩
      · omega
    | succ n ih =>
      intro i hi
      obtain ⟨o, h1, h2⟩ := (oneChar_step (env := env) (t := t) s hs i).1
      rcases h2 with rfl | ⟨rfl, h2⟩
      · exact ⟨i, .repStop h1, Nat.le_refl _⟩
      · obtain ⟨j, h3, h4⟩ := ih (i + 1) (by omega)
        exact ⟨j, .repMore (by simp) h1 h3, by omega⟩
  have := fun i => this _ i (Nat.le_refl _)
  exact ⟨fun i => (this i).choose, fun i => (this i).choose_spec.1, fun i => (this i).choose_spec.2⟩

variable {N : Nat → Nat} (hN : ∀ i, Peg env t (.rep 0 0 s) i (some (N i))) (hle : ∀ i, i ≤ N i)

/-- Skipping asks for more if and only if it gets to the end of the text. -/
theorem oneChar_waits {env' : Env} (hs : s.oneChar = true) (hN : ∀ i, Peg env' t (.rep 0 0 s) i (some (N i)))
    (hle : ∀ i, i ≤ N i) {P i a} (h : Scan env' t P i a) :
    ∀ {mn mx}, P = .rep mn mx s → mx = 0 → i ≤ t.length → (a = .more ↔ N i = t.length) := by
  induction h with
  | leafMore h => intro _ _ e; subst e; exact h.elim
  | leafNo h => intro _ _ e; subst e; cases h
  | leaf h => intro _ _ e; subst e; cases h
  | @repWait mn mx p i h =>
    rintro _ _ ⟨⟩ _ hi
    have h1 := ((oneChar_step s hs i).2 _ h).1 rfl
    have h2 := Peg.within (hN i) hi _ rfl
    have := hle i
    exact ⟨fun _ => by omega, fun _ => rfl⟩
  | @repStop mx p i h =>
    rintro _ _ ⟨⟩ _ hi
    have h1 : ¬ t.length ≤ i := fun e => absurd (((oneChar_step s hs i).2 _ h).2 e) nofun
    rw [skips_stop hN h.peg]
    exact ⟨nofun, fun e => by omega⟩
  | @repFew mn mx p i hm h =>
    rintro _ _ ⟨⟩ _ hi
    have h1 : ¬ t.length ≤ i := fun e => absurd (((oneChar_step s hs i).2 _ h).2 e) nofun
    rw [skips_stop hN h.peg]
    exact ⟨nofun, fun e => by omega⟩
  | repLast => rintro _ _ ⟨⟩ e; cases e
  | @repMore mn mx p i j a hm h1 h2 _ ih =>
    rintro _ _ ⟨⟩ e hi
    rw [← skips_step hN h1.peg]
    exact ih rfl (by omega) (Peg.within h1.peg hi _ rfl)
  | _ => intro _ _ e; cases e

/-! ### Renaming -/

theorem unspaced_leaf {p : Pat} (h : p.unspaced.isLeaf = true) : p.unspaced = p := by
  cases p <;> first | rfl | cases h

theorem within_leaf {p : Pat} (h : (within s p).isLeaf = true) : within s p = p := by
  cases p <;> first | rfl | cases h

theorem Scan.respaced' {P i a} (h : Scan (spacedEnv s env) t P i a) :
    ∀ p : Pat, P = p.unspaced → Scan env t p i a := by
  induction h with
  | leafMore h =>
    intro p hp; subst hp
    rw [unspaced_leaf h.isLeaf] at h
    exact .leafMore h
  | leafNo hl h h' =>
    intro p hp; subst hp
    have h' := h'.respaced
    have e := unspaced_leaf hl
    rw [e] at hl h
    exact .leafNo hl h h'
  | leaf hl h h' =>
    intro p hp; subst hp
    have h' := h'.respaced
    have e := unspaced_leaf hl
    rw [e] at hl h
    exact .leaf hl h h'
  | seqNil =>
    intro p hp
    obtain ⟨qs, rfl, h⟩ := unspaced_seq hp
    cases relabels_nil h
    exact .seqNil
  | altNil =>
    intro p hp
    obtain ⟨qs, rfl, h⟩ := unspaced_alt hp
    cases relabels_nil h
    exact .altNil
  | seqMore _ ih =>
    intro p hp
    obtain ⟨qs, rfl, h⟩ := unspaced_seq hp
    obtain ⟨q, qs, rfl, h1, h2⟩ := relabels_cons h
    exact .seqMore (ih _ h1)
  | seqNo _ ih =>
    intro p hp
    obtain ⟨qs, rfl, h⟩ := unspaced_seq hp
    obtain ⟨q, qs, rfl, h1, h2⟩ := relabels_cons h
    exact .seqNo (ih _ h1)
  | seq _ _ ih1 ih2 =>
    intro p hp
    obtain ⟨qs, rfl, h⟩ := unspaced_seq hp
    obtain ⟨q, qs, rfl, h1, h2⟩ := relabels_cons h
    exact .seq (ih1 _ h1) (ih2 (.seq qs) (congrArg Pat.seq h2))
  | altMore _ ih =>
    intro p hp
    obtain ⟨qs, rfl, h⟩ := unspaced_alt hp
    obtain ⟨q, qs, rfl, h1, h2⟩ := relabels_cons h
    exact .altMore (ih _ h1)
  | alt _ ih =>
    intro p hp
    obtain ⟨qs, rfl, h⟩ := unspaced_alt hp
    obtain ⟨q, qs, rfl, h1, h2⟩ := relabels_cons h
    exact .alt (ih _ h1)
  | altNo _ _ ih1 ih2 =>
    intro p hp
    obtain ⟨qs, rfl, h⟩ := unspaced_alt hp
    obtain ⟨q, qs, rfl, h1, h2⟩ := relabels_cons h
    exact .altNo (ih1 _ h1) (ih2 (.alt qs) (congrArg Pat.alt h2))
  | repWait _ ih => intro p hp; cases p <;> cases hp; exact .repWait (ih _ rfl)
  | repStop _ ih => intro p hp; cases p <;> cases hp; exact .repStop (ih _ rfl)
  | repFew h _ ih => intro p hp; cases p <;> cases hp; exact .repFew h (ih _ rfl)
  | repLast _ ih => intro p hp; cases p <;> cases hp; exact .repLast (ih _ rfl)
  | repMore h _ _ ih1 ih2 =>
    intro p hp; cases p <;> cases hp; exact .repMore h (ih1 _ rfl) (ih2 (.rep _ _ _) rfl)
  | optMore _ ih => intro p hp; cases p <;> cases hp; exact .optMore (ih _ rfl)
  | opt _ ih => intro p hp; cases p <;> cases hp; exact .opt (ih _ rfl)
  | optNo _ ih => intro p hp; cases p <;> cases hp; exact .optNo (ih _ rfl)
  | notMore _ ih => intro p hp; cases p <;> cases hp; exact .notMore (ih _ rfl)
  | not _ ih => intro p hp; cases p <;> cases hp; exact .not (ih _ rfl)
  | notNo _ ih => intro p hp; cases p <;> cases hp; exact .notNo (ih _ rfl)
  | discard _ ih => intro p hp; cases p <;> cases hp; exact .discard (ih _ rfl)
  | lexeme _ ih => intro p hp; cases p <;> cases hp; exact .lexeme (ih _ rfl)
  | bindDst _ ih => intro p hp; cases p <;> cases hp; exact .bindDst (ih _ rfl)
  | construct _ ih => intro p hp; cases p <;> cases hp; exact .construct (ih _ rfl)
  | action _ ih => intro p hp; cases p <;> cases hp; exact .action (ih _ rfl)
  | exceptMore _ ih => intro p hp; cases p <;> cases hp; exact .exceptMore (ih _ rfl)
  | except _ _ ih1 ih2 => intro p hp; cases p <;> cases hp; exact .except (ih1 _ rfl) (ih2 _ rfl)
  | exceptNo _ ih => intro p hp; cases p <;> cases hp; exact .exceptNo (ih _ rfl)
  | listMore _ ih => intro p hp; cases p <;> cases hp; exact .listMore (ih _ rfl)
  | listNil _ ih => intro p hp; cases p <;> cases hp; exact .listNil (ih _ rfl)
  | list _ _ ih1 ih2 =>
    intro p hp; cases p <;> cases hp
    exact .list (ih1 _ rfl) (ih2 (.rep 0 0 (.seq [_, _])) rfl)
  | recur hq _ ih =>
    intro p hp; cases p <;> cases hp
    rename_i id
    rw [spacedEnv_even] at hq
    cases hid : env id with
    | none => rw [hid] at hq; cases hq
    | some q => rw [hid] at hq; cases hq; exact .recur hid (ih _ rfl)

/-! ### Skipping written out -/

open SkipScan

/-- What is read off a derivation for a pattern with the skipping written out. -/
structure ScanSpaced (env : Env) (t : List Ch) (s : Pat) (N : Nat → Nat) (P : Pat) (i : Nat)
    (a : Ans) : Prop where
  within : ∀ p, P = within s p → ScanN env t N false true p i a
  tail : ∀ p, P = .seq [Abu.within s p] → ScanN env t N false true p i a
  spaced : ∀ p, P = skipFirst s (Abu.within s p) → ScanN env t N true true p i a
  items : ∀ op sep,
    P = .rep 0 0 (.seq [skipFirst s (Abu.within s sep), skipFirst s (Abu.within s op)]) →
    ScanN env t N false true (.rep 0 0 (.seq [sep, op])) i a

theorem ScanSpaced.only {P i a} (h : ∀ p, P = Abu.within s p → ScanN env t N false true p i a)
    (h1 : ∀ ps, P ≠ .seq ps) (h2 : ∀ p, P ≠ .rep 0 0 p) : ScanSpaced env t s N P i a :=
  ⟨h, fun _ e => absurd e (h1 _), fun _ e => absurd e (h1 _), fun _ _ e => absurd e (h2 _)⟩

include hN

theorem ScanN.full_idem {p i a} (h : ScanN env t N true true p (N i) a) : ScanN env t N true true p i a := by
  have hid := skips_idem hN i
  cases h with
  | wait h => exact .wait (hid.symm.trans h)
  | enter h1 h2 =>
    refine .enter (fun h => by rw [← hid]; exact h1 h) ?_
    have e : nn N true (N i) = nn N true i := hid
    rwa [e] at h2

/-- The first part of a sequence skips; it does not matter whether the sequence has skipped before. -/
theorem ScanN.seq_item {p ps i a} (h : ScanN env t N false true (.seq (p :: ps)) i a) :
    ScanN env t N true true (.seq (p :: ps)) i a := by
  have hid := skips_idem hN i
  have up : ∀ {a}, ScanN env t N true true p i a → ScanN env t N true true p (N i) a := by
    intro a h
    cases h with
    | wait h => exact .wait (hid.trans h)
    | enter h1 h2 =>
      refine .enter (fun h => by rw [hid]; exact h1 h) ?_
      have e : nn N true (N i) = nn N true i := hid
      rwa [e]
  by_cases hw : N i = t.length
  · have hm : ∀ {a}, ScanN env t N true true p i a → a = .more := by
      intro a h
      cases h with
      | wait => rfl
      | enter h1 => exact absurd hw (h1 rfl)
    have : a = .more := by
      cases h with
      | leafMore h => exact h.elim
      | leafNo h => cases h
      | leaf h => cases h
      | seqMore => rfl
      | seqNo h => cases hm h
      | seq h => cases hm h
    subst this
    exact .wait hw
  · refine .enter (fun _ => hw) ?_
    cases h with
    | leafMore h => exact h.elim
    | leafNo h => cases h
    | leaf h => cases h
    | seqMore h => exact .seqMore (up h)
    | seqNo h => exact .seqNo (up h)
    | seq h h' => exact .seq (up h) h'

include hle

theorem Scan.ofSpaced (hs : s.oneChar = true) {P i a} (h : Scan (spacedEnv s env) t P i a) :
    i ≤ t.length → ScanSpaced env t s N P i a := by
  have hN' : ∀ i, Peg (spacedEnv s env) t (.rep 0 0 s) i (some (N i)) := by
    intro i
    have := (hN i).unspaced (s := s)
    rwa [show (Pat.rep 0 0 s).unspaced = .rep 0 0 s from congrArg (Pat.rep 0 0) (oneChar_relabel _ s hs)] at this
  have hun : s.unspaced = s := oneChar_relabel _ s hs
  have skip : ∀ {i a}, Scan (spacedEnv s env) t (.discard (.rep 0 0 s.unspaced)) i a → i ≤ t.length →
      (a = .more ∧ N i = t.length) ∨ (a = .yes (N i) ∧ N i ≠ t.length) := by
    intro i a h hi
    rw [hun] at h
    cases h with
    | leafMore h => exact h.elim
    | leafNo h => cases h
    | leaf h => cases h
    | discard h =>
      have hw := oneChar_waits hs hN' hle h rfl rfl hi
      have hp := h.peg
      cases a with
      | more => exact .inl ⟨rfl, hw.1 rfl⟩
      | no => cases (hN' i).unique hp
      | yes j =>
        cases (hN' i).unique hp
        exact .inr ⟨rfl, fun e => absurd (hw.2 e) nofun⟩
  have inT : ∀ {p i j}, Scan (spacedEnv s env) t p i (.yes j) → i ≤ t.length → j ≤ t.length :=
    fun h hi => Peg.within h.peg hi _ rfl
  induction h with
  | leafMore h =>
    intro _
    refine .only (fun p hp => ?_) (by rintro _ rfl; exact h.elim) (by rintro _ rfl; exact h.elim)
    subst hp
    rw [within_leaf h.isLeaf] at h
    exact .leafMore h
  | leafNo hl h h' =>
    intro _
    refine .only (fun p hp => ?_) (by rintro _ rfl; cases hl) (by rintro _ rfl; cases hl)
    have h2 := (h'.ofSpaced hN).within p hp
    subst hp
    have e := within_leaf hl
    rw [e] at hl h
    exact .leafNo hl h h2
  | leaf hl h h' =>
    intro _
    refine .only (fun p hp => ?_) (by rintro _ rfl; cases hl) (by rintro _ rfl; cases hl)
    have h2 := (h'.ofSpaced hN).within p hp
    subst hp
    have e := within_leaf hl
    rw [e] at hl h
    exact .leaf hl h h2
  | optMore _ ih =>
    intro hi
    exact .only (fun p hp => by cases p <;> cases hp; exact .optMore ((ih hi).spaced _ rfl)) (by simp) (by simp)
  | opt _ ih =>
    intro hi
    exact .only (fun p hp => by cases p <;> cases hp; exact .opt ((ih hi).spaced _ rfl)) (by simp) (by simp)
  | optNo _ ih =>
    intro hi
    exact .only (fun p hp => by cases p <;> cases hp; exact .optNo ((ih hi).spaced _ rfl)) (by simp) (by simp)
  | notMore _ ih =>
    intro hi
    exact .only (fun p hp => by cases p <;> cases hp; exact .notMore ((ih hi).spaced _ rfl)) (by simp) (by simp)
  | not _ ih =>
    intro hi
    exact .only (fun p hp => by cases p <;> cases hp; exact .not ((ih hi).spaced _ rfl)) (by simp) (by simp)
  | notNo _ ih =>
    intro hi
    exact .only (fun p hp => by cases p <;> cases hp; exact .notNo ((ih hi).spaced _ rfl)) (by simp) (by simp)
  | discard _ ih =>
    intro hi
    exact .only (fun p hp => by cases p <;> cases hp; exact .discard ((ih hi).spaced _ rfl)) (by simp) (by simp)
  | bindDst _ ih =>
    intro hi
    exact .only (fun p hp => by cases p <;> cases hp; exact .bindDst ((ih hi).spaced _ rfl)) (by simp) (by simp)
  | construct _ ih =>
    intro hi
    exact .only (fun p hp => by cases p <;> cases hp; exact .construct ((ih hi).spaced _ rfl)) (by simp) (by simp)
  | action _ ih =>
    intro hi
    exact .only (fun p hp => by cases p <;> cases hp; exact .action ((ih hi).spaced _ rfl)) (by simp) (by simp)
  | exceptMore _ ih =>
    intro hi
    exact .only (fun p hp => by cases p <;> cases hp; exact .exceptMore ((ih hi).spaced _ rfl)) (by simp) (by simp)
  | exceptNo _ ih =>
    intro hi
    exact .only (fun p hp => by cases p <;> cases hp; exact .exceptNo ((ih hi).spaced _ rfl)) (by simp) (by simp)
  | listMore _ ih =>
    intro hi
    exact .only (fun p hp => by cases p <;> cases hp; exact .listMore ((ih hi).spaced _ rfl)) (by simp) (by simp)
  | listNil _ ih =>
    intro hi
    exact .only (fun p hp => by cases p <;> cases hp; exact .listNil ((ih hi).spaced _ rfl)) (by simp) (by simp)
  | lexeme h _ =>
    intro _
    exact .only (fun p hp => by cases p <;> cases hp; exact .lexeme (h.respaced' _ rfl).toN) (by simp) (by simp)
  | except _ _ ih1 ih2 =>
    intro hi
    exact .only (fun p hp => by
      cases p <;> cases hp; exact .except ((ih1 hi).spaced _ rfl) ((ih2 hi).spaced _ rfl)) (by simp) (by simp)
  | list h _ ih1 ih2 =>
    intro hi
    exact .only (fun p hp => by
      cases p <;> cases hp
      exact .list ((ih1 hi).spaced _ rfl) ((ih2 (inT h hi)).items _ _ rfl)) (by simp) (by simp)
  | recur hq _ ih =>
    intro hi
    refine .only (fun p hp => ?_) (by simp) (by simp)
    cases p <;> cases hp
    rename_i id
    rw [spacedEnv_odd] at hq
    cases hid : env id with
    | none => rw [hid] at hq; cases hq
    | some q => rw [hid] at hq; cases hq; exact .recur hid ((ih hi).spaced _ rfl)
  | seqNil =>
    intro _
    refine ⟨fun p hp => ?_, fun p hp => (by cases hp), fun p hp => (by cases hp),
      fun _ _ hp => (by cases hp)⟩
    obtain ⟨qs, rfl, h⟩ := within_seq hp
    cases withins_nil h
    exact .seqNil
  | seqMore h ih =>
    intro hi
    refine ⟨fun p hp => ?_, fun p hp => ?_, fun p hp => ?_, fun _ _ hp => by cases hp⟩
    · obtain ⟨qs, rfl, h⟩ := within_seq hp
      obtain ⟨q, qs, rfl, h1, h2⟩ := withins_cons h
      exact .seqMore ((ih hi).spaced _ h1)
    · cases hp; exact (ih hi).within _ rfl
    · cases hp
      rcases skip h hi with ⟨_, h2⟩ | ⟨h2, _⟩
      · exact .wait h2
      · cases h2
  | seqNo h ih =>
    intro hi
    refine ⟨fun p hp => ?_, fun p hp => ?_, fun p hp => ?_, fun _ _ hp => by cases hp⟩
    · obtain ⟨qs, rfl, h⟩ := within_seq hp
      obtain ⟨q, qs, rfl, h1, h2⟩ := withins_cons h
      exact .seqNo ((ih hi).spaced _ h1)
    · cases hp; exact (ih hi).within _ rfl
    · cases hp
      rcases skip h hi with ⟨h2, _⟩ | ⟨h2, _⟩ <;> cases h2
  | seq h h' ih1 ih2 =>
    intro hi
    refine ⟨fun p hp => ?_, fun p hp => ?_, fun p hp => ?_, fun _ _ hp => by cases hp⟩
    · obtain ⟨qs, rfl, h0⟩ := within_seq hp
      obtain ⟨q, qs, rfl, h1, h2⟩ := withins_cons h0
      exact .seq ((ih1 hi).spaced _ h1) ((ih2 (inT h hi)).within (.seq qs) (congrArg Pat.seq h2))
    · cases hp
      cases h' with
      | leafMore h => exact h.elim
      | leafNo h => cases h
      | leaf h => cases h
      | seqNil => exact (ih1 hi).within _ rfl
    · cases hp
      have hj := inT h hi
      rcases skip h hi with ⟨h2, _⟩ | ⟨h2, h3⟩
      · cases h2
      · cases h2
        exact .enter (fun _ => h3) ((ih2 hj).tail _ rfl)
  | altNil =>
    intro _
    refine .only (fun p hp => ?_) (by simp) (by simp)
    obtain ⟨qs, rfl, h⟩ := within_alt hp
    cases withins_nil h
    exact .altNil
  | altMore _ ih =>
    intro hi
    refine .only (fun p hp => ?_) (by simp) (by simp)
    obtain ⟨qs, rfl, h⟩ := within_alt hp
    obtain ⟨q, qs, rfl, h1, h2⟩ := withins_cons h
    exact .altMore ((ih hi).spaced _ h1)
  | alt _ ih =>
    intro hi
    refine .only (fun p hp => ?_) (by simp) (by simp)
    obtain ⟨qs, rfl, h⟩ := within_alt hp
    obtain ⟨q, qs, rfl, h1, h2⟩ := withins_cons h
    exact .alt ((ih hi).spaced _ h1)
  | altNo _ _ ih1 ih2 =>
    intro hi
    refine .only (fun p hp => ?_) (by simp) (by simp)
    obtain ⟨qs, rfl, h⟩ := within_alt hp
    obtain ⟨q, qs, rfl, h1, h2⟩ := withins_cons h
    exact .altNo ((ih1 hi).spaced _ h1) ((ih2 hi).within (.alt qs) (congrArg Pat.alt h2))
  | repWait _ ih =>
    intro hi
    refine ⟨fun p hp => ?_, fun p hp => (by cases hp), fun p hp => (by cases hp), fun op sep hp => ?_⟩
    · cases p <;> cases hp; exact .repWait ((ih hi).spaced _ rfl)
    · cases hp
      exact .repWait (ScanN.seq_item hN ((ih hi).within (.seq [sep, op]) rfl))
  | repStop _ ih =>
    intro hi
    refine ⟨fun p hp => ?_, fun p hp => (by cases hp), fun p hp => (by cases hp), fun op sep hp => ?_⟩
    · cases p <;> cases hp; exact .repStop ((ih hi).spaced _ rfl)
    · cases hp
      exact .repStop (ScanN.seq_item hN ((ih hi).within (.seq [sep, op]) rfl))
  | repFew hm _ ih =>
    intro hi
    refine ⟨fun p hp => ?_, fun p hp => (by cases hp), fun p hp => (by cases hp), fun op sep hp => ?_⟩
    · cases p <;> cases hp; exact .repFew hm ((ih hi).spaced _ rfl)
    · cases hp; cases hm
  | repLast _ ih =>
    intro hi
    refine ⟨fun p hp => ?_, fun p hp => (by cases hp), fun p hp => (by cases hp), fun op sep hp => ?_⟩
    · cases p <;> cases hp; exact .repLast ((ih hi).spaced _ rfl)
    · cases hp
  | repMore hm h _ ih1 ih2 =>
    intro hi
    refine ⟨fun p hp => ?_, fun p hp => (by cases hp), fun p hp => (by cases hp), fun op sep hp => ?_⟩
    · cases p <;> cases hp
      exact .repMore hm ((ih1 hi).spaced _ rfl) ((ih2 (inT h hi)).within (.rep _ _ _) rfl)
    · cases hp
      exact .repMore hm (ScanN.seq_item hN ((ih1 hi).within (.seq [sep, op]) rfl))
        ((ih2 (inT h hi)).items _ _ rfl)

end

/-- A parser object with such a skipper asks for more if and only if nothing can be said yet of the
pattern with the skipping written out. -/
theorem Scan.object_skip {env els elf p a dst m r m' rest} {s : Pat} {ops : List SOp} {ls lf}
    (henv : env.tidy true els elf) (hp : p.tidy true els elf false ls lf = true) (hs : s.oneChar = true)
    (hu : Unfinished ops) (h : Scan (spacedEnv s env) (opsText ops) (spaced s p) 0 a)
    (hrun : MakeParserRun env (.withSkipper p s) dst m (ops ++ [.consume]) (.ok (r, m', rest))) :
    r = .PARTIAL ↔ a.waits = true := by
  have hst : s.tidy false els elf true .none .none = true := oneChar_tidy s hs
  have hm := oneChar_noMark s hs
  have hf : s ≠ .fail := by rintro rfl; cases hs
  obtain ⟨N, hN, hle⟩ := oneChar_skips (env := env) (t := opsText ops) hs
  have hmk : marks (skipParser s) = 0 := noMark_marks s (fun _ => rfl) hm
  have hq : ∀ i S, i ≤ (opsText ops).length → Asks env (opsText ops) (skipParser s) (fresh (skipParser s)) i S
      (decide (i = (opsText ops).length)) := by
    intro i S hi
    obtain ⟨⟨o, h1, _⟩, h2⟩ := oneChar_step (env := env) (t := opsText ops) s hs i
    have key : ∀ a, Scan env (opsText ops) s i a → Asks env (opsText ops) (skipParser s)
        (fresh (skipParser s)) i S (decide (i = (opsText ops).length)) := by
      intro a ha
      have hw : a.waits = decide (i = (opsText ops).length) := by
        have := h2 a ha
        cases a with
        | more => exact (decide_eq_true (by have := this.1 rfl; omega)).symm
        | no => exact (decide_eq_false (fun e => absurd (this.2 (by omega)) nofun)).symm
        | yes j => exact (decide_eq_false (fun e => absurd (this.2 (by omega)) nofun)).symm
      have := (ha.asks henv.unskipped hi).fh (S := S) rfl
        (impl_top (r := SkipReqs) (fun h => by cases h) rfl hst)
      rw [show elabP .fail SkipReqs s = skipParser s from rfl, hmk, hw] at this
      exact this
    rcases h1.scan with h3 | h3
    · exact key _ h3
    · exact key _ h3
  have hn := ((h.ofSpaced hN hle hs (Nat.zero_le _)).spaced p rfl).asks henv hst hm hN hf hle hq (Nat.zero_le _)
  obtain ⟨r0, i', S', hb, hiff⟩ := (hn.1 rfl).1 (i0 := 0) (m := 0) (S := [])
    (impl_elab (skipParser_isFail hf) p (sk := true) (r := DefaultReqs) (by simp) (fun h => by cases h) rfl hp)
    rfl rfl (by simp [DefaultReqs]) (by simp [DefaultReqs])
  refine object_asks (skip_comp hp hst) (env_comp henv) hu ?_ hrun
  rw [List.append_nil] at hb
  refine ⟨r0, i', S', ?_, hiff⟩
  cases r0 <;> exact .ret (cs' := .unit) rfl hb rfl

end Abu
