import Verif.Proofs.Scan
import Verif.Proofs.Skipping
/-
Programs of tidy patterns under a skipper, on incomplete texts.
-/
namespace Abu.SkipScan

open Abu

/-- The grammar semantics with three answers and skipping. First index: whether the skipping of the
pattern itself is still to be done; second: whether there is a skipper. `N i` is the position reached
from `i` by skipping. -/
inductive ScanN (env : Env) (t : List Ch) (N : Nat → Nat) : Bool → Bool → Pat → Nat → Ans → Prop
  | wait {p i} : N i = t.length → ScanN env t N true true p i .more
  | enter {sk p i a} : (sk = true → N i ≠ t.length) → ScanN env t N false sk p (nn N sk i) a →
      ScanN env t N true sk p i a
  | leafMore {sk p i} : p.Open (t.drop i) → ScanN env t N false sk p i .more
  | leafNo {sk p i} : p.isLeaf = true → ¬ p.Open (t.drop i) → PegN env t (nn N sk) p i none →
      ScanN env t N false sk p i .no
  | leaf {sk p i j} : p.isLeaf = true → ¬ p.Open (t.drop i) → PegN env t (nn N sk) p i (some j) →
      ScanN env t N false sk p i (.yes j)
  | seqNil {sk i} : ScanN env t N false sk (.seq []) i (.yes i)
  | seqMore {sk p ps i} : ScanN env t N true sk p i .more → ScanN env t N false sk (.seq (p :: ps)) i .more
  | seqNo {sk p ps i} : ScanN env t N true sk p i .no → ScanN env t N false sk (.seq (p :: ps)) i .no
  | seq {sk p ps i j a} : ScanN env t N true sk p i (.yes j) → ScanN env t N false sk (.seq ps) j a →
      ScanN env t N false sk (.seq (p :: ps)) i a
  | altNil {sk i} : ScanN env t N false sk (.alt []) i .no
  | altMore {sk p ps i} : ScanN env t N true sk p i .more → ScanN env t N false sk (.alt (p :: ps)) i .more
  | alt {sk p ps i j} : ScanN env t N true sk p i (.yes j) →
      ScanN env t N false sk (.alt (p :: ps)) i (.yes j)
  | altNo {sk p ps i a} : ScanN env t N true sk p i .no → ScanN env t N false sk (.alt ps) i a →
      ScanN env t N false sk (.alt (p :: ps)) i a
  | repWait {sk mn mx p i} : ScanN env t N true sk p i .more → ScanN env t N false sk (.rep mn mx p) i .more
  | repStop {sk mx p i} : ScanN env t N true sk p i .no → ScanN env t N false sk (.rep 0 mx p) i (.yes i)
  | repFew {sk mn mx p i} : 0 < mn → ScanN env t N true sk p i .no →
      ScanN env t N false sk (.rep mn mx p) i .no
  | repLast {sk mn p i j} : ScanN env t N true sk p i (.yes j) →
      ScanN env t N false sk (.rep mn 1 p) i (.yes j)
  | repMore {sk mn mx p i j a} : mx ≠ 1 → ScanN env t N true sk p i (.yes j) →
      ScanN env t N false sk (.rep (mn - 1) (mx - 1) p) j a → ScanN env t N false sk (.rep mn mx p) i a
  | optMore {sk p i} : ScanN env t N true sk p i .more → ScanN env t N false sk (.opt p) i .more
  | opt {sk p i j} : ScanN env t N true sk p i (.yes j) → ScanN env t N false sk (.opt p) i (.yes j)
  | optNo {sk p i} : ScanN env t N true sk p i .no → ScanN env t N false sk (.opt p) i (.yes i)
  | notMore {sk p i} : ScanN env t N true sk p i .more → ScanN env t N false sk (.not p) i .more
  | not {sk p i} : ScanN env t N true sk p i .no → ScanN env t N false sk (.not p) i (.yes i)
  | notNo {sk p i j} : ScanN env t N true sk p i (.yes j) → ScanN env t N false sk (.not p) i .no
  | discard {sk p i a} : ScanN env t N true sk p i a → ScanN env t N false sk (.discard p) i a
  | lexeme {sk p i a} : ScanN env t N false false p i a → ScanN env t N false sk (.lexeme p) i a
  | bindDst {sk p i a} : ScanN env t N true sk p i a → ScanN env t N false sk (.bindDst p) i a
  | construct {sk tys p i a} : ScanN env t N true sk p i a → ScanN env t N false sk (.construct tys p) i a
  | action {sk f p i a} : ScanN env t N true sk p i a → ScanN env t N false sk (.action f p) i a
  | exceptMore {sk op neg i} : ScanN env t N true sk neg i .more →
      ScanN env t N false sk (.except op neg) i .more
  | except {sk op neg i a} : ScanN env t N true sk neg i .no → ScanN env t N true sk op i a →
      ScanN env t N false sk (.except op neg) i a
  | exceptNo {sk op neg i j} : ScanN env t N true sk neg i (.yes j) →
      ScanN env t N false sk (.except op neg) i .no
  | listMore {sk op sep i} : ScanN env t N true sk op i .more → ScanN env t N false sk (.list op sep) i .more
  | listNil {sk op sep i} : ScanN env t N true sk op i .no → ScanN env t N false sk (.list op sep) i (.yes i)
  | list {sk op sep i j a} : ScanN env t N true sk op i (.yes j) →
      ScanN env t N false sk (.rep 0 0 (.seq [sep, op])) j a → ScanN env t N false sk (.list op sep) i a
  | recur {sk id n q i a} : env id = some q → ScanN env t N true sk q i a →
      ScanN env t N false sk (.recur id n) i a

section
variable {env : Env} {t : List Ch} {N : Nat → Nat}

/-- What is said holds of the text when nothing follows. -/
theorem ScanN.peg {f sk p i a} (h : ScanN env t N f sk p i a) :
    match a with
    | .more => True
    | .no => PegN env t (nn N sk) p (if f then nn N sk i else i) none
    | .yes j => PegN env t (nn N sk) p (if f then nn N sk i else i) (some j) := by
  induction h with
  | wait | leafMore | seqMore | altMore | repWait | optMore | notMore | exceptMore | listMore => trivial
  | @enter _ _ _ a _ _ ih => cases a <;> first | trivial | exact ih
  | leafNo _ _ h => exact h
  | leaf _ _ h => exact h
  | seqNil => exact .seqNil
  | seqNo _ ih => exact .seqNo ih
  | @seq _ _ _ _ _ a _ _ ih1 ih2 => cases a <;> first | trivial | exact .seq ih1 ih2
  | altNil => exact .altNil
  | alt _ ih => exact .alt ih
  | @altNo _ _ _ _ a _ _ ih1 ih2 => cases a <;> first | trivial | exact .altNo ih1 ih2
  | repStop _ ih => exact .repStop ih
  | repFew h _ ih => exact .repFew h ih
  | repLast _ ih => exact .repLast ih
  | @repMore _ _ _ _ _ _ a h _ _ ih1 ih2 => cases a <;> first | trivial | exact .repMore h ih1 ih2
  | opt _ ih => exact .opt ih
  | optNo _ ih => exact .optNo ih
  | not _ ih => exact .not ih
  | notNo _ ih => exact .notNo ih
  | @discard _ _ _ a _ ih => cases a <;> first | trivial | exact .discard ih
  | @lexeme _ _ _ a _ ih => cases a <;> first | trivial | exact .lexeme ih
  | @bindDst _ _ _ a _ ih => cases a <;> first | trivial | exact .bindDst ih
  | @construct _ _ _ _ a _ ih => cases a <;> first | trivial | exact .construct ih
  | @action _ _ _ _ a _ ih => cases a <;> first | trivial | exact .action ih
  | @except _ _ _ _ a _ _ ih1 ih2 => cases a <;> first | trivial | exact .except ih1 ih2
  | exceptNo _ ih => exact .exceptNo ih
  | listNil _ ih => exact .listNil ih
  | @list _ _ _ _ _ a _ _ ih1 ih2 => cases a <;> first | trivial | exact .list ih1 ih2
  | @recur _ _ _ _ _ a hq _ ih => cases a <;> first | trivial | exact .recur hq ih

/-- Without a skipper. -/
theorem _root_.Abu.Scan.toN {p i a} (h : Scan env t p i a) : ScanN env t N false false p i a := by
  have up : ∀ {p i a}, ScanN env t N false false p i a → ScanN env t N true false p i a :=
    fun h => .enter (by simp) h
  induction h with
  | leafMore h => exact .leafMore h
  | leafNo h1 h2 h3 => exact .leafNo h1 h2 h3.toN
  | leaf h1 h2 h3 => exact .leaf h1 h2 h3.toN
  | seqNil => exact .seqNil
  | seqMore _ ih => exact .seqMore (up ih)
  | seqNo _ ih => exact .seqNo (up ih)
  | seq _ _ ih1 ih2 => exact .seq (up ih1) ih2
  | altNil => exact .altNil
  | altMore _ ih => exact .altMore (up ih)
  | alt _ ih => exact .alt (up ih)
  | altNo _ _ ih1 ih2 => exact .altNo (up ih1) ih2
  | repWait _ ih => exact .repWait (up ih)
  | repStop _ ih => exact .repStop (up ih)
  | repFew h _ ih => exact .repFew h (up ih)
  | repLast _ ih => exact .repLast (up ih)
  | repMore h _ _ ih1 ih2 => exact .repMore h (up ih1) ih2
  | optMore _ ih => exact .optMore (up ih)
  | opt _ ih => exact .opt (up ih)
  | optNo _ ih => exact .optNo (up ih)
  | notMore _ ih => exact .notMore (up ih)
  | not _ ih => exact .not (up ih)
  | notNo _ ih => exact .notNo (up ih)
  | discard _ ih => exact .discard (up ih)
  | lexeme _ ih => exact .lexeme ih
  | bindDst _ ih => exact .bindDst (up ih)
  | construct _ ih => exact .construct (up ih)
  | action _ ih => exact .action (up ih)
  | exceptMore _ ih => exact .exceptMore (up ih)
  | except _ _ ih1 ih2 => exact .except (up ih1) (up ih2)
  | exceptNo _ ih => exact .exceptNo (up ih)
  | listMore _ ih => exact .listMore (up ih)
  | listNil _ ih => exact .listNil (up ih)
  | list _ _ ih1 ih2 => exact .list (up ih1) ih2
  | recur hq _ ih => exact .recur hq (up ih)

end

/-! ### Asking for more -/

section
variable (env : Env) (t : List Ch) (K : Prog) (N : Nat → Nat) (els elf : Stale)

/-- Fresh programs for `p` return, and ask for more if and only if `b`. -/
def FA (sk : Bool) (p : Pat) (i : Nat) (b : Bool) : Prop :=
  ∀ {full c ls lf P i0 m S}, Impl K true els elf sk full c ls lf P p →
    nn N sk i0 = nn N sk i → nn N sk m = nn N sk i → (full = false → nn N sk i0 = i0) →
    (full = false → sk = true → i0 ≠ t.length) →
    Asks env t P (fresh P) i0 (List.replicate (marks P) m ++ S) b

/-- The same, for programs without adapters. -/
def CoreA (sk : Bool) (p : Pat) (i : Nat) (b : Bool) : Prop :=
  ∀ {c ls lf P m S}, Impl K true els elf sk false c ls lf P p → isWrap P = false → nn N sk i = i →
    nn N sk m = i → (sk = true → i ≠ t.length) →
    Asks env t P (fresh P) i (List.replicate (marks P) m ++ S) b

def SeqA (sk : Bool) : List Pat → Nat → Bool → Prop
  | [], _, b => b = false
  | q :: qs, i, b => ∃ bq, FA env t K N els elf sk q i bq ∧ (bq = true → b = true) ∧
      (bq = false → (∀ j, PegN env t (nn N sk) q (nn N sk i) (some j) → SeqA sk qs j b) ∧
        (PegN env t (nn N sk) q (nn N sk i) none → b = false))

def AltA (sk : Bool) : List Pat → Nat → Bool → Prop
  | [], _, b => b = false
  | q :: qs, i, b => ∃ bq, FA env t K N els elf sk q i bq ∧ (bq = true → b = true) ∧
      (bq = false → (∀ j, PegN env t (nn N sk) q (nn N sk i) (some j) → b = false) ∧
        (PegN env t (nn N sk) q (nn N sk i) none → AltA sk qs i b))

inductive RepA (sk : Bool) (q : Pat) (X : Nat → Bool → Prop) : Nat → Nat → Bool → Prop
  | wait {mx i} : X i true → RepA sk q X mx i true
  | stop {mx i} : X i false → PegN env t (nn N sk) q (nn N sk i) none → RepA sk q X mx i false
  | last {i} : X i false → RepA sk q X 1 i false
  | more {mx i j b} : mx ≠ 1 → X i false → PegN env t (nn N sk) q (nn N sk i) (some j) →
      RepA sk q X (mx - 1) j b → RepA sk q X mx i b

/-- What is needed of the items of repetitions. -/
def ItemA (sk : Bool) (q : Pat) (i : Nat) (b : Bool) : Prop :=
  FA env t K N els elf sk q i b ∧ ∀ q' qs, q = .seq (q' :: qs) → SeqA env t K N els elf sk (q' :: qs) i b

structure TA (sk : Bool) (p : Pat) (i : Nat) (b : Bool) : Prop where
  fh : nn N sk i = i → (sk = true → i ≠ t.length) → FA env t K N els elf sk p i b
  seq : ∀ qs, p = .seq qs → SeqA env t K N els elf sk qs i b
  alt : ∀ qs, p = .alt qs → AltA env t K N els elf sk qs i b
  rep : ∀ mn mx q, p = .rep mn mx q →
    RepA env t N sk q (ItemA env t K N els elf sk q) mx i b

end

section
variable {env : Env} {t : List Ch} {N : Nat → Nat} {els elf : Stale} {s : Pat}
variable (henv : env.tidy true els elf) (hs : s.tidy false els elf true .none .none = true)
variable (hm : s.noMark true = true) (hN : ∀ i, Peg env t (.rep 0 0 s) i (some (N i)))
variable (hf : s ≠ .fail) (hle : ∀ i, i ≤ N i)
variable (hq : ∀ i S, i ≤ t.length →
  Asks env t (skipParser s) (fresh (skipParser s)) i S (decide (i = t.length)))
include henv hs hm hN hf

theorem idem (sk : Bool) (i : Nat) : nn N sk (nn N sk i) = nn N sk i := by
  cases sk
  · rfl
  · exact skips_idem hN i

theorem asks_of {P st i S cp cs bc b}
    (hcfg : Cfg env t (skipParser s) N true els elf P st i S (fun _ _ _ => True)) (hP : Comp P)
    (hst : NilSt st)
    (hc : childOf P st = some (cp, cs)) (hchild : Asks env t cp cs i S bc) (hstop : bc = true → b = true)
    (hret : bc = false → ∀ r i1 S1 cs' r' i' S', Big env t cp cs i S r i1 S1 →
      after P st r cs' i1 S1 = some (.ret r' i' S') → b = false)
    (hnext : bc = false → ∀ r i1 S1 cs' st2 i2 S2, Big env t cp cs i S r i1 S1 →
      after P st r cs' i1 S1 = some (.cont st2 i2 S2) → Asks env t P st2 i2 S2 b) :
    Asks env t P st i S b := by
  have hK := skOK fun _ => skipper_ok henv hs hm hN hf
  obtain ⟨hl, hr⟩ := childOf_some hc
  obtain ⟨cp', cs'', hc', cpost, hcc, hn⟩ := cfg_step hK hcfg hl hr
  rw [hc] at hc'
  cases hc'
  obtain ⟨r, i1, S1, hb, hiff⟩ := hchild
  cases bc with
  | true =>
    have := hiff.2 rfl
    subst this
    exact ⟨_, _, _, .ret (cs' := .unit) hc hb (after_partial hc), by simp [hstop rfl]⟩
  | false =>
    have hnp : r ≠ .PARTIAL := fun h => by cases hiff.1 h
    have hb' := big_of_bigN (env_comp henv · · · · ·) (childOf_comp hc hP) (childOf_nil hc hst) hb hnp
    have hp := hn r .unit _ _ (sound hK (skip_env henv hf) hb' hcc)
    cases ha : after P st r .unit i1 S1 with
    | none => rw [ha] at hp; exact hp.elim
    | some x =>
      cases x with
      | ret r' i' S' =>
        have hf := hret rfl _ _ _ _ _ _ _ hb' ha
        refine ⟨_, _, _, .ret hc hb ha, ?_⟩
        simp [hf, after_not_partial hnp ha]
      | cont st2 i2 S2 =>
        obtain ⟨r', i', S', h1, h2⟩ := hnext rfl _ _ _ _ _ _ _ hb' ha
        exact ⟨_, _, _, .cont hc hb ha h1, h2⟩

/-- Wrappers return what their child returns, or something else in its place. -/
theorem asks_wrap {P st i S cp cs b}
    (hcfg : Cfg env t (skipParser s) N true els elf P st i S (fun _ _ _ => True)) (hP : Comp P)
    (hst : NilSt st)
    (hc : childOf P st = some (cp, cs)) (hchild : Asks env t cp cs i S b)
    (hnext : ∀ r i1 S1 cs' st2 i2 S2, after P st r cs' i1 S1 ≠ some (.cont st2 i2 S2)) :
    Asks env t P st i S b :=
  asks_of henv hs hm hN hf hcfg hP hst hc hchild id (fun h _ _ _ _ _ _ _ _ _ => h)
    fun _ _ _ _ _ _ _ _ _ h => absurd h (hnext _ _ _ _ _ _ _)

theorem out_of {sk full c ls lf P p i m S r i' S'}
    (hI : Impl (skipParser s) true els elf sk full c ls lf P p) (hmi : nn N sk m = nn N sk i)
    (hi : full = false → nn N sk i = i)
    (h : Big env t P (fresh P) i (List.replicate (marks P) m ++ S) r i' S') :
    Outcome env t N sk c ls lf i p (nn N sk i) S r i' S' :=
  child_out (fun _ => skipper_ok henv hs hm hN hf) (skip_env henv hf) hI hmi hi h

omit henv hs hm hN hf in
theorem fresh_cfg {sk full c ls lf P p i m S}
    (hI : Impl (skipParser s) true els elf sk full c ls lf P p) (hmi : nn N sk m = nn N sk i)
    (hi : full = false → nn N sk i = i) :
    Cfg env t (skipParser s) N true els elf P (fresh P) i (List.replicate (marks P) m ++ S)
      (fun _ _ _ => True) :=
  .fresh (m := m) hI rfl rfl hmi hi fun _ _ _ _ => trivial

omit henv hm hN hf in
theorem comp_of {sk full c ls lf P p} (hI : Impl (skipParser s) true els elf sk full c ls lf P p) : Comp P :=
  hI.comp fun _ => comp_elab s .fail hs

include hle hq

/-- The skip adapter asks for more if there is nothing but text to skip; otherwise its operand decides. -/
theorem skip_asks {c ls lf P p i0 m S b}
    (hI : Impl (skipParser s) true els elf true false c ls lf P p) (hi : N i0 ≤ t.length)
    (hmi : N m = N i0) (hw : N i0 = t.length → b = true)
    (hgo : N i0 ≠ t.length → Asks env t P (fresh P) (N i0) (List.replicate (marks P) m ++ S) b) :
    Asks env t (.skip (skipParser s) P) (fresh (.skip (skipParser s) P)) i0
      (List.replicate (marks (.skip (skipParser s) P)) m ++ S) b := by
  obtain ⟨s', hs', hto, _⟩ := skipper_ok henv hs hm hN hf
  have hI' : Impl (skipParser s) true els elf true true c ls lf (.skip (skipParser s) P) p := .skip rfl hI
  have hmk : marks (.skip (skipParser s) P) = marks P := by rw [marks, hs'.marks, Nat.zero_add]
  have key : ∀ {i0 k}, SkipTo env t s' i0 k → N i0 ≤ t.length → N m = N i0 → (N i0 = t.length → b = true) →
      (N i0 ≠ t.length → Asks env t P (fresh P) (N i0) (List.replicate (marks P) m ++ S) b) →
      Asks env t (.skip (skipParser s) P) (fresh (.skip (skipParser s) P)) i0
        (List.replicate (marks (.skip (skipParser s) P)) m ++ S) b := by
    intro i0 k hto
    induction hto with
    | @stop i0 hno =>
      intro hi hmi hw hgo
      have hst := hs'.stop hno
      have hi0 : i0 ≤ t.length := by rw [← hst]; exact hi
      refine asks_of henv hs hm hN hf (fresh_cfg hI' hmi (by simp)) (comp_of hs hI') (nilSt_fresh _) rfl
        (hq i0 _ hi0) (fun h => hw (hst.trans (of_decide_eq_true h))) ?_ ?_
      · intro _ r i1 S1 cs' r' i' S' hb ha
        have ho := out_of henv hs hm hN hf (m := i0) (sk := false) hs'.impl rfl (fun _ => rfl)
          (S := List.replicate (marks (.skip (skipParser s) P)) m ++ S) (by rw [hs'.marks]; exact hb)
        cases ho with
        | ok a => exact absurd (a.unique hno) (by simp)
        | no => cases ha
      · intro hne r i1 S1 cs' st2 i2 S2 hb ha
        have ho := out_of henv hs hm hN hf (m := i0) (sk := false) hs'.impl rfl (fun _ => rfl)
          (S := List.replicate (marks (.skip (skipParser s) P)) m ++ S) (by rw [hs'.marks]; exact hb)
        cases ho with
        | ok a => exact absurd (a.unique hno) (by simp)
        | no a e d =>
          have := e.eq; subst this
          have hij : i1 = i0 := d rfl
          subst hij
          simp only [after, fresh, Option.some.injEq, Iter.cont.injEq] at ha
          obtain ⟨rfl, rfl, rfl⟩ := ha
          have hg := hgo (by rw [hst]; exact of_decide_eq_false hne)
          rw [hst] at hg
          refine asks_wrap henv hs hm hN hf (.skipped hI (by rw [hmk]) hmi hst fun _ _ _ _ => trivial)
            (comp_of hs hI') (nilSt_fresh P) rfl ?_ ?_
          · rw [hmk]; exact hg
          · intro r _ _ _ _ _ _ h; cases r <;> cases h
    | @step i0 j k hy hto ih2 =>
      intro hi hmi hw hgo
      have hst : N j = N i0 := hs'.step hy
      have hi0 : i0 ≤ t.length := Nat.le_trans (hle i0) hi
      refine asks_of henv hs hm hN hf (fresh_cfg hI' hmi (by simp)) (comp_of hs hI') (nilSt_fresh _) rfl
        (hq i0 _ hi0) ?_ ?_ ?_
      · intro h
        have h := of_decide_eq_true h
        subst h
        exact hw (Nat.le_antisymm hi (hle _))
      · intro _ r i1 S1 cs' r' i' S' hb ha
        have ho := out_of henv hs hm hN hf (m := i0) (sk := false) hs'.impl rfl (fun _ => rfl)
          (S := List.replicate (marks (.skip (skipParser s) P)) m ++ S) (by rw [hs'.marks]; exact hb)
        cases ho with
        | ok => cases ha
        | no a => exact absurd (a.unique hy) (by simp)
      · intro hne r i1 S1 cs' st2 i2 S2 hb ha
        have ho := out_of henv hs hm hN hf (m := i0) (sk := false) hs'.impl rfl (fun _ => rfl)
          (S := List.replicate (marks (.skip (skipParser s) P)) m ++ S) (by rw [hs'.marks]; exact hb)
        cases ho with
        | no a => exact absurd (a.unique hy) (by simp)
        | ok a e d =>
          have e' := d.eq; subst e'
          have e' := a.unique hy
          cases e'
          have hij : i1 = j := e
          subst hij
          simp only [after, fresh, newChild, hs'.marks, Option.some.injEq, Iter.cont.injEq] at ha
          obtain ⟨rfl, rfl, rfl⟩ := ha
          exact ih2 (by rw [hst]; exact hi) (by rw [hst]; exact hmi) (by rw [hst]; exact hw)
            (by rw [hst]; exact hgo)
  exact key (hto i0) hi hmi hw hgo

theorem fa_wait {p i} (hi : N i = t.length) : FA env t (skipParser s) N els elf true p i true := by
  intro full c ls lf P i0 m S hI h0 hmi h1 h2
  have h0 : N i0 = N i := h0
  cases full with
  | false =>
    have h1 : N i0 = i0 := h1 rfl
    exact absurd (h1.symm.trans (h0.trans hi)) (h2 rfl rfl)
  | true =>
    cases hI with
    | skip _ hI =>
      exact skip_asks henv hs hm hN hf hle hq hI (by rw [h0, hi]; exact Nat.le_refl _) (hmi.trans h0.symm)
        (fun _ => rfl) fun h => absurd (h0.trans hi) h

theorem fa_of_core {sk p i b} (hi : nn N sk i ≤ t.length) (hw : sk = true → nn N sk i ≠ t.length)
    (hcore : CoreA env t (skipParser s) N els elf sk p (nn N sk i) b) :
    FA env t (skipParser s) N els elf sk p i b := by
  intro full c ls lf P i0 m S hI
  have hid := idem henv hs hm hN hf
  induction hI generalizing i0 m S with
  | plain h ih => intro h0 hmi _ _; exact ih hi hw hcore h0 hmi (fun _ => rfl) (by simp)
  | @skip c ls lf P p hu hI ih =>
    intro h0 hmi _ _
    have h0 : N i0 = N i := h0
    refine skip_asks henv hs hm hN hf hle hq hI (by rw [h0]; exact hi) (hmi.trans h0.symm)
      (fun h => absurd (h0.symm.trans h) (hw rfl)) fun h => ?_
    refine ih hi hw hcore ?_ hmi (fun _ => skips_idem hN i0) fun _ _ => h
    exact (skips_idem hN i0).trans h0
  | @clean sk c c' ls lf P p hI ih =>
    intro h0 hmi h1 h2
    have hI' : Impl (skipParser s) true els elf sk false c ls lf (.clean P) p := .clean hI
    refine asks_wrap henv hs hm hN hf (fresh_cfg hI' (hmi.trans h0.symm) h1) (comp_of hs hI')
      (nilSt_fresh _) rfl ?_ ?_
    · rw [marks, rep_succ]
      exact ih hi hw hcore h0 hmi h1 h2
    · intro r _ S1 _ _ _ _ h; cases r <;> cases S1 <;> cases h
  | @atomic sk c ls lf P p hI ih =>
    intro h0 hmi h1 h2
    have hI' : Impl (skipParser s) true els elf sk false c ls lf (.atomic P) p := .atomic hI
    refine asks_wrap henv hs hm hN hf (fresh_cfg hI' (hmi.trans h0.symm) h1) (comp_of hs hI')
      (nilSt_fresh _) rfl (ih hi hw hcore h0 hmi h1 h2) ?_
    intro r _ S1 _ _ _ _ h; cases r <;> cases h
  | leaf h =>
    intro h0 hmi h1 h2
    have e := (h1 rfl).symm.trans h0; subst e
    exact hcore (.leaf (ls := .none) (lf := .none) h) (by cases h <;> rfl) (hid _ _) hmi hw
  | seq a b c d =>
    intro h0 hmi h1 h2
    have e := (h1 rfl).symm.trans h0; subst e
    exact hcore (.seq a b c d) rfl (hid _ _) hmi hw
  | alt a b c =>
    intro h0 hmi h1 h2
    have e := (h1 rfl).symm.trans h0; subst e
    exact hcore (.alt (c := false) a b c) rfl (hid _ _) hmi hw
  | rep a =>
    intro h0 hmi h1 h2
    have e := (h1 rfl).symm.trans h0; subst e
    exact hcore (.rep a) rfl (hid _ _) hmi hw
  | opt a b =>
    intro h0 hmi h1 h2
    have e := (h1 rfl).symm.trans h0; subst e
    exact hcore (.opt (c := false) (lf := .none) a b) rfl (hid _ _) hmi hw
  | not a =>
    intro h0 hmi h1 h2
    have e := (h1 rfl).symm.trans h0; subst e
    exact hcore (.not (c := false) a) rfl (hid _ _) hmi hw
  | discard a =>
    intro h0 hmi h1 h2
    have e := (h1 rfl).symm.trans h0; subst e
    exact hcore (.discard a) rfl (hid _ _) hmi hw
  | lexeme a b =>
    intro h0 hmi h1 h2
    have e := (h1 rfl).symm.trans h0; subst e
    exact hcore (.lexeme a b) rfl (hid _ _) hmi hw
  | lexemeClean a b =>
    intro h0 hmi h1 h2
    have e := (h1 rfl).symm.trans h0; subst e
    exact hcore (.lexemeClean (c := false) a b) rfl (hid _ _) hmi hw
  | bindDst a =>
    intro h0 hmi h1 h2
    have e := (h1 rfl).symm.trans h0; subst e
    exact hcore (.bindDst a) rfl (hid _ _) hmi hw
  | construct a =>
    intro h0 hmi h1 h2
    have e := (h1 rfl).symm.trans h0; subst e
    exact hcore (.construct a) rfl (hid _ _) hmi hw
  | action a =>
    intro h0 hmi h1 h2
    have e := (h1 rfl).symm.trans h0; subst e
    exact hcore (.action a) rfl (hid _ _) hmi hw
  | except a b =>
    intro h0 hmi h1 h2
    have e := (h1 rfl).symm.trans h0; subst e
    exact hcore (.except a b) rfl (hid _ _) hmi hw
  | list a b =>
    intro h0 hmi h1 h2
    have e := (h1 rfl).symm.trans h0; subst e
    exact hcore (.list (c := false) (lf := .none) a b) rfl (hid _ _) hmi hw
  | recur a b c =>
    intro h0 hmi h1 h2
    have e := (h1 rfl).symm.trans h0; subst e
    exact hcore (.recur a b c) rfl (hid _ _) hmi hw


local notation "SeqA'" => SeqA env t (skipParser s) N els elf
local notation "AltA'" => AltA env t (skipParser s) N els elf
local notation "ItemA'" => ItemA env t (skipParser s) N els elf
local notation "FA'" => FA env t (skipParser s) N els elf
local notation "CoreA'" => CoreA env t (skipParser s) N els elf
local notation "TA'" => TA env t (skipParser s) N els elf
local notation "Impl'" => Impl (skipParser s) true els elf

omit henv hs hm hN hf hle hq in
theorem FA.congr {sk p i i' b} (e : nn N sk i' = nn N sk i) (h : FA' sk p i b) : FA' sk p i' b := by
  intro full c ls lf P i0 m S hI h0 hmi h1 h2
  exact h hI (h0.trans e) (hmi.trans e) h1 h2

omit henv hs hm hN hf hle hq in
theorem SeqA.congr {sk qs i i' b} (e : nn N sk i' = nn N sk i) (h : SeqA' sk qs i b) :
    SeqA' sk qs i' b := by
  cases qs with
  | nil => exact h
  | cons q qs =>
    obtain ⟨bq, h1, h2, h3⟩ := h
    refine ⟨bq, h1.congr e, h2, ?_⟩
    rw [e]
    exact h3

omit hle hq

theorem seq_asks {sk ls lf slots Ps PS} (hI : Impl' sk false false ls lf (.seq slots Ps) (.seq PS)) :
    ∀ {qs k P i i0 m S b}, SeqA' sk qs i b → PS.drop k = qs → Ps[k]? = some P →
      nn N sk i0 = nn N sk i → nn N sk m = nn N sk i →
      Asks env t (.seq slots Ps) (.seq k (fresh P)) i0 (List.replicate (marks P) m ++ S) b := by
  have hI' := hI
  have hcomp := comp_of hs hI
  cases hI with
  | leaf h => cases h
  | seq hne hlen hsl hch =>
    intro qs
    induction qs with
    | nil =>
      intro k P i i0 m S b _ hd hP
      rw [List.drop_eq_nil_iff] at hd
      have := (List.getElem?_eq_some_iff.1 hP).1
      omega
    | cons q qs ih =>
      intro k P i i0 m S b hs' hd hP h0 hmi
      obtain ⟨hq, hd'⟩ : PS[k]? = some q ∧ PS.drop (k + 1) = qs := by
        have hk : k < PS.length := by have := (List.getElem?_eq_some_iff.1 hP).1; omega
        rw [List.drop_eq_getElem_cons hk] at hd
        cases hd
        exact ⟨List.getElem?_eq_getElem hk, rfl⟩
      obtain ⟨bq, h1, h2, h3⟩ := hs'
      have hIp := hch k P q hP hq
      refine asks_of henv hs hm hN hf (.seqAt (x := i0) hI' hP rfl (hmi.trans h0.symm) rfl (fun _ => rfl) (.refl _ _)
        fun _ _ _ _ => trivial) hcomp (nilSt_fresh P) (by simp [childOf, hP])
        (h1 hIp h0 hmi (by simp) (by simp)) h2 ?_ ?_
      · intro hbq r i1 S1 cs' r' i' S' hb ha
        obtain ⟨h3, h4⟩ := h3 hbq
        have ho := out_of henv hs hm hN hf hIp (hmi.trans h0.symm) (by simp) hb
        rw [h0] at ho
        cases ho with
        | no a => exact h4 a
        | @ok j _ _ a e d =>
          have hlast : qs = [] := by
            simp only [after] at ha
            split at ha
            · cases ha
            · rename_i hno
              cases hp' : Ps[k + 1]? with
              | none => rw [← hd', List.drop_eq_nil_iff]; rw [List.getElem?_eq_none_iff] at hp'; omega
              | some P' =>
                have hlt := (List.getElem?_eq_some_iff.1 hp').1
                exact absurd (List.getElem?_eq_getElem (l := slots) (i := k + 1) (by omega)) (hno _ _ hp')
          have := h3 j a
          rw [hlast] at this
          exact this
      · intro hbq r i1 S1 cs' st2 i2 S2 hb ha
        obtain ⟨h3, h4⟩ := h3 hbq
        have ho := out_of henv hs hm hN hf hIp (hmi.trans h0.symm) (by simp) hb
        rw [h0] at ho
        cases ho with
        | no => simp [after] at ha
        | @ok j _ _ a e d =>
          simp only [after] at ha
          split at ha
          · rename_i P' s' hP' hs'
            simp only [newChild, Option.some.injEq, Iter.cont.injEq] at ha
            obtain ⟨rfl, rfl, rfl⟩ := ha
            exact ih (h3 _ a) hd' hP' e e
          · cases ha

theorem alt_asks {sk c ls lf Ps PS} (hI : Impl' sk false c ls lf (.alt Ps) (.alt PS)) :
    ∀ {qs k P i i0 m S b}, AltA' sk qs i b → PS.drop k = qs → Ps[k]? = some P →
      nn N sk i0 = nn N sk i → nn N sk m = nn N sk i →
      Asks env t (.alt Ps) (.alt k (fresh P)) i0 (List.replicate (marks P) m ++ S) b := by
  have hI' := hI
  have hcomp := comp_of hs hI
  have hid := idem henv hs hm hN hf
  cases hI with
  | leaf h => cases h
  | alt hne hlen hch =>
    intro qs
    induction qs with
    | nil =>
      intro k P i i0 m S b _ hd hP
      rw [List.drop_eq_nil_iff] at hd
      have := (List.getElem?_eq_some_iff.1 hP).1
      omega
    | cons q qs ih =>
      intro k P i i0 m S b hs' hd hP h0 hmi
      obtain ⟨hq, hd'⟩ : PS[k]? = some q ∧ PS.drop (k + 1) = qs := by
        have hk : k < PS.length := by have := (List.getElem?_eq_some_iff.1 hP).1; omega
        rw [List.drop_eq_getElem_cons hk] at hd
        cases hd
        exact ⟨List.getElem?_eq_getElem hk, rfl⟩
      obtain ⟨bq, h1, h2, h3⟩ := hs'
      have hIp := hch k P q hP hq
      refine asks_of henv hs hm hN hf (.altAt hI' hP rfl (hmi.trans h0.symm) rfl (.refl _ _)
        fun _ _ _ _ => trivial) hcomp (nilSt_fresh P) (by simp [childOf, hP])
        (h1 hIp h0 hmi (by simp) (by simp)) h2 ?_ ?_
      · intro hbq r i1 S1 cs' r' i' S' hb ha
        obtain ⟨h3, h4⟩ := h3 hbq
        have ho := out_of henv hs hm hN hf hIp (hmi.trans h0.symm) (by simp) hb
        rw [h0] at ho
        cases ho with
        | ok a => exact h3 _ a
        | no a =>
          have hlast : qs = [] := by
            simp only [after] at ha
            split at ha
            · cases ha
            · rename_i hp'
              rw [← hd', List.drop_eq_nil_iff]; rw [List.getElem?_eq_none_iff] at hp'; omega
          have := h4 a
          rw [hlast] at this
          exact this
      · intro hbq r i1 S1 cs' st2 i2 S2 hb ha
        obtain ⟨h3, h4⟩ := h3 hbq
        have ho := out_of henv hs hm hN hf hIp (hmi.trans h0.symm) (by simp) hb
        rw [h0] at ho
        cases ho with
        | ok => simp [after] at ha
        | no a e d =>
          have d := d rfl
          rw [hid] at d
          simp only [after] at ha
          split at ha
          · rename_i P' hP'
            simp only [newChild, Option.some.injEq, Iter.cont.injEq] at ha
            obtain ⟨rfl, rfl, rfl⟩ := ha
            exact ih (h4 a) hd' hP' d d
          · cases ha

theorem rep_asks {sk ls lf mn mx P q} (hI : Impl' sk false false ls lf (.rep mn mx P) (.rep mn mx q))
    {X : Nat → Bool → Prop} (hX : ∀ i b, X i b → FA' sk q i b) {mx' i b}
    (h : RepA env t N sk q X mx' i b) : ∀ {n i0 m S}, mx' = mx - n → (mx = 0 ∨ n < mx) →
      nn N sk i0 = nn N sk i → nn N sk m = nn N sk i →
      Asks env t (.rep mn mx P) (.rep n (fresh P)) i0 (List.replicate (marks P) m ++ S) b := by
  have hI' := hI
  have hcomp := comp_of hs hI
  cases hI with
  | leaf h => cases h
  | rep hch =>
    have hcfg : ∀ {n i m S}, (mx = 0 ∨ n < mx) → nn N sk m = nn N sk i →
        Cfg env t (skipParser s) N true els elf (.rep mn mx P)
          (.rep n (fresh P)) i (List.replicate (marks P) m ++ S) (fun _ _ _ => True) := fun {n i m S} hn hmi =>
      .repAt (x := i) hI' hn (fun _ => rfl) rfl hmi rfl (.refl _ _) fun _ _ _ _ => trivial
    induction h with
    | wait hx =>
      intro n i0 m S hmx hn h0 hmi
      exact asks_of henv hs hm hN hf (hcfg hn (hmi.trans h0.symm)) hcomp (nilSt_fresh P) rfl
        (hX _ _ hx hch h0 hmi (by simp) (by simp)) id (by simp) (by simp)
    | stop hx hno =>
      intro n i0 m S hmx hn h0 hmi
      refine asks_of henv hs hm hN hf (hcfg hn (hmi.trans h0.symm)) hcomp (nilSt_fresh P) rfl
        (hX _ _ hx hch h0 hmi (by simp) (by simp)) id (fun _ _ _ _ _ _ _ _ _ _ => rfl) ?_
      intro _ r i1 S1 cs' st2 i2 S2 hb ha
      have ho := out_of henv hs hm hN hf hch (hmi.trans h0.symm) (by simp) hb
      rw [h0] at ho
      cases ho with
      | ok a => exact absurd (a.unique hno) (by simp)
      | no => simp [after] at ha
    | last hx =>
      intro n i0 m S hmx hn h0 hmi
      refine asks_of henv hs hm hN hf (hcfg hn (hmi.trans h0.symm)) hcomp (nilSt_fresh P) rfl
        (hX _ _ hx hch h0 hmi (by simp) (by simp)) id (fun _ _ _ _ _ _ _ _ _ _ => rfl) ?_
      intro _ r i1 S1 cs' st2 i2 S2 hb ha
      cases r with
      | FAILURE => simp [after] at ha
      | SUCCESS => rw [after, if_pos (by omega)] at ha; cases ha
      | PARTIAL => simp [after] at ha
    | @more mx' i j b hmx1 hx hy hr ih =>
      intro n i0 m S hmx hn h0 hmi
      refine asks_of henv hs hm hN hf (hcfg hn (hmi.trans h0.symm)) hcomp (nilSt_fresh P) rfl
        (hX _ _ hx hch h0 hmi (by simp) (by simp)) (by simp) ?_ ?_
      · intro _ r i1 S1 cs' r' i' S' hb ha
        have ho := out_of henv hs hm hN hf hch (hmi.trans h0.symm) (by simp) hb
        rw [h0] at ho
        cases ho with
        | no a => exact absurd (a.unique hy) (by simp)
        | ok a e d =>
          exfalso
          simp only [after] at ha
          split at ha
          · omega
          · cases ha
      · intro _ r i1 S1 cs' st2 i2 S2 hb ha
        have ho := out_of henv hs hm hN hf hch (hmi.trans h0.symm) (by simp) hb
        rw [h0] at ho
        cases ho with
        | no a => exact absurd (a.unique hy) (by simp)
        | ok a e d =>
          have := a.unique hy
          cases this
          simp only [after] at ha
          split at ha
          · cases ha
          · rename_i hne
            simp only [newChild, Option.some.injEq, Iter.cont.injEq] at ha
            obtain ⟨rfl, rfl, rfl⟩ := ha
            exact ih (by omega) (by omega) e e

theorem list_asks {sk c ls lf OP SEP op sep} (hI : Impl' sk false c ls lf (.list OP SEP) (.list op sep))
    {X : Nat → Bool → Prop} (hX : ∀ i b, X i b → SeqA' sk [sep, op] i b) {mx' i b}
    (h : RepA env t N sk (.seq [sep, op]) X mx' i b) : ∀ {i0 m jm S}, mx' = 0 →
      nn N sk i0 = nn N sk i → nn N sk m = nn N sk i → nn N sk jm = nn N sk i →
      Asks env t (.list OP SEP) (.list true (fresh SEP)) i0
        (List.replicate (marks SEP) m ++ jm :: S) b := by
  have hI' := hI
  have hcomp := comp_of hs hI
  have hid := idem henv hs hm hN hf
  cases hI with
  | leaf h => cases h
  | @list _ _ c' c'' _ _ _ _ _ _ hop hsep =>
    -- one round: separator, then item
    have round : ∀ {i i0 m jm : Nat} {S : List Nat} {b1 b : Bool}, SeqA' sk [sep, op] i b1 →
        nn N sk i0 = nn N sk i → nn N sk m = nn N sk i → nn N sk jm = nn N sk i →
        (b1 = true → b = true) →
        (b1 = false → PegN env t (nn N sk) (.seq [sep, op]) (nn N sk i) none → b = false) →
        (∀ j i1 S, b1 = false → PegN env t (nn N sk) (.seq [sep, op]) (nn N sk i) (some j) →
          nn N sk i1 = nn N sk j →
          Asks env t (.list OP SEP) (.list true (fresh SEP)) i1 (List.replicate (marks SEP) i1 ++ i1 :: S) b) →
        Asks env t (.list OP SEP) (.list true (fresh SEP)) i0
          (List.replicate (marks SEP) m ++ jm :: S) b := by
      intro i i0 m jm S b1 b hs' h0 hmi hjm ht hf' hnext
      obtain ⟨bq, h1, h2, h3⟩ := hs'
      refine asks_of henv hs hm hN hf (.listSep (x := i0) hI' (j := i) rfl (hmi.trans h0.symm) (.refl _ _) h0 hjm
        fun _ _ _ _ => trivial) hcomp (nilSt_fresh SEP) rfl (h1 hsep h0 hmi (by simp) (by simp))
        (fun h => ht (h2 h)) ?_ ?_
      · intro hbq r i1 S1 cs' r' i' S' hb ha
        obtain ⟨h3, h4⟩ := h3 hbq
        have ho := out_of henv hs hm hN hf hsep (hmi.trans h0.symm) (by simp) hb
        rw [h0] at ho
        cases ho with
        | no a => exact hf' (h4 a) (.seqNo (by rw [hid]; exact a))
        | ok => cases ha
      · intro hbq r i1 S1 cs' st2 i2 S2 hb ha
        obtain ⟨h3, h4⟩ := h3 hbq
        have ho := out_of henv hs hm hN hf hsep (hmi.trans h0.symm) (by simp) hb
        rw [h0] at ho
        cases ho with
        | no => cases S1 <;> cases ha
        | @ok j1 _ _ a e d =>
          obtain ⟨y, S2, rfl, hp, hy⟩ := d.pop (hjm.trans h0.symm)
          have hjm := (hy (Stale.meet_start_ne _)).trans h0
          simp only [after, newChild, Option.some.injEq, Iter.cont.injEq] at ha
          obtain ⟨rfl, rfl, rfl⟩ := ha
          obtain ⟨bo, g1, g2, g3⟩ := h3 _ a
          refine asks_of henv hs hm hN hf (.listOp (x := i0) hI' (j := i) rfl rfl (.refl _ _) a e hjm
            fun _ _ _ _ => trivial) hcomp (nilSt_fresh OP) rfl (g1 hop e e (by simp) (by simp))
            (fun h => ht (g2 h)) ?_ ?_
          · intro hbo r i3 S3 cs' r' i' S' hb3 ha3
            obtain ⟨g3, g4⟩ := g3 hbo
            have ho := out_of henv hs hm hN hf hop rfl (by simp) hb3
            rw [e] at ho
            cases ho with
            | no a3 => exact hf' (g4 a3) (.seq (by rw [hid]; exact a) (.seqNo a3))
            | ok => cases S3 <;> cases ha3
          · intro hbo r i3 S3 cs' st4 i4 S4 hb3 ha3
            obtain ⟨g3, g4⟩ := g3 hbo
            have ho := out_of henv hs hm hN hf hop rfl (by simp) hb3
            rw [e] at ho
            cases ho with
            | no => cases S3 <;> cases ha3
            | @ok j2 _ _ a2 e2 d2 =>
              cases S3 with
              | nil => cases ha3
              | cons x S3 =>
                simp only [after, newChild, Option.some.injEq, Iter.cont.injEq] at ha3
                obtain ⟨rfl, rfl, rfl⟩ := ha3
                exact hnext j2 _ _ (g3 _ a2) (.seq (by rw [hid]; exact a) (.seq a2 .seqNil)) e2
    induction h with
    | wait hx => intro i0 m jm S _ h0 hmi hjm; exact round (hX _ _ hx) h0 hmi hjm id (by simp) (by simp)
    | stop hx hno =>
      intro i0 m jm S _ h0 hmi hjm
      exact round (hX _ _ hx) h0 hmi hjm id (fun _ _ => rfl)
        fun j _ _ _ hy => absurd (hy.unique hno) (by simp)
    | last => intro _ _ _ _ h; cases h
    | @more mx' i j b hmx hx hy hr ih =>
      intro i0 m jm S hmx h0 hmi hjm
      refine round (hX _ _ hx) h0 hmi hjm (by simp) (fun _ hno => absurd (hno.unique hy) (by simp))
        fun j' i1 S _ hy' hi1 => ?_
      have := hy'.unique hy
      cases this
      exact ih (by omega) hi1 hi1 hi1

include hle hq

theorem fa_core {sk p i b} (hi : i ≤ t.length) (hcore : CoreA' sk p i b) :
    nn N sk i = i → (sk = true → i ≠ t.length) → FA' sk p i b := by
  intro h1 h2
  refine fa_of_core henv hs hm hN hf hle hq ?_ ?_ ?_ <;> rw [h1] <;> assumption

theorem seq_fa {sk qs i b} (hi : i ≤ t.length) (h : SeqA' sk qs i b) : TA' sk (.seq qs) i b := by
  refine ⟨fa_core henv hs hm hN hf hle hq hi ?_, fun _ e => by cases e; exact h, fun _ e => (by cases e),
    fun _ _ _ e => by cases e⟩
  intro c ls lf P m S hI hw hn hmi _
  have hI' := hI
  cases hI with
  | leaf h => cases h
  | clean => cases hw
  | atomic => cases hw
  | @seq _ _ _ slots Ps _ hne hlen hsl hch =>
    cases Ps with
    | nil => exact absurd rfl hne
    | cons P Ps => exact seq_asks henv hs hm hN hf hI' h rfl rfl rfl (hmi.trans hn.symm)

theorem alt_fa {sk qs i b} (hi : i ≤ t.length) (h : AltA' sk qs i b) : TA' sk (.alt qs) i b := by
  refine ⟨fa_core henv hs hm hN hf hle hq hi ?_, fun _ e => (by cases e), fun _ e => (by cases e; exact h),
    fun _ _ _ e => by cases e⟩
  intro c ls lf P m S hI hw hn hmi _
  have hI' := hI
  cases hI with
  | leaf h => cases h
  | clean => cases hw
  | atomic => cases hw
  | @alt _ _ _ _ Ps _ hne hlen hch =>
    cases Ps with
    | nil => exact absurd rfl hne
    | cons P Ps => exact alt_asks henv hs hm hN hf hI' h rfl rfl rfl (hmi.trans hn.symm)

theorem rep_fa {sk mn mx q i b} (hi : i ≤ t.length) (h : RepA env t N sk q (ItemA' sk q) mx i b) :
    TA' sk (.rep mn mx q) i b := by
  refine ⟨fa_core henv hs hm hN hf hle hq hi ?_, fun _ e => (by cases e), fun _ e => (by cases e),
    fun _ _ _ e => (by cases e; exact h)⟩
  intro c ls lf P m S hI hw hn hmi _
  have hI' := hI
  cases hI with
  | leaf h => cases h
  | clean => cases hw
  | atomic => cases hw
  | rep hch =>
    exact rep_asks henv hs hm hN hf hI' (fun i b hx => hx.1) h rfl (by omega) rfl (hmi.trans hn.symm)

theorem fa_only {sk p i b} (hi : i ≤ t.length) (h : CoreA' sk p i b) (h1 : ∀ qs, p ≠ .seq qs)
    (h2 : ∀ qs, p ≠ .alt qs) (h3 : ∀ mn mx q, p ≠ .rep mn mx q) : TA' sk p i b :=
  ⟨fa_core henv hs hm hN hf hle hq hi h, fun _ e => absurd e (h1 _), fun _ e => absurd e (h2 _),
    fun _ _ _ e => absurd e (h3 _ _ _)⟩

theorem opt_fa {sk p i b} (hi : i ≤ t.length) (h : FA' sk p i b) : TA' sk (.opt p) i b := by
  refine fa_only henv hs hm hN hf hle hq hi ?_ (by simp) (by simp) (by simp)
  intro c ls lf P m S hI hw hn hmi _
  have hI' := hI
  cases hI with
  | leaf h => cases h
  | clean => cases hw
  | atomic => cases hw
  | @opt _ _ c' _ _ P _ hst hch =>
    refine asks_wrap henv hs hm hN hf (fresh_cfg hI' (hmi.trans hn.symm) (fun _ => hn)) (comp_of hs hI')
      (nilSt_fresh _) rfl ?_ ?_
    · rw [marks, rep_succ]
      exact h hch rfl (hmi.trans hn.symm) (by simp) (by simp)
    · intro r _ S1 _ _ _ _ h; cases r <;> cases S1 <;> cases h

theorem not_fa {sk p i b} (hi : i ≤ t.length) (h : FA' sk p i b) : TA' sk (.not p) i b := by
  refine fa_only henv hs hm hN hf hle hq hi ?_ (by simp) (by simp) (by simp)
  intro c ls lf P m S hI hw hn hmi _
  have hI' := hI
  cases hI with
  | leaf h => cases h
  | clean => cases hw
  | atomic => cases hw
  | @not _ _ c' _ _ P _ hch =>
    refine asks_wrap henv hs hm hN hf (fresh_cfg hI' (hmi.trans hn.symm) (fun _ => hn)) (comp_of hs hI')
      (nilSt_fresh _) rfl ?_ ?_
    · rw [marks, rep_succ]
      exact h hch rfl (hmi.trans hn.symm) (by simp) (by simp)
    · intro r _ S1 _ _ _ _ h; cases r <;> cases S1 <;> cases h

theorem except_fa {sk op neg i bn b} (hi : i ≤ t.length) (h : FA' sk neg i bn) (ht : bn = true → b = true)
    (hy : bn = false → ∀ j, PegN env t (nn N sk) neg (nn N sk i) (some j) → b = false)
    (h2 : bn = false → PegN env t (nn N sk) neg (nn N sk i) none → FA' sk op i b) :
    TA' sk (.except op neg) i b := by
  refine fa_only henv hs hm hN hf hle hq hi ?_ (by simp) (by simp) (by simp)
  intro c ls lf P m S hI hw hn hmi _
  have hI' := hI
  have hcomp := comp_of hs hI
  cases hI with
  | leaf h => cases h
  | clean => cases hw
  | atomic => cases hw
  | @except _ _ _ OP NEG _ _ hop hneg =>
    refine asks_of henv hs hm hN hf (fresh_cfg hI' (hmi.trans hn.symm) (fun _ => hn)) hcomp (nilSt_fresh _) rfl
      (h hneg rfl (hmi.trans hn.symm) (by simp) (by simp)) ht ?_ ?_
    · intro hbn r i1 S1 cs' r' i' S' hb ha
      have ho := out_of henv hs hm hN hf hneg (hmi.trans hn.symm) (by simp) hb
      cases ho with
      | ok a => exact hy hbn _ a
      | no a e d => cases ha
    · intro hbn r i1 S1 cs' st2 i2 S2 hb ha
      have ho := out_of henv hs hm hN hf hneg (hmi.trans hn.symm) (by simp) hb
      cases ho with
      | ok => cases ha
      | no a e d =>
        have d := d rfl
        rw [hn] at d
        simp only [after, fresh, newChild, Option.some.injEq, Iter.cont.injEq] at ha
        obtain ⟨rfl, rfl, rfl⟩ := ha
        refine asks_wrap henv hs hm hN hf (.exceptOp hI' rfl rfl (.refl _ _) fun _ _ _ _ => trivial)
          hcomp (nilSt_fresh OP) rfl (h2 hbn a hop d d (by simp) (by simp)) ?_
        intro r _ S1 _ _ _ _ h; cases r <;> cases h

theorem list_fa {sk op sep i bo b} (hi : i ≤ t.length) (h : FA' sk op i bo) (ht : bo = true → b = true)
    (hno : bo = false → PegN env t (nn N sk) op (nn N sk i) none → b = false)
    (h2 : bo = false → ∀ j, PegN env t (nn N sk) op (nn N sk i) (some j) →
      RepA env t N sk (.seq [sep, op]) (ItemA' sk (.seq [sep, op])) 0 j b) :
    TA' sk (.list op sep) i b := by
  refine fa_only henv hs hm hN hf hle hq hi ?_ (by simp) (by simp) (by simp)
  intro c ls lf P m S hI hw hn hmi _
  have hI' := hI
  have hcomp := comp_of hs hI
  cases hI with
  | leaf h => cases h
  | clean => cases hw
  | atomic => cases hw
  | @list _ _ _ _ _ _ OP SEP _ _ hop hsep =>
    refine asks_of henv hs hm hN hf (fresh_cfg hI' (hmi.trans hn.symm) (fun _ => hn)) hcomp (nilSt_fresh _) rfl ?_ ht ?_ ?_
    · rw [marks, rep_succ]
      exact h hop rfl (hmi.trans hn.symm) (by simp) (by simp)
    · intro hbo r i1 S1 cs' r' i' S' hb ha
      rw [marks, rep_succ] at hb
      have ho := out_of henv hs hm hN hf hop (hmi.trans hn.symm) (by simp) hb
      cases ho with
      | no a => exact hno hbo a
      | ok => cases S1 <;> cases ha
    · intro hbo r i1 S1 cs' st2 i2 S2 hb ha
      rw [marks, rep_succ] at hb
      have ho := out_of henv hs hm hN hf hop (hmi.trans hn.symm) (by simp) hb
      cases ho with
      | no => cases S1 <;> cases ha
      | @ok j _ _ a e d =>
        cases S1 with
        | nil => cases ha
        | cons x S1 =>
          simp only [after, fresh, newChild, Option.some.injEq, Iter.cont.injEq] at ha
          obtain ⟨rfl, rfl, rfl⟩ := ha
          exact list_asks henv hs hm hN hf hI' (fun _ _ hx => hx.2 _ _ rfl) (h2 hbo _ a) rfl e e e

theorem lexeme_fa {sk p i b} (hi : i ≤ t.length) (h : FA' false p i b) : TA' sk (.lexeme p) i b := by
  refine fa_only henv hs hm hN hf hle hq hi ?_ (by simp) (by simp) (by simp)
  intro c ls lf P m S hI hw hn hmi _
  have hI' := hI
  have hcomp := comp_of hs hI
  have hcfg := fresh_cfg (env := env) (t := t) (S := S) hI' (hmi.trans hn.symm) (fun _ => hn)
  cases hI with
  | leaf h => cases h
  | clean => cases hw
  | atomic => cases hw
  | @lexeme _ _ _ _ P _ hch hmk =>
    refine asks_wrap henv hs hm hN hf hcfg hcomp (nilSt_fresh _) rfl (cp := P) (cs := fresh P) ?_ ?_
    · rw [marks]
      cases sk with
      | true =>
        have := h (S := S) (m := i) hch rfl rfl (fun _ => rfl) (by simp)
        rw [hmk rfl] at this ⊢; exact this
      | false =>
        have hmi : m = i := hmi
        exact h hch rfl hmi (fun _ => rfl) (by simp)
    · intro r _ S1 _ _ _ _ h; cases r <;> cases h
  | @lexemeClean _ _ c' _ _ P _ hch hmk =>
    refine asks_wrap henv hs hm hN hf hcfg hcomp (nilSt_fresh _) rfl (cp := .clean P) (cs := .wrap (fresh P)) ?_ ?_
    · have e : List.replicate (marks (.lexeme (.clean P))) m ++ S = m :: S := by
        rw [marks, marks, hmk]; rfl
      rw [e]
      refine asks_wrap henv hs hm hN hf (.cleanAt (sk := sk) hch hmk rfl (hmi.trans hn.symm)
        (fun _ _ _ _ => trivial) fun _ _ _ _ _ => trivial) (.clean (comp_of hs hch)) (nilSt_fresh P) rfl
        (cp := P) (cs := fresh P) ?_ ?_
      · have := h (S := m :: S) (m := i) hch rfl rfl (fun _ => rfl) (by simp)
        rw [hmk] at this; exact this
      · intro r _ S1 _ _ _ _ h; cases r <;> cases S1 <;> cases h
    · intro r _ S1 _ _ _ _ h; cases r <;> cases h

theorem recur_fa {sk id n q i b} (hi : i ≤ t.length) (he : env id = some q) (h : FA' sk q i b) :
    TA' sk (.recur id n) i b := by
  refine fa_only henv hs hm hN hf hle hq hi ?_ (by simp) (by simp) (by simp)
  intro c ls lf P m S hI hw hn hmi hend
  have hI' := hI
  cases hI with
  | leaf h => cases h
  | clean => cases hw
  | atomic => cases hw
  | recur h1 h2 h3 =>
    obtain ⟨r, i', S', hb, hr⟩ := h (i0 := i) (m := i) (S := S) (skip_env henv hf sk h1 id q he) rfl rfl
      (fun _ => hn) (fun _ => hend)
    exact ⟨r, i', S', .recurNone he hb, hr⟩

theorem pass_fa {sk p i b} (hi : i ≤ t.length) (h : FA' sk p i b) :
    TA' sk (.discard p) i b ∧ TA' sk (.bindDst p) i b ∧
    (∀ tys, TA' sk (.construct tys p) i b) ∧ (∀ a, TA' sk (.action a p) i b) := by
  refine ⟨?_, ?_, fun tys => ?_, fun a => ?_⟩
  all_goals
    refine fa_only henv hs hm hN hf hle hq hi ?_ (by simp) (by simp) (by simp)
    intro c ls lf P m S hI hw hn hmi hend
    have hI' := hI
    cases hI with
    | leaf h => cases h
    | clean => cases hw
    | atomic => cases hw
    | _ hch =>
      refine asks_wrap henv hs hm hN hf (fresh_cfg hI' (hmi.trans hn.symm) (fun _ => hn)) (comp_of hs hI')
        (nilSt_fresh _) rfl (h hch rfl (hmi.trans hn.symm) (fun _ => hn) (fun _ => hend)) ?_
      intro r _ S1 _ _ _ _ h; cases r <;> cases h

theorem leaf_fa {sk p i b} (hl : p.isLeaf = true) (hi : i ≤ t.length) (hb : p.Open (t.drop i) ↔ b = true) :
    TA' sk p i b := by
  refine fa_only henv hs hm hN hf hle hq hi ?_ (by rintro _ rfl; cases hl) (by rintro _ rfl; cases hl)
    (by rintro _ _ _ rfl; cases hl)
  intro c ls lf P m S hI hw hn hmi _
  have h : LeafOK c P p := by
    cases hI with
    | leaf h => exact h
    | clean => cases hw
    | atomic => cases hw
    | _ => cases hl
  obtain ⟨r, i', S', h1, h2⟩ := leaf_asks (env := env) h hi (List.replicate (marks P) m ++ S)
  exact ⟨r, i', S', h1, h2.trans hb⟩

omit henv hs hm hN hf hle hq in
/-- Matches end within the text. -/
theorem within {N' : Nat → Nat} {p i o} (h : PegN env t N' p i o) : (∀ i, i ≤ t.length → N' i ≤ t.length) →
    i ≤ t.length → ∀ j, o = some j → j ≤ t.length := by
  have leaf : ∀ {p i j}, Peg env t p i (some j) → i ≤ t.length → j ≤ t.length :=
    fun h hi => Peg.within h hi _ rfl
  induction h with
  | char h1 h2 => rintro _ hi j ⟨⟩; exact leaf (.char h1 h2) hi
  | charSymbol h1 h2 => rintro _ hi j ⟨⟩; exact leaf (.charSymbol h1 h2) hi
  | strLit h1 => rintro _ hi j ⟨⟩; exact leaf (.strLit h1) hi
  | symbol h1 h2 => rintro _ hi j ⟨⟩; exact leaf (.symbol h1 h2) hi
  | uint h1 => rintro _ hi j ⟨⟩; exact leaf (.uint h1) hi
  | int h1 h2 => rintro _ hi j ⟨⟩; exact leaf (.int h1 h2) hi
  | charNo | charSymbolNo | strLitNo | symbolNo | uintNo | intNo | eoiNo | fail | seqNo | altNil | repFew
  | notNo | exceptNo => intro _ _ _ h; cases h
  | eoi | pass | seqNil | repStop | optNo | not | listNil => rintro _ hi j ⟨⟩; exact hi
  | seq _ _ ih1 ih2 => intro hb hi j e; exact ih2 hb (ih1 hb (hb _ hi) _ rfl) j e
  | altNo _ _ _ ih => exact ih
  | except _ _ _ ih => intro hb hi j e; exact ih hb (hb _ hi) j e
  | repMore _ _ _ ih1 ih2 => intro hb hi j e; exact ih2 hb (ih1 hb (hb _ hi) _ rfl) j e
  | list _ _ ih1 ih2 => intro hb hi j e; exact ih2 hb (ih1 hb (hb _ hi) _ rfl) j e
  | lexeme _ ih => intro _ hi j e; exact ih (fun _ h => h) hi j e
  | alt _ ih | repLast _ ih | opt _ ih | discard _ ih | bindDst _ ih | construct _ ih
  | action _ ih | recur _ _ ih => intro hb hi j e; exact ih hb (hb _ hi) j e

/-- Programs for patterns under the skipper return, and ask for more if nothing can be said yet. -/
theorem ScanN.asks {f sk p i a} (h : ScanN env t N f sk p i a) : i ≤ t.length →
    (f = true → ItemA' sk p i a.waits) ∧ (f = false → TA' sk p i a.waits) := by
  have hid := idem henv hs hm hN hf
  have hb : ∀ sk i, i ≤ t.length → nn N sk i ≤ t.length := by
    intro sk i hi
    cases sk with
    | false => exact hi
    | true => exact Peg.within (hN i) hi _ rfl
  have yes : ∀ {sk p i j j'}, ScanN env t N true sk p i (.yes j) →
      PegN env t (nn N sk) p (nn N sk i) (some j') → j' = j := by
    intro sk p i j j' h h'
    exact Option.some.inj (h'.unique h.peg)
  have notNo : ∀ {sk p i j}, ScanN env t N true sk p i (.yes j) →
      ¬ PegN env t (nn N sk) p (nn N sk i) none := by
    intro sk p i j h h'
    cases h'.unique h.peg
  have no : ∀ {sk p i j}, ScanN env t N true sk p i .no →
      ¬ PegN env t (nn N sk) p (nn N sk i) (some j) := by
    intro sk p i j h h'
    cases h'.unique h.peg
  have inT : ∀ {sk p i j}, ScanN env t N true sk p i (.yes j) → i ≤ t.length → j ≤ t.length :=
    fun {sk p i j} h hi => within h.peg (hb sk) (hb sk i hi) _ rfl
  induction h with
  | @wait p i h =>
    intro hi
    refine ⟨fun _ => ⟨fa_wait henv hs hm hN hf hle hq h, fun q' qs e => ?_⟩, nofun⟩
    exact ⟨true, fa_wait henv hs hm hN hf hle hq h, id, nofun⟩
  | @enter sk p i a hw h ih =>
    intro hi
    refine ⟨fun _ => ?_, nofun⟩
    have hT := (ih (hb _ _ hi)).2 rfl
    exact ⟨FA.congr (hid _ _).symm (hT.fh (hid _ _) (fun h => by subst h; exact hw rfl)), fun q' qs e => (hT.seq _ e).congr (hid _ _).symm⟩
  | leafMore h => intro hi; exact ⟨nofun, fun _ => leaf_fa henv hs hm hN hf hle hq h.isLeaf hi (by simp [h, Ans.waits])⟩
  | leafNo hl h _ => intro hi; exact ⟨nofun, fun _ => leaf_fa henv hs hm hN hf hle hq hl hi (by simp [h, Ans.waits])⟩
  | leaf hl h _ => intro hi; exact ⟨nofun, fun _ => leaf_fa henv hs hm hN hf hle hq hl hi (by simp [h, Ans.waits])⟩
  | seqNil => intro hi; exact ⟨nofun, fun _ => seq_fa henv hs hm hN hf hle hq hi rfl⟩
  | seqMore _ ih =>
    intro hi
    exact ⟨nofun, fun _ => seq_fa henv hs hm hN hf hle hq hi ⟨true, ((ih hi).1 rfl).1, id, nofun⟩⟩
  | seqNo h ih =>
    intro hi
    exact ⟨nofun, fun _ => seq_fa henv hs hm hN hf hle hq hi ⟨false, ((ih hi).1 rfl).1, nofun,
      fun _ => ⟨fun _ h' => absurd h' (no h), fun _ => rfl⟩⟩⟩
  | seq h _ ih1 ih2 =>
    intro hi
    refine ⟨nofun, fun _ => seq_fa henv hs hm hN hf hle hq hi ⟨false, ((ih1 hi).1 rfl).1, nofun,
      fun _ => ⟨fun _ h' => ?_, fun h' => absurd h' (notNo h)⟩⟩⟩
    rw [yes h h']
    exact ((ih2 (inT h hi)).2 rfl).seq _ rfl
  | altNil => intro hi; exact ⟨nofun, fun _ => alt_fa henv hs hm hN hf hle hq hi rfl⟩
  | altMore _ ih =>
    intro hi
    exact ⟨nofun, fun _ => alt_fa henv hs hm hN hf hle hq hi ⟨true, ((ih hi).1 rfl).1, id, nofun⟩⟩
  | alt h ih =>
    intro hi
    exact ⟨nofun, fun _ => alt_fa henv hs hm hN hf hle hq hi ⟨false, ((ih hi).1 rfl).1, nofun,
      fun _ => ⟨fun _ _ => rfl, fun h' => absurd h' (notNo h)⟩⟩⟩
  | altNo h _ ih1 ih2 =>
    intro hi
    exact ⟨nofun, fun _ => alt_fa henv hs hm hN hf hle hq hi ⟨false, ((ih1 hi).1 rfl).1, nofun,
      fun _ => ⟨fun _ h' => absurd h' (no h), fun _ => ((ih2 hi).2 rfl).alt _ rfl⟩⟩⟩
  | repWait _ ih => intro hi; exact ⟨nofun, fun _ => rep_fa henv hs hm hN hf hle hq hi (.wait ((ih hi).1 rfl))⟩
  | repStop h ih => intro hi; exact ⟨nofun, fun _ => rep_fa henv hs hm hN hf hle hq hi (.stop ((ih hi).1 rfl) h.peg)⟩
  | repFew _ h ih => intro hi; exact ⟨nofun, fun _ => rep_fa henv hs hm hN hf hle hq hi (.stop ((ih hi).1 rfl) h.peg)⟩
  | repLast h ih => intro hi; exact ⟨nofun, fun _ => rep_fa henv hs hm hN hf hle hq hi (.last ((ih hi).1 rfl))⟩
  | repMore hmx h _ ih1 ih2 =>
    intro hi
    exact ⟨nofun, fun _ => rep_fa henv hs hm hN hf hle hq hi (.more hmx ((ih1 hi).1 rfl) h.peg
      (((ih2 (inT h hi)).2 rfl).rep _ _ _ rfl))⟩
  | optMore _ ih | opt _ ih | optNo _ ih => intro hi; exact ⟨nofun, fun _ => opt_fa henv hs hm hN hf hle hq hi ((ih hi).1 rfl).1⟩
  | notMore _ ih | not _ ih | notNo _ ih => intro hi; exact ⟨nofun, fun _ => not_fa henv hs hm hN hf hle hq hi ((ih hi).1 rfl).1⟩
  | discard _ ih => intro hi; exact ⟨nofun, fun _ => (pass_fa henv hs hm hN hf hle hq hi ((ih hi).1 rfl).1).1⟩
  | lexeme _ ih => intro hi; exact ⟨nofun, fun _ => lexeme_fa henv hs hm hN hf hle hq hi (((ih hi).2 rfl).fh rfl nofun)⟩
  | bindDst _ ih => intro hi; exact ⟨nofun, fun _ => (pass_fa henv hs hm hN hf hle hq hi ((ih hi).1 rfl).1).2.1⟩
  | construct _ ih => intro hi; exact ⟨nofun, fun _ => (pass_fa henv hs hm hN hf hle hq hi ((ih hi).1 rfl).1).2.2.1 _⟩
  | action _ ih => intro hi; exact ⟨nofun, fun _ => (pass_fa henv hs hm hN hf hle hq hi ((ih hi).1 rfl).1).2.2.2 _⟩
  | exceptMore _ ih => intro hi; exact ⟨nofun, fun _ => except_fa henv hs hm hN hf hle hq hi ((ih hi).1 rfl).1 id nofun nofun⟩
  | except h _ ih1 ih2 =>
    intro hi
    exact ⟨nofun, fun _ => except_fa henv hs hm hN hf hle hq hi ((ih1 hi).1 rfl).1 nofun (fun _ _ h' => absurd h' (no h))
      fun _ _ => ((ih2 hi).1 rfl).1⟩
  | exceptNo h ih =>
    intro hi
    exact ⟨nofun, fun _ => except_fa henv hs hm hN hf hle hq hi ((ih hi).1 rfl).1 nofun (fun _ _ _ => rfl)
      fun _ h' => absurd h' (notNo h)⟩
  | listMore _ ih => intro hi; exact ⟨nofun, fun _ => list_fa henv hs hm hN hf hle hq hi ((ih hi).1 rfl).1 id nofun nofun⟩
  | listNil h ih =>
    intro hi
    exact ⟨nofun, fun _ => list_fa henv hs hm hN hf hle hq hi ((ih hi).1 rfl).1 nofun (fun _ _ => rfl)
      fun _ _ h' => absurd h' (no h)⟩
  | list h _ ih1 ih2 =>
    intro hi
    refine ⟨nofun, fun _ => list_fa henv hs hm hN hf hle hq hi ((ih1 hi).1 rfl).1 nofun (fun _ h' => absurd h' (notNo h))
      fun _ _ h' => ?_⟩
    rw [yes h h']
    exact ((ih2 (inT h hi)).2 rfl).rep _ _ _ rfl
  | recur he _ ih => intro hi; exact ⟨nofun, fun _ => recur_fa henv hs hm hN hf hle hq hi he ((ih hi).1 rfl).1⟩

end
end Abu.SkipScan
