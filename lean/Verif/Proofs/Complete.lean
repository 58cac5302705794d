import Verif.Proofs.Impl
/-
Programs of the class return whenever the grammar semantics has an outcome.
-/
namespace Abu

/-- The machine returns. -/
def Halts (env : Env) (t : List Ch) (P : Prog) (st : PState) (i : Nat) (S : List Nat) : Prop :=
  ∃ r i' S', Big env t P st i S r i' S'

/-- Applying `s` as often as possible. -/
inductive SkipTo (env : Env) (t : List Ch) (s : Pat) : Nat → Nat → Prop
  | stop {i} : PegN env t id s i none → SkipTo env t s i i
  | step {i j k} : PegN env t id s i (some j) → SkipTo env t s j k → SkipTo env t s i k

section
variable (env : Env) (t : List Ch) (K : Prog) (N : Nat → Nat) (useSk : Bool) (els elf : Stale)

/-- Fresh programs for `p` return, with the grammar position at `i`. -/
def FH (N' : Nat → Nat) (p : Pat) (i : Nat) : Prop :=
  ∀ {sk full c ls lf P i0 m S}, nn N sk = N' → Impl K useSk els elf sk full c ls lf P p →
    N' i0 = i → N' m = i → (full = false → i0 = i) →
    Halts env t P (fresh P) i0 (List.replicate (marks P) m ++ S)

def isWrap : Prog → Bool
  | .clean _ | .atomic _ => true
  | _ => false

/-- The same, for programs without adapters. -/
def CoreH (N' : Nat → Nat) (p : Pat) (i : Nat) : Prop :=
  ∀ {sk c ls lf P m S}, nn N sk = N' → Impl K useSk els elf sk false c ls lf P p →
    isWrap P = false → N' i = i → N' m = i →
    Halts env t P (fresh P) i (List.replicate (marks P) m ++ S)

def SeqH (N' : Nat → Nat) : List Pat → Nat → Prop
  | [], _ => True
  | q :: qs, i => FH env t K N useSk els elf N' q (N' i) ∧
      ∀ j, PegN env t N' q (N' i) (some j) → SeqH N' qs j

def AltH (N' : Nat → Nat) : List Pat → Nat → Prop
  | [], _ => True
  | q :: qs, i => FH env t K N useSk els elf N' q (N' i) ∧
      (PegN env t N' q (N' i) none → AltH N' qs i)

inductive RepH (N' : Nat → Nat) (q : Pat) (X : Nat → Prop) : Nat → Nat → Prop
  | stop {mx i} : X (N' i) → PegN env t N' q (N' i) none → RepH N' q X mx i
  | last {i} : X (N' i) → RepH N' q X 1 i
  | more {mx i j} : X (N' i) → PegN env t N' q (N' i) (some j) → RepH N' q X (mx - 1) j →
      RepH N' q X mx i

/-- What is needed of the items of repetitions. -/
def ItemH (N' : Nat → Nat) (q : Pat) (i : Nat) : Prop :=
  FH env t K N useSk els elf N' q i ∧ ∀ qs, q = .seq qs → SeqH env t K N useSk els elf N' qs i

structure TH (N' : Nat → Nat) (p : Pat) (i : Nat) : Prop where
  fh : FH env t K N useSk els elf N' p i
  seq : ∀ qs, p = .seq qs → SeqH env t K N useSk els elf N' qs i
  alt : ∀ qs, p = .alt qs → AltH env t K N useSk els elf N' qs i
  rep : ∀ mn mx q, p = .rep mn mx q →
    RepH env t N' q (ItemH env t K N useSk els elf N' q) mx i

end

section
variable {env : Env} {t : List Ch} {K : Prog} {N : Nat → Nat} {useSk : Bool} {els elf : Stale}
variable (hK : useSk = true → ∃ s, SkipOK env t K N useSk els elf s ∧
    (∀ i, SkipTo env t s i (N i)) ∧ ∀ i S, Halts env t K (fresh K) i S)
variable (hE : ∀ sk, (sk = true → useSk = true) → ∀ id q, env id = some q →
      Impl K useSk els elf sk false false els elf (elabP (if sk then K else .fail) RecurChildReqs q) q)

theorem skOK (hK : useSk = true → ∃ s, SkipOK env t K N useSk els elf s ∧
    (∀ i, SkipTo env t s i (N i)) ∧ ∀ i S, Halts env t K (fresh K) i S) :
    useSk = true → ∃ s, SkipOK env t K N useSk els elf s := by
  intro h; obtain ⟨s, hs, _⟩ := hK h; exact ⟨s, hs⟩

include hK hE

theorem halts_of {P st i S cp cs}
    (hcfg : Cfg env t K N useSk els elf P st i S (fun _ _ _ => True))
    (hc : childOf P st = some (cp, cs)) (hchild : Halts env t cp cs i S)
    (hnext : ∀ r i1 S1 cs' st2 i2 S2, Big env t cp cs i S r i1 S1 →
      after P st r cs' i1 S1 = some (.cont st2 i2 S2) → Halts env t P st2 i2 S2) :
    Halts env t P st i S := by
  obtain ⟨hl, hr⟩ := childOf_some hc
  obtain ⟨cp', cs'', hc', cpost, hcc, hn⟩ := cfg_step (skOK hK) hcfg hl hr
  rw [hc] at hc'
  cases hc'
  obtain ⟨r, i1, S1, hb⟩ := hchild
  have hp := hn r .unit _ _ (sound (skOK hK) hE hb hcc)
  cases ha : after P st r .unit i1 S1 with
  | none => rw [ha] at hp; exact hp.elim
  | some x =>
    cases x with
    | ret r' i' S' => exact ⟨_, _, _, .ret hc hb ha⟩
    | cont st2 i2 S2 =>
      obtain ⟨r', i', S', hb'⟩ := hnext _ _ _ _ _ _ _ hb ha
      exact ⟨_, _, _, .cont hc hb ha hb'⟩

theorem halts_wrap {P st i S cp cs}
    (hcfg : Cfg env t K N useSk els elf P st i S (fun _ _ _ => True))
    (hc : childOf P st = some (cp, cs)) (hchild : Halts env t cp cs i S)
    (hnext : ∀ r i1 S1 cs' st2 i2 S2, after P st r cs' i1 S1 ≠ some (.cont st2 i2 S2)) :
    Halts env t P st i S :=
  halts_of hK hE hcfg hc hchild fun _ _ _ _ _ _ _ _ h => absurd h (hnext _ _ _ _ _ _ _)

theorem child_out {sk full c ls lf P p i m S r i' S'}
    (hI : Impl K useSk els elf sk full c ls lf P p) (hm : nn N sk m = nn N sk i)
    (hi : full = false → nn N sk i = i)
    (h : Big env t P (fresh P) i (List.replicate (marks P) m ++ S) r i' S') :
    Outcome env t N sk c ls lf i p (nn N sk i) S r i' S' :=
  sound (skOK hK) hE h (.fresh hI rfl rfl hm hi fun _ _ _ h => h)

theorem fh_of_core {N' p i} (hcore : CoreH env t K N useSk els elf N' p i) :
    FH env t K N useSk els elf N' p i := by
  intro sk full c ls lf P i0 m S hn hI
  induction hI generalizing i0 m S with
  | plain h ih =>
    intro h1 h2 h3
    subst hn
    exact ih hcore rfl h1 h2 fun _ => h1
  | @skip c ls lf P p hu hI ih =>
    intro h1 h2 _
    obtain ⟨s, hs, hto, hKh⟩ := hK hu
    have hidem := hs.idem
    subst hn
    have hto := hto i0
    have key : ∀ {i0 k}, SkipTo env t s i0 k → nn N true i0 = i → 
        Halts env t (.skip K P) (fresh (.skip K P)) i0
          (List.replicate (marks (.skip K P)) m ++ S) := by
      intro i0 k hto
      have hmk : marks (.skip K P) = marks P := by rw [marks, hs.marks, Nat.zero_add]
      induction hto with
      | @stop i0 hno =>
        intro h1
        have hi0 : i0 = i := by rw [← h1]; exact (hs.stop hno).symm
        refine halts_of hK hE (.fresh (.skip hu hI) rfl rfl (h2.trans h1.symm) (by simp)
          fun _ _ _ _ => trivial) rfl (hKh _ _) ?_
        intro r i1 S1 cs' st2 i2 S2 hb ha
        have ho := child_out (m := i0) (sk := false) hK hE hs.impl rfl (fun _ => rfl)
          (S := List.replicate (marks (.skip K P)) m ++ S) (by rw [hs.marks]; exact hb)
        cases ho with
        | ok a => exact absurd (a.unique hno) (by simp)
        | no a b d =>
          have := b.eq; subst this
          have hij : i1 = i0 := d rfl
          subst hij
          simp only [after, fresh, Option.some.injEq, Iter.cont.injEq] at ha
          obtain ⟨rfl, rfl, rfl⟩ := ha
          refine halts_wrap hK hE (.skipped hI (by rw [hmk]) (h2.trans h1.symm) (hs.stop hno)
            fun _ _ _ _ => trivial) rfl ?_ ?_
          · rw [hmk]
            exact ih hcore rfl h1 h2 fun _ => hi0
          · intro r _ _ _ _ _ _ h; cases r <;> cases h
      | @step i0 j k hy hto ih2 =>
        intro h1
        refine halts_of hK hE (.fresh (.skip hu hI) rfl rfl (h2.trans h1.symm) (by simp)
          fun _ _ _ _ => trivial) rfl (hKh _ _) ?_
        intro r i1 S1 cs' st2 i2 S2 hb ha
        have ho := child_out (m := i0) (sk := false) hK hE hs.impl rfl (fun _ => rfl)
          (S := List.replicate (marks (.skip K P)) m ++ S) (by rw [hs.marks]; exact hb)
        cases ho with
        | ok a b d =>
          have e := d.eq; subst e
          have e := a.unique hy
          cases e
          have hij : i1 = j := b
          subst hij
          simp only [after, fresh, newChild, hs.marks, Option.some.injEq, Iter.cont.injEq] at ha
          obtain ⟨rfl, rfl, rfl⟩ := ha
          exact ih2 ((hs.step hy).trans h1)
        | no a b d => exact absurd (a.unique hy) (by simp)
    exact key hto h1
  | @clean sk c c' ls lf P p hI ih =>
    intro h1 h2 h3
    have h3 := h3 rfl
    subst hn
    have hcfg : Cfg env t K N useSk els elf (.clean P) (fresh (.clean P)) i0
        (List.replicate (marks (.clean P)) m ++ S)
        (fun _ _ _ => True) :=
      .fresh (c := c) (ls := ls) (lf := lf) (.clean hI) rfl rfl (h2.trans h1.symm)
        (fun _ => h1.trans h3.symm) fun _ _ _ _ => trivial
    refine halts_wrap hK hE hcfg rfl ?_ ?_
    · have := ih (S := m :: S) hcore rfl h1 h2 fun _ => h3
      rwa [← rep_succ] at this
    · intro r _ S1 _ _ _ _ h; cases r <;> cases S1 <;> cases h
  | @atomic sk c ls lf P p hI ih =>
    intro h1 h2 h3
    have h3 := h3 rfl
    subst hn
    have hcfg : Cfg env t K N useSk els elf (.atomic P) (fresh (.atomic P)) i0
        (List.replicate (marks (.atomic P)) m ++ S)
        (fun _ _ _ => True) :=
      .fresh (c := c) (ls := ls) (lf := lf) (.atomic hI) rfl rfl (h2.trans h1.symm)
        (fun _ => h1.trans h3.symm) fun _ _ _ _ => trivial
    refine halts_wrap hK hE hcfg rfl (ih hcore rfl h1 h2 fun _ => h3) ?_
    intro r _ S1 _ _ _ _ h; cases r <;> cases h
  | leaf h => 
    intro h1 h2 h3
    have h3 := h3 rfl
    subst h3
    exact hcore hn (.leaf (ls := .none) (lf := .none) h) (by cases h <;> rfl) h1 h2
  | seq a b c d => intro h1 h2 h3; have h3 := h3 rfl; subst h3; exact hcore hn (.seq a b c d) rfl h1 h2
  | alt a b c => intro h1 h2 h3; have h3 := h3 rfl; subst h3; exact hcore hn (.alt (c := false) a b c) rfl h1 h2
  | rep a => intro h1 h2 h3; have h3 := h3 rfl; subst h3; exact hcore hn (.rep a) rfl h1 h2
  | opt a b => intro h1 h2 h3; have h3 := h3 rfl; subst h3; exact hcore hn (.opt (c := false) (lf := .none) a b) rfl h1 h2
  | not a => intro h1 h2 h3; have h3 := h3 rfl; subst h3; exact hcore hn (.not (c := false) a) rfl h1 h2
  | discard a => intro h1 h2 h3; have h3 := h3 rfl; subst h3; exact hcore hn (.discard a) rfl h1 h2
  | lexeme a b => intro h1 h2 h3; have h3 := h3 rfl; subst h3; exact hcore hn (.lexeme a b) rfl h1 h2
  | lexemeClean a b => intro h1 h2 h3; have h3 := h3 rfl; subst h3; exact hcore hn (.lexemeClean (c := false) a b) rfl h1 h2
  | bindDst a => intro h1 h2 h3; have h3 := h3 rfl; subst h3; exact hcore hn (.bindDst a) rfl h1 h2
  | construct a => intro h1 h2 h3; have h3 := h3 rfl; subst h3; exact hcore hn (.construct a) rfl h1 h2
  | action a => intro h1 h2 h3; have h3 := h3 rfl; subst h3; exact hcore hn (.action a) rfl h1 h2
  | except a b => intro h1 h2 h3; have h3 := h3 rfl; subst h3; exact hcore hn (.except a b) rfl h1 h2
  | list a b => intro h1 h2 h3; have h3 := h3 rfl; subst h3; exact hcore hn (.list (c := false) (lf := .none) a b) rfl h1 h2
  | recur a b c => intro h1 h2 h3; have h3 := h3 rfl; subst h3; exact hcore hn (.recur a b c) rfl h1 h2

theorem seq_halts {sk ls lf slots Ps PS}
    (hI : Impl K useSk els elf sk false false ls lf (.seq slots Ps) (.seq PS)) :
    ∀ {qs k P i i0 m S}, SeqH env t K N useSk els elf (nn N sk) qs i → PS.drop k = qs →
      Ps[k]? = some P → nn N sk i0 = nn N sk i → nn N sk m = nn N sk i →
      Halts env t (.seq slots Ps) (.seq k (fresh P)) i0 (List.replicate (marks P) m ++ S) := by
  have hI' := hI
  cases hI with
  | leaf h => cases h
  | seq hne hlen hsl hch =>
    intro qs
    induction qs with
    | nil =>
      intro k P i i0 m S _ hd hP
      rw [List.drop_eq_nil_iff] at hd
      have := (List.getElem?_eq_some_iff.1 hP).1
      omega
    | cons q qs ih =>
      intro k P i i0 m S hs hd hP h0 hm
      obtain ⟨hq, hd'⟩ : PS[k]? = some q ∧ PS.drop (k + 1) = qs := by
        have hk : k < PS.length := by have := (List.getElem?_eq_some_iff.1 hP).1; omega
        rw [List.drop_eq_getElem_cons hk] at hd
        cases hd
        exact ⟨List.getElem?_eq_getElem hk, rfl⟩
      refine halts_of hK hE (.seqAt (x := i0) hI' hP rfl (hm.trans h0.symm) rfl (fun _ => rfl) (.refl _ _)
        fun _ _ _ _ => trivial) (by simp [childOf, hP])
        (hs.1 rfl (hch k P q hP hq) h0 hm (by simp)) ?_
      intro r i1 S1 cs' st2 i2 S2 hb ha
      have ho := child_out hK hE (hch k P q hP hq) (hm.trans h0.symm) (by simp) hb
      rw [h0] at ho
      cases ho with
      | no => simp [after] at ha
      | @ok j _ _ a b d =>
        simp only [after] at ha
        split at ha
        · rename_i P' s' hP' hs'
          simp only [newChild, Option.some.injEq, Iter.cont.injEq] at ha
          obtain ⟨rfl, rfl, rfl⟩ := ha
          exact ih (hs.2 j a) hd' hP' b b
        · cases ha

theorem alt_halts {sk c ls lf Ps PS}
    (hI : Impl K useSk els elf sk false c ls lf (.alt Ps) (.alt PS)) :
    ∀ {qs k P i i0 m S}, AltH env t K N useSk els elf (nn N sk) qs i → PS.drop k = qs →
      Ps[k]? = some P → nn N sk i0 = nn N sk i → nn N sk m = nn N sk i →
      Halts env t (.alt Ps) (.alt k (fresh P)) i0 (List.replicate (marks P) m ++ S) := by
  have hN : useSk = true → ∀ i, N (N i) = N i := fun h => (skOK hK h).choose_spec.idem
  have hI' := hI
  cases hI with
  | leaf h => cases h
  | alt hne hlen hch =>
    intro qs
    induction qs with
    | nil =>
      intro k P i i0 m S _ hd hP
      rw [List.drop_eq_nil_iff] at hd
      have := (List.getElem?_eq_some_iff.1 hP).1
      omega
    | cons q qs ih =>
      intro k P i i0 m S hs hd hP h0 hm
      obtain ⟨hq, hd'⟩ : PS[k]? = some q ∧ PS.drop (k + 1) = qs := by
        have hk : k < PS.length := by have := (List.getElem?_eq_some_iff.1 hP).1; omega
        rw [List.drop_eq_getElem_cons hk] at hd
        cases hd
        exact ⟨List.getElem?_eq_getElem hk, rfl⟩
      have hIp := hch k P q hP hq
      refine halts_of hK hE (.altAt hI' hP rfl (hm.trans h0.symm) rfl (.refl _ _)
        fun _ _ _ _ => trivial) (by simp [childOf, hP])
        (hs.1 rfl hIp h0 hm (by simp)) ?_
      intro r i1 S1 cs' st2 i2 S2 hb ha
      have ho := child_out hK hE hIp (hm.trans h0.symm) (by simp) hb
      rw [h0] at ho
      cases ho with
      | ok => simp [after] at ha
      | no a b d =>
        have d := d rfl
        rw [nn_idem hN (hIp.hasSk rfl)] at d
        simp only [after] at ha
        split at ha
        · rename_i P' hP'
          simp only [newChild, Option.some.injEq, Iter.cont.injEq] at ha
          obtain ⟨rfl, rfl, rfl⟩ := ha
          exact ih (hs.2 a) hd' hP' d d
        · cases ha

theorem rep_halts {sk ls lf mn mx P q}
    (hI : Impl K useSk els elf sk false false ls lf (.rep mn mx P) (.rep mn mx q)) {X : Nat → Prop}
    (hX : ∀ i, X i → FH env t K N useSk els elf (nn N sk) q i) {mx' i}
    (h : RepH env t (nn N sk) q X mx' i) :
    ∀ {n i0 m S}, mx' = mx - n → (mx = 0 ∨ n < mx) → nn N sk i0 = nn N sk i →
      nn N sk m = nn N sk i →
      Halts env t (.rep mn mx P) (.rep n (fresh P)) i0 (List.replicate (marks P) m ++ S) := by
  have hI' := hI
  cases hI with
  | leaf h => cases h
  | rep hch =>
    induction h with
    | stop hx hno =>
      intro n i0 m S hmx hn h0 hm
      refine halts_of hK hE (.repAt (x := i0) hI' hn (fun _ => rfl) rfl (hm.trans h0.symm) rfl (.refl _ _)
        fun _ _ _ _ => trivial) rfl (hX _ hx rfl hch h0 hm (by simp)) ?_
      intro r i1 S1 cs' st2 i2 S2 hb ha
      have ho := child_out hK hE hch (hm.trans h0.symm) (by simp) hb
      rw [h0] at ho
      cases ho with
      | ok a => exact absurd (a.unique hno) (by simp)
      | no => simp [after] at ha
    | last hx =>
      intro n i0 m S hmx hn h0 hm
      refine halts_of hK hE (.repAt (x := i0) hI' hn (fun _ => rfl) rfl (hm.trans h0.symm) rfl (.refl _ _)
        fun _ _ _ _ => trivial) rfl (hX _ hx rfl hch h0 hm (by simp)) ?_
      intro r i1 S1 cs' st2 i2 S2 hb ha
      cases r with
      | FAILURE => simp [after] at ha
      | SUCCESS => rw [after, if_pos (by omega)] at ha; cases ha
      | PARTIAL => simp [after] at ha
    | @more mx' i j hx hy hr ih =>
      intro n i0 m S hmx hn h0 hm
      refine halts_of hK hE (.repAt (x := i0) hI' hn (fun _ => rfl) rfl (hm.trans h0.symm) rfl (.refl _ _)
        fun _ _ _ _ => trivial) rfl (hX _ hx rfl hch h0 hm (by simp)) ?_
      intro r i1 S1 cs' st2 i2 S2 hb ha
      have ho := child_out hK hE hch (hm.trans h0.symm) (by simp) hb
      rw [h0] at ho
      cases ho with
      | no a => exact absurd (a.unique hy) (by simp)
      | ok a b d =>
        have := a.unique hy
        cases this
        simp only [after] at ha
        split at ha
        · cases ha
        · rename_i hne
          simp only [newChild, Option.some.injEq, Iter.cont.injEq] at ha
          obtain ⟨rfl, rfl, rfl⟩ := ha
          exact ih (by omega) (by omega) b b

theorem list_halts {sk c ls lf OP SEP op sep}
    (hI : Impl K useSk els elf sk false c ls lf (.list OP SEP) (.list op sep)) {X : Nat → Prop}
    (hX : ∀ i, X i → SeqH env t K N useSk els elf (nn N sk) [sep, op] i) {mx' i}
    (h : RepH env t (nn N sk) (.seq [sep, op]) X mx' i) :
    ∀ {i0 m jm S}, mx' = 0 → nn N sk i0 = nn N sk i → nn N sk m = nn N sk i →
      nn N sk jm = nn N sk i →
      Halts env t (.list OP SEP) (.list true (fresh SEP)) i0
        (List.replicate (marks SEP) m ++ jm :: S) := by
  have hN : useSk = true → ∀ i, N (N i) = N i := fun h => (skOK hK h).choose_spec.idem
  have hI' := hI
  cases hI with
  | leaf h => cases h
  | @list _ _ c' c'' _ _ _ _ _ _ hop hsep =>
    have hid : ∀ i, nn N sk (nn N sk i) = nn N sk i := nn_idem hN (hop.hasSk rfl)
    -- one round: separator, then item
    have round : ∀ {i : Nat} {i0 m jm : Nat} {S : List Nat},
        SeqH env t K N useSk els elf (nn N sk) [sep, op] (nn N sk i) →
        nn N sk i0 = nn N sk i → nn N sk m = nn N sk i → nn N sk jm = nn N sk i →
        (∀ j i1 S, PegN env t (nn N sk) (.seq [sep, op]) (nn N sk i) (some j) →
          nn N sk i1 = nn N sk j → Halts env t (.list OP SEP) (.list true (fresh SEP)) i1
            (List.replicate (marks SEP) i1 ++ i1 :: S)) →
        Halts env t (.list OP SEP) (.list true (fresh SEP)) i0
          (List.replicate (marks SEP) m ++ jm :: S) := by
      intro i i0 m jm S hs h0 hm hjm hnext
      obtain ⟨hs1, hs2⟩ := hs
      rw [hid] at hs1 hs2
      refine halts_of hK hE (.listSep (x := i0) hI' (j := i) rfl (hm.trans h0.symm) (.refl _ _) h0 hjm
        fun _ _ _ _ => trivial) rfl (hs1 rfl hsep h0 hm (by simp)) ?_
      intro r i1 S1 cs' st2 i2 S2 hb ha
      have ho := child_out hK hE hsep (hm.trans h0.symm) (by simp) hb
      rw [h0] at ho
      cases ho with
      | no => cases S1 <;> cases ha
      | @ok j1 _ _ a b d =>
        obtain ⟨y, S2, rfl, hp, hy⟩ := d.pop (hjm.trans h0.symm)
        have hjm := (hy (Stale.meet_start_ne _)).trans h0
        simp only [after, newChild, Option.some.injEq, Iter.cont.injEq] at ha
        obtain ⟨rfl, rfl, rfl⟩ := ha
        refine halts_of hK hE (.listOp (x := i0) hI' (j := i) rfl rfl (.refl _ _) a b hjm
          fun _ _ _ _ => trivial) rfl ((hs2 j1 a).1 rfl hop b b (by simp)) ?_
        intro r i3 S3 cs' st4 i4 S4 hb3 ha3
        have ho := child_out hK hE hop rfl (by simp) hb3
        cases ho with
        | no => cases S3 <;> cases ha3
        | @ok j2 _ _ a2 b2 d2 =>
          cases S3 with
          | nil => cases ha3
          | cons x S3 =>
            simp only [after, newChild, Option.some.injEq, Iter.cont.injEq] at ha3
            obtain ⟨rfl, rfl, rfl⟩ := ha3
            refine hnext j2 _ _ (.seq (by rw [hid]; exact a) (.seq ?_ .seqNil)) b2
            rw [b] at a2; exact a2
    induction h with
    | stop hx hno =>
      intro i0 m jm S _ h0 hm hjm
      exact round (hX _ hx) h0 hm hjm fun j _ _ hy => absurd (hy.unique hno) (by simp)
    | last => intro _ _ _ _ h; cases h
    | @more mx' i j hx hy hr ih =>
      intro i0 m jm S hmx h0 hm hjm
      refine round (hX _ hx) h0 hm hjm fun j' i1 S hy' hi1 => ?_
      have := hy'.unique hy
      cases this
      exact ih (by omega) hi1 hi1 hi1

theorem leaf_core {N' p i} (hl : ∀ {sk c ls lf P}, Impl K useSk els elf sk false c ls lf P p →
    isWrap P = false → LeafOK c P p) : CoreH env t K N useSk els elf N' p i := by
  intro sk c ls lf P m S hn hI hw hi hm
  have h := hl hI hw
  obtain ⟨n, r, st', i', hr, _⟩ := leaf_ok (env := env) (t := t) (N := N) (sk := sk) (ls := ls)
    (lf := lf) (x := i) h i (List.replicate (marks P) m ++ S)
  exact ⟨_, _, _, .leaf (by cases h <;> rfl) hr⟩

theorem wrap_core {sk full c ls lf P Q p q i m S} (hI : Impl K useSk els elf sk full c ls lf P p)
    (hI' : Impl K useSk els elf sk false c ls lf Q q)
    (hi : nn N sk i = i) (hm : nn N sk m = i) (hmk : marks Q = marks P)
    (hc : childOf Q (fresh Q) = some (P, fresh P))
    (hnext : ∀ r i1 S1 cs' st2 i2 S2, after Q (fresh Q) r cs' i1 S1 ≠ some (.cont st2 i2 S2))
    (h : FH env t K N useSk els elf (nn N sk) p (nn N sk i)) :
    Halts env t Q (fresh Q) i (List.replicate (marks Q) m ++ S) := by
  refine halts_wrap hK hE (.fresh hI' rfl rfl (hm.trans hi.symm) (fun _ => hi)
    fun _ _ _ _ => trivial) hc ?_ hnext
  rw [hi] at h
  rw [hmk]
  exact h rfl hI hi hm fun _ => rfl

theorem seq_fh {N' qs i} (h : SeqH env t K N useSk els elf N' qs i) :
    TH env t K N useSk els elf N' (.seq qs) i := by
  refine ⟨fh_of_core hK hE ?_, fun _ e => by cases e; exact h, fun _ e => (by cases e),
    fun _ _ _ e => by cases e⟩
  intro sk c ls lf P m S hn hI hw hi hm
  subst hn
  have hI' := hI
  cases hI with
  | leaf h => cases h
  | clean => cases hw
  | atomic => cases hw
  | @seq _ _ _ slots Ps _ hne hlen hsl hch =>
    cases Ps with
    | nil => exact absurd rfl hne
    | cons P Ps => exact seq_halts hK hE hI' h rfl rfl rfl (hm.trans hi.symm)

theorem alt_fh {N' qs i} (h : AltH env t K N useSk els elf N' qs i) :
    TH env t K N useSk els elf N' (.alt qs) i := by
  refine ⟨fh_of_core hK hE ?_, fun _ e => (by cases e), fun _ e => (by cases e; exact h),
    fun _ _ _ e => by cases e⟩
  intro sk c ls lf P m S hn hI hw hi hm
  subst hn
  have hI' := hI
  cases hI with
  | leaf h => cases h
  | clean => cases hw
  | atomic => cases hw
  | @alt _ _ _ _ Ps _ hne hlen hch =>
    cases Ps with
    | nil => exact absurd rfl hne
    | cons P Ps => exact alt_halts hK hE hI' h rfl rfl rfl (hm.trans hi.symm)

theorem rep_fh {N' mn mx q i}
    (h : RepH env t N' q (ItemH env t K N useSk els elf N' q) mx i) :
    TH env t K N useSk els elf N' (.rep mn mx q) i := by
  refine ⟨fh_of_core hK hE ?_, fun _ e => (by cases e), fun _ e => (by cases e),
    fun _ _ _ e => (by cases e; exact h)⟩
  intro sk c ls lf P m S hn hI hw hi hm
  subst hn
  have hI' := hI
  cases hI with
  | leaf h => cases h
  | clean => cases hw
  | atomic => cases hw
  | rep hch => exact rep_halts hK hE hI' (fun i hx => hx.1) h rfl (by omega) rfl (hm.trans hi.symm)

theorem fh_only {N' p i} (h : CoreH env t K N useSk els elf N' p i)
    (h1 : ∀ qs, p ≠ .seq qs) (h2 : ∀ qs, p ≠ .alt qs) (h3 : ∀ mn mx q, p ≠ .rep mn mx q) :
    TH env t K N useSk els elf N' p i :=
  ⟨fh_of_core hK hE h, fun _ e => absurd e (h1 _), fun _ e => absurd e (h2 _),
    fun _ _ _ e => absurd e (h3 _ _ _)⟩

omit hK hE in
theorem TH.item {N' p i} (h : TH env t K N useSk els elf N' p i) :
    ItemH env t K N useSk els elf N' p i := ⟨h.fh, h.seq⟩

theorem opt_fh {N' p i} (h : FH env t K N useSk els elf N' p (N' i)) :
    TH env t K N useSk els elf N' (.opt p) i := by
  refine fh_only hK hE ?_ (by simp) (by simp) (by simp)
  intro sk c ls lf P m S hn hI hw hi hm
  subst hn
  have hI' := hI
  cases hI with
  | leaf h => cases h
  | clean => cases hw
  | atomic => cases hw
  | @opt _ _ c' _ _ P _ hst hch =>
    refine halts_wrap hK hE (.fresh hI' rfl rfl (hm.trans hi.symm) (fun _ => hi)
      fun _ _ _ _ => trivial) rfl ?_ ?_
    · rw [marks, rep_succ]
      exact h rfl hch rfl (hm.trans hi.symm) (by simp)
    · intro r _ S1 _ _ _ _ h; cases r <;> cases S1 <;> cases h

theorem not_fh {N' p i} (h : FH env t K N useSk els elf N' p (N' i)) :
    TH env t K N useSk els elf N' (.not p) i := by
  refine fh_only hK hE ?_ (by simp) (by simp) (by simp)
  intro sk c ls lf P m S hn hI hw hi hm
  subst hn
  have hI' := hI
  cases hI with
  | leaf h => cases h
  | clean => cases hw
  | atomic => cases hw
  | @not _ _ c' _ _ P _ hch =>
    refine halts_wrap hK hE (.fresh hI' rfl rfl (hm.trans hi.symm) (fun _ => hi)
      fun _ _ _ _ => trivial) rfl ?_ ?_
    · rw [marks, rep_succ]
      exact h rfl hch rfl (hm.trans hi.symm) (by simp)
    · intro r _ S1 _ _ _ _ h; cases r <;> cases S1 <;> cases h

theorem except_fh {N' op neg i} (h : FH env t K N useSk els elf N' neg (N' i))
    (h2 : PegN env t N' neg (N' i) none → FH env t K N useSk els elf N' op (N' i)) :
    TH env t K N useSk els elf N' (.except op neg) i := by
  refine fh_only hK hE ?_ (by simp) (by simp) (by simp)
  intro sk c ls lf P m S hn hI hw hi hm
  subst hn
  have hI' := hI
  cases hI with
  | leaf h => cases h
  | clean => cases hw
  | atomic => cases hw
  | @except _ _ _ OP NEG _ _ hop hneg =>
    refine halts_of hK hE (.fresh hI' rfl rfl (hm.trans hi.symm) (fun _ => hi)
      fun _ _ _ _ => trivial) rfl (h rfl hneg rfl (hm.trans hi.symm) (by simp)) ?_
    intro r i1 S1 cs' st2 i2 S2 hb ha
    have ho := child_out hK hE hneg (hm.trans hi.symm) (by simp) hb
    cases ho with
    | ok => cases ha
    | no a b d =>
      have d := d rfl
      rw [hi] at d
      simp only [after, fresh, newChild, Option.some.injEq, Iter.cont.injEq] at ha
      obtain ⟨rfl, rfl, rfl⟩ := ha
      refine halts_wrap hK hE (.exceptOp hI' rfl rfl (.refl _ _) fun _ _ _ _ => trivial) rfl
        (h2 a rfl hop d d (by simp)) ?_
      intro r _ S1 _ _ _ _ h; cases r <;> cases h

theorem list_fh {N' op sep i} (h : FH env t K N useSk els elf N' op (N' i))
    (h2 : ∀ j, PegN env t N' op (N' i) (some j) → RepH env t N' (.seq [sep, op])
      (ItemH env t K N useSk els elf N' (.seq [sep, op])) 0 j) :
    TH env t K N useSk els elf N' (.list op sep) i := by
  refine fh_only hK hE ?_ (by simp) (by simp) (by simp)
  intro sk c ls lf P m S hn hI hw hi hm
  subst hn
  have hI' := hI
  cases hI with
  | leaf h => cases h
  | clean => cases hw
  | atomic => cases hw
  | @list _ _ _ _ _ _ OP SEP _ _ hop hsep =>
    refine halts_of hK hE (.fresh hI' rfl rfl (hm.trans hi.symm) (fun _ => hi)
      fun _ _ _ _ => trivial) rfl ?_ ?_
    · rw [marks, rep_succ]
      exact h rfl hop rfl (hm.trans hi.symm) (by simp)
    intro r i1 S1 cs' st2 i2 S2 hb ha
    rw [marks, rep_succ] at hb
    have ho := child_out hK hE hop (hm.trans hi.symm) (by simp) hb
    cases ho with
    | no a b d => cases S1 <;> cases ha
    | @ok j _ _ a b d =>
      cases S1 with
      | nil => cases ha
      | cons x S1 =>
        simp only [after, fresh, newChild, Option.some.injEq, Iter.cont.injEq] at ha
        obtain ⟨rfl, rfl, rfl⟩ := ha
        exact list_halts hK hE hI' (fun _ hx => hx.2 _ rfl) (h2 j a) rfl b b b

theorem lexeme_fh {N' p i} (h : FH env t K N useSk els elf id p i) :
    TH env t K N useSk els elf N' (.lexeme p) i := by
  refine fh_only hK hE ?_ (by simp) (by simp) (by simp)
  intro sk c ls lf P m S hn hI hw hi hm
  subst hn
  have hI' := hI
  cases hI with
  | leaf h => cases h
  | clean => cases hw
  | atomic => cases hw
  | @lexeme _ _ _ _ P _ hch hmk =>
    refine halts_wrap hK hE (.fresh hI' rfl rfl (hm.trans hi.symm) (fun _ => hi)
      fun _ _ _ _ => trivial) rfl (cp := P) (cs := fresh P) ?_ ?_
    · rw [marks]
      cases sk with
      | true =>
        have := h (S := S) (m := i) (sk := false) rfl hch rfl rfl fun _ => rfl
        rw [hmk rfl] at this ⊢; exact this
      | false =>
        have hm : m = i := hm
        exact h (sk := false) rfl hch rfl hm fun _ => rfl
    · intro r _ S1 _ _ _ _ h; cases r <;> cases h
  | @lexemeClean _ _ c' _ _ P _ hch hmk =>
    refine halts_wrap hK hE (.fresh hI' rfl rfl (hm.trans hi.symm) (fun _ => hi)
      fun _ _ _ _ => trivial) rfl (cp := .clean P) (cs := .wrap (fresh P)) ?_ ?_
    · have e : List.replicate (marks (.lexeme (.clean P))) m ++ S = m :: S := by
        rw [marks, marks, hmk]; rfl
      rw [e]
      refine halts_wrap hK hE (.cleanAt (sk := sk) hch hmk rfl (hm.trans hi.symm)
        (fun _ _ _ _ => trivial) fun _ _ _ _ _ => trivial) rfl
        (cp := P) (cs := fresh P) ?_ ?_
      · have := h (S := m :: S) (m := i) (sk := false) rfl hch rfl rfl fun _ => rfl
        rw [hmk] at this; exact this
      · intro r _ S1 _ _ _ _ h; cases r <;> cases S1 <;> cases h
    · intro r _ S1 _ _ _ _ h; cases r <;> cases h

theorem recur_fh {N' id n q i} (hq : env id = some q)
    (h : FH env t K N useSk els elf N' q (N' i)) :
    TH env t K N useSk els elf N' (.recur id n) i := by
  refine fh_only hK hE ?_ (by simp) (by simp) (by simp)
  intro sk c ls lf P m S hn hI hw hi hm
  subst hn
  have hI' := hI
  cases hI with
  | leaf h => cases h
  | clean => cases hw
  | atomic => cases hw
  | recur h1 h2 h3 =>
    rw [hi] at h
    obtain ⟨r, i', S', hb⟩ := h (i0 := i) (m := i) (S := S) rfl (hE sk h1 id q hq) hi hi fun _ => rfl
    exact ⟨r, i', S', .recurNone hq hb⟩

theorem pass_fh {N' p i} (h : FH env t K N useSk els elf N' p (N' i)) :
    TH env t K N useSk els elf N' (.discard p) i ∧ TH env t K N useSk els elf N' (.bindDst p) i ∧
    (∀ tys, TH env t K N useSk els elf N' (.construct tys p) i) ∧
    (∀ a, TH env t K N useSk els elf N' (.action a p) i) := by
  refine ⟨?_, ?_, fun tys => ?_, fun a => ?_⟩
  all_goals
    refine fh_only hK hE ?_ (by simp) (by simp) (by simp)
    intro sk c ls lf P m S hn hI hw hi hm
    subst hn
    have hI' := hI
    cases hI with
    | leaf h => cases h
    | clean => cases hw
    | atomic => cases hw
    | _ hch =>
      refine wrap_core hK hE hch hI' hi hm rfl rfl ?_ h
      intro r _ S1 _ _ _ _ h; cases r <;> cases h

/-- Whenever the grammar semantics has an outcome, the machine returns. -/
theorem complete {N' p i o} (h : PegN env t N' p i o) : TH env t K N useSk els elf N' p i := by
  induction h with
  | char | charNo | strLit | strLitNo | symbol | symbolNo | uint | uintNo | int | intNo | eoi
  | eoiNo | pass | fail | charSymbol | charSymbolNo =>
    refine fh_only hK hE (leaf_core hK hE ?_) (by simp) (by simp) (by simp)
    intro sk c ls lf P hI hw
    cases hI with
    | leaf h => exact h
    | _ => cases hw
  | seqNil => exact seq_fh hK hE trivial
  | seqNo h ih => exact seq_fh hK hE ⟨ih.fh, fun j hj => absurd (hj.unique h) (by simp)⟩
  | seq h1 h2 ih1 ih2 =>
    exact seq_fh hK hE ⟨ih1.fh, fun j hj => by
      have := hj.unique h1
      cases this
      exact ih2.seq _ rfl⟩
  | altNil => exact alt_fh hK hE trivial
  | alt h ih => exact alt_fh hK hE ⟨ih.fh, fun hj => absurd (hj.unique h) (by simp)⟩
  | altNo h1 h2 ih1 ih2 => exact alt_fh hK hE ⟨ih1.fh, fun _ => ih2.alt _ rfl⟩
  | repStop h ih => exact rep_fh hK hE (.stop ih.item h)
  | repFew _ h ih => exact rep_fh hK hE (.stop ih.item h)
  | repLast h ih => exact rep_fh hK hE (.last ih.item)
  | repMore _ h1 h2 ih1 ih2 => exact rep_fh hK hE (.more ih1.item h1 (ih2.rep _ _ _ rfl))
  | opt h ih => exact opt_fh hK hE ih.fh
  | optNo h ih => exact opt_fh hK hE ih.fh
  | not h ih => exact not_fh hK hE ih.fh
  | notNo h ih => exact not_fh hK hE ih.fh
  | discard h ih => exact (pass_fh hK hE ih.fh).1
  | bindDst h ih => exact (pass_fh hK hE ih.fh).2.1
  | construct h ih => exact (pass_fh hK hE ih.fh).2.2.1 _
  | action h ih => exact (pass_fh hK hE ih.fh).2.2.2 _
  | lexeme h ih => exact lexeme_fh hK hE ih.fh
  | except h1 h2 ih1 ih2 => exact except_fh hK hE ih1.fh fun _ => ih2.fh
  | exceptNo h ih => exact except_fh hK hE ih.fh fun h' => absurd (h'.unique h) (by simp)
  | listNil h ih => exact list_fh hK hE ih.fh fun j hj => absurd (hj.unique h) (by simp)
  | list h1 h2 ih1 ih2 =>
    exact list_fh hK hE ih1.fh fun j hj => by
      have := hj.unique h1
      cases this
      exact ih2.rep _ _ _ rfl
  | recur hq h ih => exact recur_fh hK hE hq ih.fh

end
end Abu
