import Verif.Proofs.MarkedLeaf
import Verif.Proofs.Tidy
/-
The parsers do what the specification with saved positions says, and nothing else.
-/
namespace Abu

/-- The skip parser of a skipper. -/
def skipProg : Option Pat → Prog
  | none => .fail
  | some s => elabP .fail SkipReqs s

/-- `Cf P st T`: the parser object `P` in state `st` is about to perform task `T`. -/
inductive Cf : Prog → PState → Task → Prop
  /-- the result of the current child is returned as it is -/
  | thru {P st cp cs T} : childOf P st = some (cp, cs) → Cf cp cs T →
      (∀ b cs' i S, after P st (res b) cs' i S = some (.ret (res b) i S)) → Cf P st T
  | bare {P st f k c p} : f = false ∨ k = none ∨ k = some .fail → Cf P st (.raw f k c p) →
      Cf P st (.one f k c p)
  | skip {K P s c p} : Cf K (fresh K) (.one true none true s) → marks K = s.saves 0 true true →
      Cf P (fresh P) (.raw true (some s) c p) →
      Cf (.skip K P) (.skip false (fresh K) (fresh P)) (.one true (some s) c p)
  | clean {P st f k p} : p.guarded = true → Cf P st (.raw f k false p) →
      Cf (.clean P) (.wrap st) (.raw f k true p)
  | leaf {P p f k c} : LeafOf P p → (c = true → p.guarded = false) →
      Cf P (fresh P) (.raw f k c p)
  | seq0 {P st f k ps} : Cf P st (.seq k ps) → Cf P st (.raw f k false (.seq ps))
  | seq {slots} {Ps : List Prog} {ps : List Pat} {k n Pn} : Ps.length = ps.length → slots.length = Ps.length →
      (∀ (m : Nat) (P : Prog) (p : Pat), Ps[m]? = some P → ps[m]? = some p → Cf P (fresh P) (.one true k false p)) →
      (∀ (m : Nat) (P : Prog) (p : Pat), Ps[m]? = some P → ps[m]? = some p → marks P = p.saves (skipSaves k) true false) →
      Ps[n]? = some Pn →
      Cf (.seq slots Ps) (.seq n (fresh Pn)) (.seq k (ps.drop n))
  | alt0 {P st f k c ps} : Cf P st (.alt k ps) → Cf P st (.raw f k c (.alt ps))
  | alt {Ps : List Prog} {ps : List Pat} {k n Pn} : Ps.length = ps.length →
      (∀ (m : Nat) (P : Prog) (p : Pat), Ps[m]? = some P → ps[m]? = some p → Cf P (fresh P) (.one true k true p)) →
      (∀ (m : Nat) (P : Prog) (p : Pat), Ps[m]? = some P → ps[m]? = some p → marks P = p.saves (skipSaves k) true true) →
      Ps[n]? = some Pn →
      Cf (.alt Ps) (.alt n (fresh Pn)) (.alt k (ps.drop n))
  | rep0 {P st f k mn mx p} : Cf P st (.rep k mn mx 0 p) → Cf P st (.raw f k false (.rep mn mx p))
  | rep {P p k mn mx n} : Cf P (fresh P) (.one true k (itemClean mn mx) p) →
      marks P = p.saves (skipSaves k) true (itemClean mn mx) →
      Cf (.rep mn mx P) (.rep n (fresh P)) (.rep k mn mx n p)
  | opt {P p f k c} : Cf P (fresh P) (.one true k false p) →
      Cf (.opt P) (.wrap (fresh P)) (.raw f k c (.opt p))
  | not {P p f k c} : Cf P (fresh P) (.one true k false p) →
      Cf (.not P) (.wrap (fresh P)) (.raw f k c (.not p))
  | discard {P st f k c p} : Cf P st (.one f k c p) → Cf P st (.raw f k c (.discard p))
  | lexeme {P st f k c p} : Cf P st (.one f none c p) → Cf P st (.raw f k c (.lexeme p))
  | bindDst {P st f k c p} : Cf P st (.one true k c p) → Cf P st (.raw f k c (.bindDst p))
  | construct {P st f k c tys p} : Cf P st (.one true k c p) →
      Cf P st (.raw f k c (.construct tys p))
  | action {P st f k c a p} : Cf P st (.one true k c p) → Cf P st (.raw f k c (.action a p))
  | except {OP NEG op neg f k} : Cf OP (fresh OP) (.one true k false op) →
      Cf NEG (fresh NEG) (.one true k true neg) → marks OP = op.saves (skipSaves k) true false →
      Cf (.except OP NEG) (.except false (fresh NEG)) (.raw f k false (.except op neg))
  | list0 {P st f k c op sep} : Cf P st (.item k op sep) → Cf P st (.raw f k c (.list op sep))
  | item {OP SEP op sep k} : Cf OP (fresh OP) (.one true k false op) →
      Cf SEP (fresh SEP) (.one true k false sep) → marks OP = op.saves (skipSaves k) true false →
      marks SEP = sep.saves (skipSaves k) true false →
      Cf (.list OP SEP) (.list false (fresh OP)) (.item k op sep)
  | sep {OP SEP op sep k} : Cf OP (fresh OP) (.one true k false op) →
      Cf SEP (fresh SEP) (.one true k false sep) → marks OP = op.saves (skipSaves k) true false →
      marks SEP = sep.saves (skipSaves k) true false →
      Cf (.list OP SEP) (.list true (fresh SEP)) (.sep k op sep)
  | withSkipper {P st f k c p s} : (c = true → p.guarded = false) → Cf P st (.one f (some s) c p) →
      Cf P st (.raw f k c (.withSkipper p s))
  | recur {id n f k} : (∀ s, k = some s → s.filled = true) →
      Cf (.recur id (skipProg k)) .recurNone (.raw f k false (.recur id n))

section
variable {env : Env} {t : List Ch}

/-- An execution ends with an outcome of the task. -/
def MarkedEnd (env : Env) (t : List Ch) (T : Task) (i : Nat) (S : List Nat) (r : Res) (j : Nat)
    (S' : List Nat) : Prop :=
  ∃ b, r = res b ∧ Marked env t T i S b j S'

theorem MarkedEnd.map {T T' i S r j S'} (h : MarkedEnd env t T i S r j S')
    (hm : ∀ b, Marked env t T i S b j S' → Marked env t T' i S b j S') :
    MarkedEnd env t T' i S r j S' := by
  obtain ⟨b, h1, h2⟩ := h
  exact ⟨b, h1, hm b h2⟩

/-- A skipper that never matches anything is as good as none. -/
theorem Marked.of_raw {f k c p i S b j S'} (h : f = false ∨ k = none ∨ k = some .fail)
    (hm : Marked env t (.raw f k c p) i S b j S') : Marked env t (.one f k c p) i S b j S' := by
  rcases h with h | h | h
  · exact .plain (.inl h) hm
  · exact .plain (.inr h) hm
  · subst h
    cases f with
    | false => exact .plain (.inl rfl) hm
    | true => exact .skipEnd (.plain (.inr rfl) (.leaf (fun _ => rfl) .fail)) hm

/-- One iteration, then the rest. -/
theorem marked_step {P st T cp cs i S r1 cs' i1 S1 r j S'} (hcf : Cf P st T)
    (hc : childOf P st = some (cp, cs))
    (ih : ∀ T, Cf cp cs T → MarkedEnd env t T i S r1 i1 S1) :
    (after P st r1 cs' i1 S1 = some (.ret r j S') → MarkedEnd env t T i S r j S') ∧
    (∀ st2 i2 S2, after P st r1 cs' i1 S1 = some (.cont st2 i2 S2) →
      (∀ T, Cf P st2 T → MarkedEnd env t T i2 S2 r j S') → MarkedEnd env t T i S r j S') := by
  induction hcf with
  | thru hc' h ha =>
    rw [hc'] at hc; cases hc
    obtain ⟨b, rfl, hm⟩ := ih _ h
    rw [ha]
    exact ⟨fun h => by cases h; exact ⟨b, rfl, hm⟩, fun _ _ _ h => by cases h⟩
  | bare h _ ih' =>
    obtain ⟨h1, h2⟩ := ih' hc
    exact ⟨fun ha => (h1 ha).map fun _ => .of_raw h,
      fun _ _ _ ha hi => (h2 _ _ _ ha hi).map fun _ => .of_raw h⟩
  | @skip K P s c p hK hmk hP _ _ =>
    cases hc
    obtain ⟨b, rfl, hm⟩ := ih _ hK
    cases b with
    | true =>
      simp only [res, after, newChild]
      refine ⟨fun h => (by cases h), fun _ _ _ h hi => ?_⟩
      cases h
      obtain ⟨b, rfl, hm'⟩ := hi _ (.skip hK hmk hP)
      rw [hmk] at hm'
      exact ⟨b, rfl, .skipped hm hm'⟩
    | false =>
      simp only [res, after]
      refine ⟨fun h => (by cases h), fun _ _ _ h hi => ?_⟩
      cases h
      obtain ⟨b, rfl, hm'⟩ := hi _ (.thru (cp := P) (cs := fresh P) rfl hP
        (fun b cs' i S => by cases b <;> rfl))
      exact ⟨b, rfl, .skipEnd hm hm'⟩
  | clean hg h _ =>
    cases hc
    obtain ⟨b, rfl, hm⟩ := ih _ h
    cases b with
    | true =>
      simp only [res, after]
      cases S1 with
      | nil => exact ⟨fun h => (by cases h), fun _ _ _ h => by cases h⟩
      | cons x S1 =>
        exact ⟨fun h => by cases h; exact ⟨true, rfl, .kept hg hm⟩, fun _ _ _ h => by cases h⟩
    | false =>
      simp only [res, after]
      cases S1 with
      | nil => exact ⟨fun h => (by cases h), fun _ _ _ h => by cases h⟩
      | cons x S1 =>
        exact ⟨fun h => by cases h; exact ⟨false, rfl, .undone hg hm⟩, fun _ _ _ h => by cases h⟩
  | leaf h _ => cases h <;> cases hc
  | seq0 _ ih' =>
    obtain ⟨h1, h2⟩ := ih' hc
    exact ⟨fun ha => (h1 ha).map fun _ => .seq,
      fun _ _ _ ha hi => (h2 _ _ _ ha hi).map fun _ => .seq⟩
  | @seq slots Ps ps k n Pn hl hsl hk hmk hn _ =>
    simp only [childOf, hn, Option.map_some, Option.some.injEq, Prod.mk.injEq] at hc
    obtain ⟨rfl, rfl⟩ := hc
    have hlt : n < ps.length := by
      rw [← hl]; exact (List.getElem?_eq_some_iff.1 hn).1
    have hpn := List.getElem?_eq_getElem hlt
    obtain ⟨b, rfl, hm⟩ := ih _ (hk n _ _ hn hpn)
    rw [List.drop_eq_getElem_cons hlt]
    cases b with
    | false =>
      simp only [res, after]
      exact ⟨fun h => by cases h; exact ⟨false, rfl, .seqNo hm⟩, fun _ _ _ h => by cases h⟩
    | true =>
      simp only [res, after]
      cases hq : Ps[n + 1]? with
      | none =>
        have : ps.length ≤ n + 1 := by rw [← hl]; exact List.getElem?_eq_none_iff.1 hq
        rw [List.drop_eq_nil_of_le this]
        exact ⟨fun h => by cases h; exact ⟨true, rfl, .seqCons hm .seqNil⟩, fun _ _ _ h => by cases h⟩
      | some Q =>
        have hlt2 : n + 1 < ps.length := by
          rw [← hl]; exact (List.getElem?_eq_some_iff.1 hq).1
        have hsl2 : slots[n + 1]? = some slots[n + 1] := List.getElem?_eq_getElem (by omega)
        simp only [hsl2, newChild]
        refine ⟨fun h => (by cases h), fun _ _ _ h hi => ?_⟩
        cases h
        obtain ⟨b, rfl, hm'⟩ := hi _ (.seq hl hsl hk hmk hq)
        refine ⟨b, rfl, .seqCons hm ?_⟩
        rw [hmk _ _ _ hq (List.getElem?_eq_getElem hlt2)] at hm'
        have e : ∀ (l : List Pat), l = ps.drop (n + 1) →
            begunHead k false l i1 S1 = begun k true false ps[n + 1] i1 S1 := by
          intro l hl; rw [List.drop_eq_getElem_cons hlt2] at hl; subst hl; rfl
        rw [e _ rfl]
        exact hm'
  | alt0 _ ih' =>
    obtain ⟨h1, h2⟩ := ih' hc
    exact ⟨fun ha => (h1 ha).map fun _ => .alt,
      fun _ _ _ ha hi => (h2 _ _ _ ha hi).map fun _ => .alt⟩
  | @alt Ps ps k n Pn hl hk hmk hn _ =>
    simp only [childOf, hn, Option.map_some, Option.some.injEq, Prod.mk.injEq] at hc
    obtain ⟨rfl, rfl⟩ := hc
    have hlt : n < ps.length := by
      rw [← hl]; exact (List.getElem?_eq_some_iff.1 hn).1
    have hpn := List.getElem?_eq_getElem hlt
    obtain ⟨b, rfl, hm⟩ := ih _ (hk n _ _ hn hpn)
    rw [List.drop_eq_getElem_cons hlt]
    cases b with
    | true =>
      simp only [res, after]
      exact ⟨fun h => by cases h; exact ⟨true, rfl, .altOk hm⟩, fun _ _ _ h => by cases h⟩
    | false =>
      simp only [res, after]
      cases hq : Ps[n + 1]? with
      | none =>
        have : ps.length ≤ n + 1 := by rw [← hl]; exact List.getElem?_eq_none_iff.1 hq
        rw [List.drop_eq_nil_of_le this]
        exact ⟨fun h => by cases h; exact ⟨false, rfl, .altCons hm .altNil⟩, fun _ _ _ h => by cases h⟩
      | some Q =>
        have hlt2 : n + 1 < ps.length := by
          rw [← hl]; exact (List.getElem?_eq_some_iff.1 hq).1
        simp only [newChild]
        refine ⟨fun h => (by cases h), fun _ _ _ h hi => ?_⟩
        cases h
        obtain ⟨b, rfl, hm'⟩ := hi _ (.alt hl hk hmk hq)
        refine ⟨b, rfl, .altCons hm ?_⟩
        rw [hmk _ _ _ hq (List.getElem?_eq_getElem hlt2)] at hm'
        have e : ∀ (l : List Pat), l = ps.drop (n + 1) →
            begunHead k true l i1 S1 = begun k true true ps[n + 1] i1 S1 := by
          intro l hl; rw [List.drop_eq_getElem_cons hlt2] at hl; subst hl; rfl
        rw [e _ rfl]
        exact hm'
  | rep0 _ ih' =>
    obtain ⟨h1, h2⟩ := ih' hc
    exact ⟨fun ha => (h1 ha).map fun _ => .rep,
      fun _ _ _ ha hi => (h2 _ _ _ ha hi).map fun _ => .rep⟩
  | @rep P p k mn mx n hP hmk _ =>
    cases hc
    obtain ⟨b, rfl, hm⟩ := ih _ hP
    cases b with
    | false =>
      simp only [res, after]
      refine ⟨fun h => ?_, fun _ _ _ h => by cases h⟩
      cases h
      refine ⟨_, ?_, .repStop hm⟩
      simp only [enough]
      by_cases h : mn ≤ n <;> simp [h, res]
    | true =>
      simp only [res, after]
      split
      · rename_i h
        exact ⟨fun ha => by cases ha; exact ⟨true, rfl, .repLast hm h.2⟩, fun _ _ _ h => by cases h⟩
      · rename_i h
        simp only [newChild]
        refine ⟨fun h => (by cases h), fun _ _ _ h hi => ?_⟩
        cases h
        obtain ⟨b, rfl, hm'⟩ := hi _ (.rep hP hmk)
        rw [hmk] at hm'
        exact ⟨b, rfl, .repMore hm (by omega) hm'⟩
  | opt hP _ =>
    cases hc
    obtain ⟨b, rfl, hm⟩ := ih _ hP
    cases b with
    | true =>
      exact ⟨fun h => by cases h; exact ⟨true, rfl, .opt hm⟩, fun _ _ _ h => by cases h⟩
    | false =>
      simp only [res, after]
      cases S1 with
      | nil => exact ⟨fun h => (by cases h), fun _ _ _ h => by cases h⟩
      | cons x S1 =>
        exact ⟨fun h => by cases h; exact ⟨true, rfl, .optNo hm⟩, fun _ _ _ h => by cases h⟩
  | not hP _ =>
    cases hc
    obtain ⟨b, rfl, hm⟩ := ih _ hP
    cases S1 with
    | nil => cases b <;> exact ⟨fun h => (by cases h), fun _ _ _ h => by cases h⟩
    | cons x S1 =>
      cases b
      · exact ⟨fun h => by cases h; exact ⟨_, rfl, .not hm⟩, fun _ _ _ h => by cases h⟩
      · exact ⟨fun h => by cases h; exact ⟨_, rfl, .not hm⟩, fun _ _ _ h => by cases h⟩
  | discard _ ih' =>
    obtain ⟨h1, h2⟩ := ih' hc
    exact ⟨fun ha => (h1 ha).map fun _ => .discard,
      fun _ _ _ ha hi => (h2 _ _ _ ha hi).map fun _ => .discard⟩
  | lexeme _ ih' =>
    obtain ⟨h1, h2⟩ := ih' hc
    exact ⟨fun ha => (h1 ha).map fun _ => .lexeme,
      fun _ _ _ ha hi => (h2 _ _ _ ha hi).map fun _ => .lexeme⟩
  | bindDst _ ih' =>
    obtain ⟨h1, h2⟩ := ih' hc
    exact ⟨fun ha => (h1 ha).map fun _ => .bindDst,
      fun _ _ _ ha hi => (h2 _ _ _ ha hi).map fun _ => .bindDst⟩
  | construct _ ih' =>
    obtain ⟨h1, h2⟩ := ih' hc
    exact ⟨fun ha => (h1 ha).map fun _ => .construct,
      fun _ _ _ ha hi => (h2 _ _ _ ha hi).map fun _ => .construct⟩
  | action _ ih' =>
    obtain ⟨h1, h2⟩ := ih' hc
    exact ⟨fun ha => (h1 ha).map fun _ => .action,
      fun _ _ _ ha hi => (h2 _ _ _ ha hi).map fun _ => .action⟩
  | @except OP NEG op neg f k hop hneg hmk _ _ =>
    cases hc
    obtain ⟨b, rfl, hm⟩ := ih _ hneg
    cases b with
    | true =>
      exact ⟨fun h => by cases h; exact ⟨false, rfl, .exceptNo hm⟩, fun _ _ _ h => by cases h⟩
    | false =>
      simp only [res, after, newChild]
      refine ⟨fun h => (by cases h), fun _ _ _ h hi => ?_⟩
      cases h
      obtain ⟨b, rfl, hm'⟩ := hi _ (.thru (cp := OP) (cs := fresh OP) rfl hop
        (fun b cs' i S => by cases b <;> rfl))
      rw [hmk] at hm'
      exact ⟨b, rfl, .except hm hm'⟩
  | list0 _ ih' =>
    obtain ⟨h1, h2⟩ := ih' hc
    exact ⟨fun ha => (h1 ha).map fun _ => .list,
      fun _ _ _ ha hi => (h2 _ _ _ ha hi).map fun _ => .list⟩
  | item hop hsep hmo hms _ _ =>
    cases hc
    obtain ⟨b, rfl, hm⟩ := ih _ hop
    cases S1 with
    | nil => cases b <;> exact ⟨fun h => (by cases h), fun _ _ _ h => by cases h⟩
    | cons x S1 =>
      cases b with
      | false =>
        exact ⟨fun h => by cases h; exact ⟨true, rfl, .itemNo hm⟩, fun _ _ _ h => by cases h⟩
      | true =>
        simp only [res, after, newChild]
        refine ⟨fun h => (by cases h), fun _ _ _ h hi => ?_⟩
        cases h
        obtain ⟨b, rfl, hm'⟩ := hi _ (.sep hop hsep hmo hms)
        rw [hms] at hm'
        exact ⟨b, rfl, .itemOk hm hm'⟩
  | sep hop hsep hmo hms _ _ =>
    cases hc
    obtain ⟨b, rfl, hm⟩ := ih _ hsep
    cases b with
    | false =>
      cases S1 with
      | nil => exact ⟨fun h => (by cases h), fun _ _ _ h => by cases h⟩
      | cons x S1 =>
        exact ⟨fun h => by cases h; exact ⟨true, rfl, .sepNo hm⟩, fun _ _ _ h => by cases h⟩
    | true =>
      simp only [res, after, newChild]
      refine ⟨fun h => (by cases h), fun _ _ _ h hi => ?_⟩
      cases h
      obtain ⟨b, rfl, hm'⟩ := hi _ (.item hop hsep hmo hms)
      rw [hmo] at hm'
      exact ⟨b, rfl, .sepOk hm hm'⟩
  | withSkipper hg _ ih' =>
    obtain ⟨h1, h2⟩ := ih' hc
    exact ⟨fun ha => (h1 ha).map fun _ => .withSkipper hg,
      fun _ _ _ ha hi => (h2 _ _ _ ha hi).map fun _ => .withSkipper hg⟩
  | recur => cases hc

/-- A leaf parser. -/
theorem leaf_end {P st T i S n r st' j S'} (hcf : Cf P st T) (hl : P.isLeaf = true)
    (hr : run env n P .nil .nil st (gw t i S) = .ok ((r, st'), gw t j S')) :
    MarkedEnd env t T i S r j S' := by
  induction hcf with
  | thru hc => rename_i P _ _ _ _ _ _ _; cases P <;> cases hl <;> cases hc
  | skip | clean | seq | alt | rep | opt | not | except | item | sep | recur => cases hl
  | bare h _ ih => exact (ih hl hr).map fun _ => .of_raw h
  | seq0 _ ih => exact (ih hl hr).map fun _ => .seq
  | alt0 _ ih => exact (ih hl hr).map fun _ => .alt
  | rep0 _ ih => exact (ih hl hr).map fun _ => .rep
  | discard _ ih => exact (ih hl hr).map fun _ => .discard
  | lexeme _ ih => exact (ih hl hr).map fun _ => .lexeme
  | bindDst _ ih => exact (ih hl hr).map fun _ => .bindDst
  | construct _ ih => exact (ih hl hr).map fun _ => .construct
  | action _ ih => exact (ih hl hr).map fun _ => .action
  | list0 _ ih => exact (ih hl hr).map fun _ => .list
  | withSkipper hg _ ih => exact (ih hl hr).map fun _ => .withSkipper hg
  | leaf h hg =>
    obtain ⟨n', b, st2, j', h1, h2⟩ := leaf_does (env := env) (t := t) h i S
    have := run_unique hr h1
    simp only [Prod.mk.injEq, World.mk.injEq, Cursor.mk.injEq] at this
    obtain ⟨⟨rfl, rfl⟩, ⟨_, rfl, rfl, _⟩, _⟩ := this
    exact ⟨b, rfl, .leaf hg h2⟩

/-- A recursion. -/
theorem recur_end {id sk T i S r j S'} (hcf : Cf (.recur id sk) .recurNone T)
    (h : ∀ k f n, sk = skipProg k → (∀ s, k = some s → s.filled = true) →
      MarkedEnd env t (.raw f k false (.recur id n)) i S r j S') :
    MarkedEnd env t T i S r j S' := by
  generalize hP : Prog.recur id sk = P at hcf
  generalize hst : PState.recurNone = st at hcf
  induction hcf with
  | thru hc => subst hP hst; cases hc
  | skip | clean | seq | alt | rep | opt | not | except | item | sep => cases hP
  | bare h _ ih => exact (ih hP hst).map fun _ => .of_raw h
  | seq0 _ ih => exact (ih hP hst).map fun _ => .seq
  | alt0 _ ih => exact (ih hP hst).map fun _ => .alt
  | rep0 _ ih => exact (ih hP hst).map fun _ => .rep
  | discard _ ih => exact (ih hP hst).map fun _ => .discard
  | lexeme _ ih => exact (ih hP hst).map fun _ => .lexeme
  | bindDst _ ih => exact (ih hP hst).map fun _ => .bindDst
  | construct _ ih => exact (ih hP hst).map fun _ => .construct
  | action _ ih => exact (ih hP hst).map fun _ => .action
  | list0 _ ih => exact (ih hP hst).map fun _ => .list
  | withSkipper hg _ ih => exact (ih hP hst).map fun _ => .withSkipper hg
  | leaf h => subst hP; cases h
  | recur hk => cases hP; exact h _ _ _ rfl hk

theorem recur_some {id sk c T} : ¬ Cf (.recur id sk) (.recurSome c) T := by
  intro hcf
  generalize hP : Prog.recur id sk = P at hcf
  generalize hst : PState.recurSome c = st at hcf
  induction hcf with
  | thru hc => subst hP hst; cases hc
  | skip | clean | seq | alt | rep | opt | not | except | item | sep => cases hP
  | leaf h => subst hP; cases h
  | recur => cases hst
  | bare _ _ ih | seq0 _ ih | alt0 _ ih | rep0 _ ih | discard _ ih | lexeme _ ih | bindDst _ ih
  | construct _ ih | action _ ih | list0 _ ih | withSkipper _ _ ih => exact ih hP hst

/-- The patterns used through `Recur` are parsed as they should. -/
def EnvCf (env : Env) : Prop :=
  ∀ id q k, env id = some q → (∀ s, k = some s → s.filled = true) →
    Cf (elabP (skipProg k) RecurChildReqs q) (fresh (elabP (skipProg k) RecurChildReqs q))
      (.one false k false q) ∧
    marks (elabP (skipProg k) RecurChildReqs q) = q.saves (skipSaves k) false false

theorem big_marked (henv : EnvCf env) {P st i S r j S'} (h : Big env t P st i S r j S') :
    ∀ T, Cf P st T → MarkedEnd env t T i S r j S' := by
  induction h with
  | leaf hl hr => exact fun T hcf => leaf_end hcf hl hr
  | ret hc _ ha ih => exact fun T hcf => (marked_step hcf hc ih).1 ha
  | cont hc _ ha _ ih1 ih2 => exact fun T hcf => (marked_step hcf hc ih1).2 _ _ _ ha ih2
  | recurNone hq _ ih =>
    intro T hcf
    refine recur_end hcf fun k f n hsk hk => ?_
    subst hsk
    obtain ⟨h1, h2⟩ := henv _ _ k hq hk
    obtain ⟨b, rfl, hm⟩ := ih _ h1
    rw [h2] at hm
    exact ⟨b, rfl, .recur hq hm⟩
  | recurSome => exact fun T hcf => absurd hcf recur_some

/-! ### Back -/

theorem childOf_size {P st cp cs} (h : childOf P st = some (cp, cs)) : sizeOf cp < sizeOf P := by
  revert h
  fun_cases childOf P st <;> intro hc <;> simp at hc
  case case1 =>
    obtain ⟨q, h, rfl, _⟩ := hc
    have := List.sizeOf_lt_of_mem (List.mem_of_getElem? h)
    simp; omega
  case case2 =>
    obtain ⟨q, h, rfl, _⟩ := hc
    have := List.sizeOf_lt_of_mem (List.mem_of_getElem? h)
    simp; omega
  all_goals (obtain ⟨rfl, rfl⟩ := hc; simp; try omega)

/-- The parser object returns the result of its child. -/
def Thru (P : Prog) (st : PState) (T : Task) : Prop :=
  ∃ cp cs, childOf P st = some (cp, cs) ∧ Cf cp cs T ∧
    ∀ b cs' i S, after P st (res b) cs' i S = some (.ret (res b) i S)

theorem lift {T i S b j S'}
    (h : ∀ P st, Cf P st T → Thru P st T ∨ Big env t P st i S (res b) j S') :
    ∀ P st, Cf P st T → Big env t P st i S (res b) j S' := by
  intro P
  induction hn : sizeOf P using Nat.strongRecOn generalizing P with
  | _ n ih =>
    intro st hcf
    rcases h P st hcf with ⟨cp, cs, h1, h2, h3⟩ | h
    · exact .ret (cs' := cs) h1 (ih _ (hn ▸ childOf_size h1) cp rfl cs h2) (h3 _ _ _ _)
    · exact h

theorem cf_seq {P st k qs} (h : Cf P st (.seq k qs)) :
    Thru P st (.seq k qs) ∨ ∃ (slots : List (Option Nat)) (Ps : List Prog) (ps : List Pat) (n : Nat)
      (Pn : Prog), P = .seq slots Ps ∧ st = .seq n (fresh Pn) ∧ qs = ps.drop n ∧
      Ps.length = ps.length ∧ slots.length = Ps.length ∧
      (∀ (m : Nat) (P : Prog) (p : Pat), Ps[m]? = some P → ps[m]? = some p →
        Cf P (fresh P) (.one true k false p)) ∧
      (∀ (m : Nat) (P : Prog) (p : Pat), Ps[m]? = some P → ps[m]? = some p →
        marks P = p.saves (skipSaves k) true false) ∧ Ps[n]? = some Pn := by
  generalize hT : Task.seq k qs = T at h
  cases h with
  | thru h1 h2 h3 => exact .inl ⟨_, _, h1, hT ▸ h2, h3⟩
  | seq h1 h2 h3 h4 h5 => cases hT; exact .inr ⟨_, _, _, _, _, rfl, rfl, rfl, h1, h2, h3, h4, h5⟩
  | _ => cases hT

theorem cf_alt {P st k qs} (h : Cf P st (.alt k qs)) :
    Thru P st (.alt k qs) ∨ ∃ (Ps : List Prog) (ps : List Pat) (n : Nat)
      (Pn : Prog), P = .alt Ps ∧ st = .alt n (fresh Pn) ∧ qs = ps.drop n ∧
      Ps.length = ps.length ∧
      (∀ (m : Nat) (P : Prog) (p : Pat), Ps[m]? = some P → ps[m]? = some p →
        Cf P (fresh P) (.one true k true p)) ∧
      (∀ (m : Nat) (P : Prog) (p : Pat), Ps[m]? = some P → ps[m]? = some p →
        marks P = p.saves (skipSaves k) true true) ∧ Ps[n]? = some Pn := by
  generalize hT : Task.alt k qs = T at h
  cases h with
  | thru h1 h2 h3 => exact .inl ⟨_, _, h1, hT ▸ h2, h3⟩
  | alt h1 h3 h4 h5 => cases hT; exact .inr ⟨_, _, _, _, rfl, rfl, rfl, h1, h3, h4, h5⟩
  | _ => cases hT

theorem marked_fail {i S b j S'} (h : Marked env t (.one true none true .fail) i S b j S') :
    b = false ∧ j = i ∧ S' = S := by
  cases h with
  | plain _ h =>
    cases h with
    | kept hg => cases hg
    | undone hg => cases hg
    | leaf _ h => cases h; exact ⟨rfl, rfl, rfl⟩

theorem drop_head {α : Type} {l : List α} {n : Nat} {a : α} {l' : List α} (h : l.drop n = a :: l') :
    l[n]? = some a ∧ l.drop (n + 1) = l' := by
  have hlt : n < l.length := by
    rcases Nat.lt_or_ge n l.length with h1 | h1
    · exact h1
    · rw [List.drop_eq_nil_of_le h1] at h; cases h
  rw [List.drop_eq_getElem_cons hlt] at h
  simp only [List.cons.injEq] at h
  exact ⟨by rw [List.getElem?_eq_getElem hlt, h.1], h.2⟩

theorem childOf_seq {slots} {Ps : List Prog} {n : Nat} {Pn : Prog} {c} (h : Ps[n]? = some Pn) :
    childOf (.seq slots Ps) (.seq n c) = some (Pn, c) := by
  simp only [childOf, h, Option.map_some]

theorem childOf_alt {Ps : List Prog} {n : Nat} {Pn : Prog} {c} (h : Ps[n]? = some Pn) :
    childOf (.alt Ps) (.alt n c) = some (Pn, c) := by
  simp only [childOf, h, Option.map_some]

theorem marked_big (henv : EnvCf env) {T i S b j S'} (h : Marked env t T i S b j S') :
    ∀ P st, Cf P st T → Big env t P st i S (res b) j S' := by
  induction h with
  | plain h _ ih =>
    refine lift fun P st hcf => ?_
    cases hcf with
    | thru h1 h2 h3 => exact .inl ⟨_, _, h1, h2, h3⟩
    | bare _ hP => exact .inr (ih _ _ hP)
    | skip => rcases h with h | h <;> cases h
  | skipped h1 h2 ih1 ih2 =>
    refine lift fun P st hcf => ?_
    cases hcf with
    | thru h1 h2 h3 => exact .inl ⟨_, _, h1, h2, h3⟩
    | bare h _ =>
      rcases h with h | h | h
      · cases h
      · cases h
      · cases h; cases (marked_fail h1).1
    | @skip K P _ _ _ hK hmk hP =>
      have := ih2 _ _ (.skip hK hmk hP)
      rw [begun, skipSaves, ← hmk] at this
      exact .inr (.cont (cs' := .unit) (r1 := .SUCCESS) rfl (ih1 _ _ hK) rfl this)
  | skipEnd h1 h2 ih1 ih2 =>
    refine lift fun P st hcf => ?_
    cases hcf with
    | thru h1 h2 h3 => exact .inl ⟨_, _, h1, h2, h3⟩
    | bare h hP =>
      rcases h with h | h | h
      · cases h
      · cases h
      · cases h
        obtain ⟨_, rfl, rfl⟩ := marked_fail h1
        exact .inr (ih2 _ _ hP)
    | @skip K P _ _ _ hK hmk hP =>
      refine .inr (.cont (cs' := .unit) (r1 := .FAILURE) rfl (ih1 _ _ hK) rfl
        (.ret (cs' := .unit) rfl (ih2 _ _ hP) ?_))
      rename_i b _ _ _
      cases b <;> rfl
  | kept hg _ ih =>
    refine lift fun P st hcf => ?_
    cases hcf with
    | thru h1 h2 h3 => exact .inl ⟨_, _, h1, h2, h3⟩
    | clean _ hP => exact .inr (.ret (cs' := .unit) rfl (ih _ _ hP) rfl)
    | leaf _ h => rw [h rfl] at hg; cases hg
    | withSkipper h => exact absurd hg (by rw [Pat.guarded, h rfl]; simp)
    | _ => cases hg
  | undone hg _ ih =>
    refine lift fun P st hcf => ?_
    cases hcf with
    | thru h1 h2 h3 => exact .inl ⟨_, _, h1, h2, h3⟩
    | clean _ hP => exact .inr (.ret (cs' := .unit) rfl (ih _ _ hP) rfl)
    | leaf _ h => rw [h rfl] at hg; cases hg
    | withSkipper h => exact absurd hg (by rw [Pat.guarded, h rfl]; simp)
    | _ => cases hg
  | leaf hg hd =>
    refine lift fun P st hcf => ?_
    cases hcf with
    | thru h1 h2 h3 => exact .inl ⟨_, _, h1, h2, h3⟩
    | clean h => rw [hg rfl] at h; cases h
    | leaf h _ =>
      obtain ⟨n, b', st', j', h1, h2⟩ := leaf_does (env := env) (t := t) h _ _
      obtain ⟨rfl, rfl⟩ := hd.unique h2
      exact .inr (.leaf h.isLeaf h1)
    | _ => cases hd
  | seq _ ih =>
    refine lift fun P st hcf => ?_
    cases hcf with
    | thru h1 h2 h3 => exact .inl ⟨_, _, h1, h2, h3⟩
    | leaf h => cases h
    | seq0 h => exact .inr (ih _ _ h)
  | seqNil =>
    refine lift fun P st hcf => ?_
    rcases cf_seq hcf with h | ⟨slots, Ps, ps, n, Pn, rfl, rfl, hd, hl, _, _, _, hn⟩
    · exact .inl h
    · have := (List.getElem?_eq_some_iff.1 hn).1
      have h2 := congrArg List.length hd
      simp only [List.length_nil, List.length_drop] at h2
      omega
  | seqNo _ ih =>
    refine lift fun P st hcf => ?_
    rcases cf_seq hcf with h | ⟨slots, Ps, ps, n, Pn, rfl, rfl, hd, hl, hsl, hk, hmk, hn⟩
    · exact .inl h
    · obtain ⟨hpn, _⟩ := drop_head hd.symm
      exact .inr (.ret (cs' := .unit) (childOf_seq hn) (ih _ _ (hk _ _ _ hn hpn)) rfl)
  | @seqCons k p ps' i S j S1 b j' S' _ hrest ih1 ih2 =>
    refine lift fun P st hcf => ?_
    rcases cf_seq hcf with h | ⟨slots, Ps, ps, n, Pn, rfl, rfl, hd, hl, hsl, hk, hmk, hn⟩
    · exact .inl h
    · obtain ⟨hpn, hd'⟩ := drop_head hd.symm
      have hB := ih1 _ _ (hk _ _ _ hn hpn)
      cases ps' with
      | nil =>
        have hq : Ps[n + 1]? = none := by
          rw [List.getElem?_eq_none_iff, hl]
          exact List.drop_eq_nil_iff.1 hd'
        cases hrest
        refine .inr (.ret (cs' := .unit) (r1 := .SUCCESS) (childOf_seq hn) hB ?_)
        simp only [after, hq]; rfl
      | cons q ps' =>
        obtain ⟨hpq, _⟩ := drop_head hd'
        have hlt2 : n + 1 < Ps.length := by
          rw [hl]; exact (List.getElem?_eq_some_iff.1 hpq).1
        have hq := List.getElem?_eq_getElem hlt2
        have hsl2 : slots[n + 1]? = some slots[n + 1] := List.getElem?_eq_getElem (by omega)
        have hcf2 : Cf (.seq slots Ps) (.seq (n + 1) (fresh Ps[n + 1])) (.seq k (q :: ps')) := by
          rw [← hd']; exact .seq hl hsl hk hmk hq
        have hB2 := ih2 _ _ hcf2
        rw [begunHead, begun, ← hmk _ _ _ hq hpq] at hB2
        refine .inr (.cont (cs' := .unit) (r1 := .SUCCESS) (childOf_seq hn) hB ?_ hB2)
        simp only [after, hq, hsl2]; rfl
  | alt _ ih =>
    refine lift fun P st hcf => ?_
    cases hcf with
    | thru h1 h2 h3 => exact .inl ⟨_, _, h1, h2, h3⟩
    | clean h => cases h
    | leaf h => cases h
    | alt0 h => exact .inr (ih _ _ h)
  | altNil =>
    refine lift fun P st hcf => ?_
    rcases cf_alt hcf with h | ⟨Ps, ps, n, Pn, rfl, rfl, hd, hl, _, _, hn⟩
    · exact .inl h
    · have := (List.getElem?_eq_some_iff.1 hn).1
      have h2 := congrArg List.length hd
      simp only [List.length_nil, List.length_drop] at h2
      omega
  | altOk _ ih =>
    refine lift fun P st hcf => ?_
    rcases cf_alt hcf with h | ⟨Ps, ps, n, Pn, rfl, rfl, hd, hl, hk, hmk, hn⟩
    · exact .inl h
    · obtain ⟨hpn, _⟩ := drop_head hd.symm
      exact .inr (.ret (cs' := .unit) (childOf_alt hn) (ih _ _ (hk _ _ _ hn hpn)) rfl)
  | @altCons k p ps' i S j S1 b j' S' _ hrest ih1 ih2 =>
    refine lift fun P st hcf => ?_
    rcases cf_alt hcf with h | ⟨Ps, ps, n, Pn, rfl, rfl, hd, hl, hk, hmk, hn⟩
    · exact .inl h
    · obtain ⟨hpn, hd'⟩ := drop_head hd.symm
      have hB := ih1 _ _ (hk _ _ _ hn hpn)
      cases ps' with
      | nil =>
        have hq : Ps[n + 1]? = none := by
          rw [List.getElem?_eq_none_iff, hl]
          exact List.drop_eq_nil_iff.1 hd'
        cases hrest
        refine .inr (.ret (cs' := .unit) (r1 := .FAILURE) (childOf_alt hn) hB ?_)
        simp only [after, hq]; rfl
      | cons q ps' =>
        obtain ⟨hpq, _⟩ := drop_head hd'
        have hlt2 : n + 1 < Ps.length := by
          rw [hl]; exact (List.getElem?_eq_some_iff.1 hpq).1
        have hq := List.getElem?_eq_getElem hlt2
        have hcf2 : Cf (.alt Ps) (.alt (n + 1) (fresh Ps[n + 1])) (.alt k (q :: ps')) := by
          rw [← hd']; exact .alt hl hk hmk hq
        have hB2 := ih2 _ _ hcf2
        rw [begunHead, begun, ← hmk _ _ _ hq hpq] at hB2
        refine .inr (.cont (cs' := .unit) (r1 := .FAILURE) (childOf_alt hn) hB ?_ hB2)
        simp only [after, hq]; rfl
  | rep _ ih =>
    refine lift fun P st hcf => ?_
    cases hcf with
    | thru h1 h2 h3 => exact .inl ⟨_, _, h1, h2, h3⟩
    | leaf h => cases h
    | rep0 h => exact .inr (ih _ _ h)
  | @repStop k mn mx n p i S j S' _ ih =>
    refine lift fun P st hcf => ?_
    cases hcf with
    | thru h1 h2 h3 => exact .inl ⟨_, _, h1, h2, h3⟩
    | rep hP hmk =>
      refine .inr (.ret (cs' := .unit) (r1 := .FAILURE) rfl (ih _ _ hP) ?_)
      simp only [after, enough]
      by_cases h : mn ≤ n <;> simp [h, res]
  | repLast _ hx ih =>
    refine lift fun P st hcf => ?_
    cases hcf with
    | thru h1 h2 h3 => exact .inl ⟨_, _, h1, h2, h3⟩
    | rep hP hmk =>
      refine .inr (.ret (cs' := .unit) (r1 := .SUCCESS) rfl (ih _ _ hP) ?_)
      simp only [after]
      rw [if_pos ⟨by omega, hx⟩]; rfl
  | repMore _ hx _ ih1 ih2 =>
    refine lift fun P st hcf => ?_
    cases hcf with
    | thru h1 h2 h3 => exact .inl ⟨_, _, h1, h2, h3⟩
    | rep hP hmk =>
      have := ih2 _ _ (.rep hP hmk)
      rw [begun, ← hmk] at this
      refine .inr (.cont (cs' := .unit) (r1 := .SUCCESS) rfl (ih1 _ _ hP) ?_ this)
      simp only [after]
      rw [if_neg (fun h => hx h.2)]; rfl
  | opt _ ih =>
    refine lift fun P st hcf => ?_
    cases hcf with
    | thru h1 h2 h3 => exact .inl ⟨_, _, h1, h2, h3⟩
    | clean h => cases h
    | leaf h => cases h
    | opt hP => exact .inr (.ret (cs' := .unit) rfl (ih _ _ hP) rfl)
  | optNo _ ih =>
    refine lift fun P st hcf => ?_
    cases hcf with
    | thru h1 h2 h3 => exact .inl ⟨_, _, h1, h2, h3⟩
    | clean h => cases h
    | leaf h => cases h
    | opt hP => exact .inr (.ret (cs' := .unit) rfl (ih _ _ hP) rfl)
  | @not f k c p i S b j x S' _ ih =>
    refine lift fun P st hcf => ?_
    cases hcf with
    | thru h1 h2 h3 => exact .inl ⟨_, _, h1, h2, h3⟩
    | clean h => cases h
    | leaf h => cases h
    | not hP => cases b <;> exact .inr (.ret (cs' := .unit) rfl (ih _ _ hP) rfl)
  | discard _ ih =>
    refine lift fun P st hcf => ?_
    cases hcf with
    | thru h1 h2 h3 => exact .inl ⟨_, _, h1, h2, h3⟩
    | clean h => cases h
    | leaf h => cases h
    | discard hP => exact .inr (ih _ _ hP)
  | lexeme _ ih =>
    refine lift fun P st hcf => ?_
    cases hcf with
    | thru h1 h2 h3 => exact .inl ⟨_, _, h1, h2, h3⟩
    | clean h => cases h
    | leaf h => cases h
    | lexeme hP => exact .inr (ih _ _ hP)
  | bindDst _ ih =>
    refine lift fun P st hcf => ?_
    cases hcf with
    | thru h1 h2 h3 => exact .inl ⟨_, _, h1, h2, h3⟩
    | clean h => cases h
    | leaf h => cases h
    | bindDst hP => exact .inr (ih _ _ hP)
  | construct _ ih =>
    refine lift fun P st hcf => ?_
    cases hcf with
    | thru h1 h2 h3 => exact .inl ⟨_, _, h1, h2, h3⟩
    | clean h => cases h
    | leaf h => cases h
    | construct hP => exact .inr (ih _ _ hP)
  | action _ ih =>
    refine lift fun P st hcf => ?_
    cases hcf with
    | thru h1 h2 h3 => exact .inl ⟨_, _, h1, h2, h3⟩
    | clean h => cases h
    | leaf h => cases h
    | action hP => exact .inr (ih _ _ hP)
  | exceptNo _ ih =>
    refine lift fun P st hcf => ?_
    cases hcf with
    | thru h1 h2 h3 => exact .inl ⟨_, _, h1, h2, h3⟩
    | leaf h => cases h
    | except hop hneg hmk => exact .inr (.ret (cs' := .unit) rfl (ih _ _ hneg) rfl)
  | @except f k op neg i S j S1 b j' S' _ _ ih1 ih2 =>
    refine lift fun P st hcf => ?_
    cases hcf with
    | thru h1 h2 h3 => exact .inl ⟨_, _, h1, h2, h3⟩
    | leaf h => cases h
    | except hop hneg hmk =>
      have := ih2 _ _ hop
      rw [begun, ← hmk] at this
      refine .inr (.cont (cs' := .unit) (r1 := .FAILURE) rfl (ih1 _ _ hneg) rfl
        (.ret (cs' := .unit) rfl this ?_))
      cases b <;> rfl
  | list _ ih =>
    refine lift fun P st hcf => ?_
    cases hcf with
    | thru h1 h2 h3 => exact .inl ⟨_, _, h1, h2, h3⟩
    | clean h => cases h
    | leaf h => cases h
    | list0 hP => exact .inr (ih _ _ hP)
  | itemNo _ ih =>
    refine lift fun P st hcf => ?_
    cases hcf with
    | thru h1 h2 h3 => exact .inl ⟨_, _, h1, h2, h3⟩
    | item hop hsep hmo hms => exact .inr (.ret (cs' := .unit) rfl (ih _ _ hop) rfl)
  | itemOk _ _ ih1 ih2 =>
    refine lift fun P st hcf => ?_
    cases hcf with
    | thru h1 h2 h3 => exact .inl ⟨_, _, h1, h2, h3⟩
    | item hop hsep hmo hms =>
      have := ih2 _ _ (.sep hop hsep hmo hms)
      rw [begun, ← hms] at this
      exact .inr (.cont (cs' := .unit) (r1 := .SUCCESS) rfl (ih1 _ _ hop) rfl this)
  | sepNo _ ih =>
    refine lift fun P st hcf => ?_
    cases hcf with
    | thru h1 h2 h3 => exact .inl ⟨_, _, h1, h2, h3⟩
    | sep hop hsep hmo hms => exact .inr (.ret (cs' := .unit) rfl (ih _ _ hsep) rfl)
  | sepOk _ _ ih1 ih2 =>
    refine lift fun P st hcf => ?_
    cases hcf with
    | thru h1 h2 h3 => exact .inl ⟨_, _, h1, h2, h3⟩
    | sep hop hsep hmo hms =>
      have := ih2 _ _ (.item hop hsep hmo hms)
      rw [begun, ← hmo] at this
      exact .inr (.cont (cs' := .unit) (r1 := .SUCCESS) rfl (ih1 _ _ hsep) rfl this)
  | withSkipper hg _ ih =>
    refine lift fun P st hcf => ?_
    cases hcf with
    | thru h1 h2 h3 => exact .inl ⟨_, _, h1, h2, h3⟩
    | clean h => rw [Pat.guarded, hg rfl] at h; cases h
    | leaf h => cases h
    | withSkipper _ hP => exact .inr (ih _ _ hP)
  | @recur f k id n q i S b j S' hq _ ih =>
    refine lift fun P st hcf => ?_
    cases hcf with
    | thru h1 h2 h3 => exact .inl ⟨_, _, h1, h2, h3⟩
    | leaf h => cases h
    | recur hk =>
      obtain ⟨h1, h2⟩ := henv _ _ k hq hk
      have := ih _ _ h1
      rw [begun, ← h2] at this
      exact .inr (.recurNone hq this)

end

end Abu
