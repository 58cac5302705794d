import Verif.Proofs.NoTrace
import Verif.Proofs.Recognise
import Verif.Spec.NilDst
/-
Parsing with `nil` as destination.
-/
namespace Abu

variable {A : Bool} {G : Nat → Bool}

mutual
/-- `Pat.forNil`, for parser programs. -/
def Prog.forNil (A : Bool) (G : Nat → Bool) : Prog → Bool
  | .construct .. => false
  | .action a p => A && a.landing.isNil && p.forNil A G
  | .seq ss ps => !ss.isEmpty && !ps.isEmpty && Prog.forNilAll A G ps
  | .alt ps => !ps.isEmpty && Prog.forNilAll A G ps
  | .rep _ _ p => p.forNil A G
  | .opt p => p.forNil A G
  | .not p => p.forNil A G
  | .discard p => p.forNil A G
  | .lexeme p => p.forNil A G
  | .bindDst p => p.forNil A G
  | .except op neg => op.forNil A G && neg.forNil A G
  | .list op sep => op.forNil A G && sep.forNil A G
  | .withSkipper p => p.forNil A G
  | .recur id sk => G id && sk.forNil A G
  | .atomic p => p.forNil A G
  | .clean p => p.forNil A G
  | .skip s p => s.forNil A G && p.forNil A G
  | _ => true
/-- All of them. -/
def Prog.forNilAll (A : Bool) (G : Nat → Bool) : List Prog → Bool
  | [] => true
  | p :: ps => p.forNil A G && Prog.forNilAll A G ps
end

theorem Prog.forNilAll_get {ps : List Prog} {i : Nat} {p : Prog} (h : Prog.forNilAll A G ps = true)
    (hp : ps[i]? = some p) : p.forNil A G = true := by
  induction ps generalizing i with
  | nil => cases hp
  | cons q ps ih =>
    simp only [Prog.forNilAll, Bool.and_eq_true] at h
    cases i with
    | zero => cases hp; exact h.1
    | succ i => exact ih h.2 hp

theorem adapt_forNil {sk raw : Prog} {a c : Bool} (hs : sk.forNil A G = true) (h : raw.forNil A G = true) :
    (adapt sk a c raw).forNil A G = true := by
  unfold adapt
  cases a <;> cases c <;> cases sk.isFail <;> simp [Prog.forNil, hs, h]

theorem skipper_forNil {sk : Prog} {r : Req} (hs : sk.forNil A G = true) : (r.skipper sk).forNil A G = true := by
  unfold Req.skipper
  split
  · rfl
  · exact hs

theorem tupleSlots_isEmpty {n : Nat} {ps : List Pat} : (tupleSlots n ps).isEmpty = ps.isEmpty := by
  cases ps with
  | nil => rfl
  | cons p ps => unfold tupleSlots; split <;> rfl

mutual
theorem elab_forNil : ∀ (p : Pat) {sk r}, p.forNil A G = true → sk.forNil A G = true →
    (elabP sk r p).forNil A G = true
  | .seq ps, sk, r, h, hs => by
    simp only [Pat.forNil, Bool.and_eq_true] at h
    refine adapt_forNil (skipper_forNil hs) ?_
    have h2 := elabs_forNil ps (r := ⟨false, false, false, false⟩) h.2 hs
    simp only [Prog.forNil, tupleSlots_isEmpty, h.1, h2.1, h2.2, Bool.and_self]
  | .alt ps, sk, r, h, hs => by
    simp only [Pat.forNil, Bool.and_eq_true] at h
    refine adapt_forNil (skipper_forNil hs) ?_
    have h2 := elabs_forNil ps (r := { (r.lower (.alt ps)).derive with FAILS_CLEANLY := true }) h.2 hs
    simp only [Prog.forNil, h.1, h2.1, h2.2, Bool.and_self]
  | .rep _ _ p, sk, r, h, hs => adapt_forNil (skipper_forNil hs) (elab_forNil p h hs)
  | .opt p, sk, r, h, hs => adapt_forNil (skipper_forNil hs) (elab_forNil p h hs)
  | .not p, sk, r, h, hs => adapt_forNil (skipper_forNil hs) (elab_forNil p h hs)
  | .discard p, sk, r, h, hs => adapt_forNil (skipper_forNil hs) (elab_forNil p h hs)
  | .lexeme p, sk, r, h, hs => adapt_forNil (skipper_forNil hs) (elab_forNil p h rfl)
  | .bindDst p, sk, r, h, hs => adapt_forNil (skipper_forNil hs) (elab_forNil p h hs)
  | .construct _ p, sk, r, h, hs => by cases h
  | .action a p, sk, r, h, hs => by
    simp only [Pat.forNil, Bool.and_eq_true] at h
    refine adapt_forNil (skipper_forNil hs) ?_
    have h2 := elab_forNil p (r := ⟨false, (r.lower (.action a p)).FAILS_CLEANLY, r.CONSUMES, false⟩) h.2 hs
    simp only [Prog.forNil, h.1.2, h2, Bool.and_self]
    exact (by simpa using h.1.1)
  | .except op neg, sk, r, h, hs => by
    simp only [Pat.forNil, Bool.and_eq_true] at h
    refine adapt_forNil (skipper_forNil hs) ?_
    simp only [Prog.forNil, elab_forNil op h.1 hs, elab_forNil neg h.2 hs, Bool.and_self]
  | .list op sep, sk, r, h, hs => by
    simp only [Pat.forNil, Bool.and_eq_true] at h
    refine adapt_forNil (skipper_forNil hs) ?_
    simp only [Prog.forNil, elab_forNil op h.1 hs, elab_forNil sep h.2 hs, Bool.and_self]
  | .withSkipper p s, sk, r, h, hs => by
    simp only [Pat.forNil, Bool.and_eq_true] at h
    exact adapt_forNil (skipper_forNil hs) (elab_forNil p h.1 (elab_forNil s h.2 rfl))
  | .recur _ _, sk, r, h, hs => adapt_forNil (skipper_forNil hs) (by
    have h : G _ = true := h
    simp [Prog.forNil, hs, h])
  | .char _, sk, r, h, hs => adapt_forNil (skipper_forNil hs) rfl
  | .charSymbol _, sk, r, h, hs => adapt_forNil (skipper_forNil hs) rfl
  | .strLit _, sk, r, h, hs => adapt_forNil (skipper_forNil hs) rfl
  | .symbol _, sk, r, h, hs => adapt_forNil (skipper_forNil hs) rfl
  | .int .., sk, r, h, hs => adapt_forNil (skipper_forNil hs) rfl
  | .uint .., sk, r, h, hs => adapt_forNil (skipper_forNil hs) rfl
  | .eoi, sk, r, h, hs => adapt_forNil (skipper_forNil hs) rfl
  | .pass, sk, r, h, hs => adapt_forNil (skipper_forNil hs) rfl
  | .fail, sk, r, h, hs => adapt_forNil (skipper_forNil hs) rfl
theorem elabs_forNil : ∀ (ps : List Pat) {sk r}, Pat.forNilAll A G ps = true → sk.forNil A G = true →
    (elabPs sk r ps).isEmpty = ps.isEmpty ∧ Prog.forNilAll A G (elabPs sk r ps) = true
  | [], _, _, _, _ => ⟨rfl, rfl⟩
  | p :: ps, sk, r, h, hs => by
    simp only [Pat.forNilAll, Bool.and_eq_true] at h
    refine ⟨rfl, ?_⟩
    simp only [elabPs, Prog.forNilAll, elab_forNil p h.1 hs, (elabs_forNil ps h.2 hs).2, Bool.and_self]
end

/-- The part of memory that does not change: everything, or all but the list of calls. -/
def Mem.seen (A : Bool) (m : Mem) : Mem := if A then ⟨m.objs, []⟩ else m

theorem Mem.seen_eq {m m' : Mem} (h : m'.seen A = m.seen A) :
    m'.objs = m.objs ∧ (A = false → m' = m) := by
  cases A with
  | true => exact ⟨(Mem.mk.inj h).1, fun h => by cases h⟩
  | false => have h : m' = m := h; subst h; exact ⟨rfl, fun _ => rfl⟩

/-- The operation is on `nil` only, and is not a construction. -/
def MemOp.onNil (A : Bool) : MemOp → Prop
  | .zero d => d = .nil
  | .mulAdd _ _ d => d = .nil
  | .neg d => d = .nil
  | .assign d _ => d = .nil
  | .move d b => d = .nil ∧ b = .nil
  | .construct _ _ => False
  | .act _ l d b => A = true ∧ l = .nil ∧ d = .nil ∧ b = .nil

theorem MemOp.onNil.run {o : MemOp} (h : o.onNil A) (m : Mem) :
    ∃ m', m.run o = .ok m' ∧ m'.seen A = m.seen A := by
  cases o with
  | zero d => cases h; exact ⟨m, rfl, rfl⟩
  | mulAdd b d dst => cases h; exact ⟨m, rfl, rfl⟩
  | neg d => cases h; exact ⟨m, rfl, rfl⟩
  | assign d v => cases h; exact ⟨m, rfl, rfl⟩
  | move d b => obtain ⟨rfl, rfl⟩ := h; exact ⟨m, rfl, rfl⟩
  | construct d b => cases h
  | act a l d b =>
    obtain ⟨rfl, rfl, rfl, rfl⟩ := h
    refine ⟨⟨m.objs, m.log ++ [⟨a.id, .nil⟩]⟩, ?_, rfl⟩
    simp only [Mem.run, Mem.act, Mem.read]
    cases a.param <;> cases a.void <;> rfl

/-- The command uses nothing but `nil`. -/
inductive NilOnly (A : Bool) (C : Prog → Prop) {α : Type} (Q : α → Prop) : Cmd α → Prop
  | pure {a} : Q a → NilOnly A C Q (.pure a)
  | fault {e} : e.ofMem = false → NilOnly A C Q (.fault e)
  | isEmpty {k} : (∀ b, NilOnly A C Q (k b)) → NilOnly A C Q (.isEmpty k)
  | isFinal {k} : (∀ b, NilOnly A C Q (k b)) → NilOnly A C Q (.isFinal k)
  | next {k} : (∀ b, NilOnly A C Q (k b)) → NilOnly A C Q (.next k)
  | advance {k} : NilOnly A C Q k → NilOnly A C Q (.advance k)
  | prepare {k} : NilOnly A C Q k → NilOnly A C Q (.prepare k)
  | commit {k} : NilOnly A C Q k → NilOnly A C Q (.commit k)
  | cancel {k} : NilOnly A C Q k → NilOnly A C Q (.cancel k)
  | mem {o k} : o.onNil A → NilOnly A C Q k → NilOnly A C Q (.mem o k)
  | alloc {k} : NilOnly A C Q (k .nil) → NilOnly A C Q (.alloc .nil k)
  | call {p st k} : C p → st.In (· = .nil) → (∀ r s, s.In (· = .nil) → NilOnly A C Q (k r s)) →
      NilOnly A C Q (.call p .nil .nil st k)

theorem NilOnly.bind {C} {α β : Type} {Q : α → Prop} {R : β → Prop} {x : Cmd α} {k : α → Cmd β}
    (hx : NilOnly A C Q x) (hk : ∀ a, Q a → NilOnly A C R (k a)) : NilOnly A C R (x.bind k) := by
  induction hx with
  | pure h => exact hk _ h
  | fault e => exact .fault e
  | isEmpty _ ih => exact .isEmpty ih
  | isFinal _ ih => exact .isFinal ih
  | next _ ih => exact .next ih
  | advance _ ih => exact .advance ih
  | prepare _ ih => exact .prepare ih
  | commit _ ih => exact .commit ih
  | cancel _ ih => exact .cancel ih
  | mem h _ ih => exact .mem h ih
  | alloc _ ih => exact .alloc ih
  | call h1 h2 _ ih => exact .call h1 h2 ih

theorem seqDst_nil (s : Option Nat) : seqDst .nil s = some .nil := by
  cases s <;> rfl

theorem landing_nil {a : Act} {b : Bool} (h : (A && a.landing.isNil && b) = true) :
    a.landing = .nil ∧ b = true ∧ A = true := by
  rw [Bool.and_eq_true, Bool.and_eq_true] at h
  refine ⟨?_, h.2, h.1.1⟩
  have h := h.1.2
  cases ha : a.landing <;> rw [ha] at h <;> first | rfl | cases h

theorem mk_nilOnly {C} : ∀ (p : Prog), p.forNil A G = true →
    NilOnly A C (fun st => st.In (· = .nil)) (mk p .nil .nil)
  | .seq ss ps, h => by
    simp only [Prog.forNil, Bool.and_eq_true] at h
    cases ss with
    | nil => simp at h
    | cons s ss =>
      cases ps with
      | nil => simp at h
      | cons p ps =>
        simp only [mk, seqDst_nil]
        exact (mk_nilOnly p (Prog.forNilAll_get (i := 0) h.2 rfl)).bind fun _ h => .pure h
  | .alt ps, h => by
    simp only [Prog.forNil, Bool.and_eq_true] at h
    cases ps with
    | nil => simp at h
    | cons p ps =>
      simp only [mk]
      exact (mk_nilOnly p (Prog.forNilAll_get (i := 0) h.2 rfl)).bind fun _ h => .pure h
  | .rep _ _ p, h => (mk_nilOnly p h).bind fun _ h => .pure h
  | .opt p, h => (mk_nilOnly p h).bind fun _ h => .prepare (.pure h)
  | .not p, h => (mk_nilOnly p h).bind fun _ h => .prepare (.pure h)
  | .discard p, h => (mk_nilOnly p h).bind fun _ h => .pure h
  | .lexeme p, h => (mk_nilOnly p h).bind fun _ h => .pure h
  | .bindDst p, h => (mk_nilOnly p h).bind fun _ h => .pure h
  | .construct _ p, h => by cases h
  | .action a p, h => by
    obtain ⟨h1, h2, _⟩ := landing_nil h
    simp only [mk, h1]
    exact .alloc ((mk_nilOnly p h2).bind fun _ h => .pure ⟨rfl, h⟩)
  | .except op neg, h => by
    simp only [Prog.forNil, Bool.and_eq_true] at h
    exact (mk_nilOnly neg h.2).bind fun _ h => .pure h
  | .list op sep, h => by
    simp only [Prog.forNil, Bool.and_eq_true] at h
    exact (mk_nilOnly op h.1).bind fun _ h => .prepare (.pure h)
  | .withSkipper p, h => (mk_nilOnly p h).bind fun _ h => .pure h
  | .recur _ _, _ => .pure trivial
  | .atomic p, h => .alloc ((mk_nilOnly p h).bind fun _ h => .pure ⟨rfl, h⟩)
  | .clean p, h => (mk_nilOnly p h).bind fun _ h => .prepare (.pure h)
  | .skip s p, h => by
    simp only [Prog.forNil, Bool.and_eq_true] at h
    exact (mk_nilOnly s h.1).bind fun _ h1 => (mk_nilOnly p h.2).bind fun _ h2 => .pure ⟨h1, h2⟩
  | .char _, _ => .pure trivial
  | .charSymbol _, _ => .pure trivial
  | .strLit _, _ => .pure trivial
  | .symbol _, _ => .pure trivial
  | .int .., _ => .mem rfl (.pure trivial)
  | .uint .., _ => .mem rfl (.pure trivial)
  | .eoi, _ => .pure trivial
  | .pass, _ => .pure trivial
  | .fail, _ => .pure trivial

theorem guarded_nilOnly {C Q st X} {B : Ch → Cmd Step} (hP : Q (.ret .PARTIAL st))
    (hA : NilOnly A C Q X) (hB : ∀ c, NilOnly A C Q (B c)) : NilOnly A C Q (guarded st X B) := by
  refine .isEmpty fun e => ?_
  split
  · refine .isFinal fun f => ?_
    split
    · exact hA
    · exact .pure hP
  · exact .next hB

theorem body_nilOnly {env : Env} (he : env.forNil A G) (p : Prog) (st : PState) (hp : p.forNil A G = true)
    (hst : st.In (· = .nil)) :
    NilOnly A (fun p => p.forNil A G = true) (fun s => s.In (· = .nil)) (body env p .nil .nil st) := by
  have hmk : ∀ {q} {f : PState → PState}, Prog.forNil A G q = true →
      (∀ c, c.In (· = .nil) → (f c).In (· = .nil)) →
      NilOnly A (fun p => p.forNil A G = true) (fun s => s.In (· = .nil))
        ((mk q .nil .nil).bind fun c => contS (f c)) :=
    fun h1 h2 => (mk_nilOnly _ h1).bind fun a h => .pure (h2 a h)
  unfold body
  split
  -- char
  · refine guarded_nilOnly trivial (.pure trivial) fun c => ?_
    split
    · exact .mem rfl (.advance (.pure trivial))
    · exact .pure trivial
  -- charSymbol
  · refine guarded_nilOnly trivial (.pure trivial) fun c => ?_
    split
    · exact .pure trivial
    · exact .mem rfl (.pure trivial)
  -- strLit
  · split
    · exact .pure trivial
    · refine guarded_nilOnly trivial (.pure trivial) fun c => ?_
      split
      · exact .advance (.pure trivial)
      · exact .pure trivial
  -- symbol
  · rename_i n v
    have hhit : ∀ {n' x v}, NilOnly A (fun p => p.forNil A G = true) (fun s => s.In (· = .nil))
        (if (Node.child n').isEmpty then .mem (.assign .nil x) (retS .SUCCESS (.symbol n' v))
          else .prepare (contS (.symbol n' (some x)))) := by
      intro n' x v
      split
      · exact .mem rfl (.pure trivial)
      · exact .prepare (.pure trivial)
    cases v with
    | none =>
      refine guarded_nilOnly trivial (.pure trivial) fun c => ?_
      split
      · exact .pure trivial
      · refine .advance ?_
        rename_i n' _
        cases n'.val with
        | none => exact .pure trivial
        | some x => exact hhit
    | some y =>
      refine guarded_nilOnly trivial (.mem rfl (.commit (.pure trivial))) fun c => ?_
      split
      · exact .mem rfl (.commit (.pure trivial))
      · refine .advance ?_
        rename_i n' _
        cases n'.val with
        | none => exact .pure trivial
        | some x => exact .cancel hhit
  -- uint
  · refine guarded_nilOnly trivial (.pure trivial) fun c => ?_
    split
    · refine .mem rfl (.advance ?_)
      split
      · exact .pure trivial
      · exact .pure trivial
    · exact .pure trivial
  -- int
  · have hneg : ∀ {neg r s}, PState.In (· = .nil) s →
        NilOnly A (fun p => p.forNil A G = true) (fun s => s.In (· = .nil)) (negIf neg .nil (retS r s)) := by
      intro neg r s hs
      unfold negIf
      split
      · exact .mem rfl (.pure hs)
      · exact .pure hs
    refine guarded_nilOnly trivial (hneg trivial) fun c => ?_
    split
    · exact .advance (.pure trivial)
    · split
      · exact .advance (.pure trivial)
      · split
        · refine .mem rfl (.advance ?_)
          split
          · exact hneg trivial
          · exact .pure trivial
        · exact hneg trivial
  -- eoi
  · exact guarded_nilOnly trivial (.pure trivial) fun c => .pure trivial
  · exact .pure trivial
  · exact .pure trivial
  -- seq
  · rename_i slots ps i c
    simp only [Prog.forNil, Bool.and_eq_true] at hp
    split
    · rename_i p s hpi hs
      simp only [seqDst_nil]
      refine .call (Prog.forNilAll_get hp.2 hpi) hst fun r c' hc' => ?_
      split
      · split
        · rename_i hp' hs'
          exact hmk (Prog.forNilAll_get hp.2 hp') fun _ h => h
        · exact .pure hc'
      · exact .pure hc'
    · exact .fault rfl
  -- alt
  · rename_i ps i c
    simp only [Prog.forNil, Bool.and_eq_true] at hp
    split
    · rename_i p hpi
      refine .call (Prog.forNilAll_get hp.2 hpi) hst fun r c' hc' => ?_
      split
      · split
        · rename_i hp'
          exact hmk (Prog.forNilAll_get hp.2 hp') fun _ h => h
        · exact .pure hc'
      · exact .pure hc'
    · exact .fault rfl
  -- rep
  · refine .call hp hst fun r c' hc' => ?_
    split
    · exact .pure hc'
    · exact .pure hc'
    · split
      · exact .pure hc'
      · exact hmk hp fun _ h => h
  -- opt
  · refine .call hp hst fun r c' hc' => ?_
    split
    · exact .pure hc'
    · exact .commit (.pure hc')
    · exact .pure hc'
  -- not
  · refine .call hp hst fun r c' hc' => ?_
    split
    · exact .commit (.pure hc')
    · exact .commit (.pure hc')
    · exact .pure hc'
  -- discard, lexeme, bindDst
  · exact .call hp hst fun r c' hc' => .pure hc'
  · exact .call hp hst fun r c' hc' => .pure hc'
  · exact .call hp hst fun r c' hc' => .pure hc'
  -- construct
  · cases hp
  -- action
  · rename_i a p land c
    obtain ⟨h1, h2, h3⟩ := landing_nil hp
    obtain ⟨rfl, hst⟩ := hst
    refine .call h2 hst fun r c' hc' => ?_
    split
    · exact .mem ⟨h3, rfl, rfl, rfl⟩ (.pure ⟨rfl, hc'⟩)
    · exact .pure ⟨rfl, hc'⟩
  -- except
  · simp only [Prog.forNil, Bool.and_eq_true] at hp
    refine .call hp.2 hst fun r c' hc' => ?_
    split
    · exact .pure hc'
    · exact .pure hc'
    · exact hmk hp.1 fun _ h => h
  · simp only [Prog.forNil, Bool.and_eq_true] at hp
    exact .call hp.1 hst fun r c' hc' => .pure hc'
  -- list
  · simp only [Prog.forNil, Bool.and_eq_true] at hp
    refine .call hp.1 hst fun r c' hc' => ?_
    split
    · exact .cancel (.prepare (hmk hp.2 fun _ h => h))
    · exact .commit (.pure hc')
    · exact .pure hc'
  · simp only [Prog.forNil, Bool.and_eq_true] at hp
    refine .call hp.2 hst fun r c' hc' => ?_
    split
    · exact hmk hp.1 fun _ h => h
    · exact .commit (.pure hc')
    · exact .pure hc'
  -- withSkipper
  · exact .call hp hst fun r c' hc' => .pure hc'
  -- recur
  · simp only [Prog.forNil, Bool.and_eq_true] at hp
    split
    · exact .fault rfl
    · rename_i q hq
      exact hmk (elab_forNil q (he _ _ hp.1 hq) hp.2) fun _ h => h
  · simp only [Prog.forNil, Bool.and_eq_true] at hp
    split
    · exact .fault rfl
    · rename_i q hq
      exact .call (elab_forNil q (he _ _ hp.1 hq) hp.2) hst fun r c' hc' => .pure hc'
  -- atomic
  · obtain ⟨rfl, hst⟩ := hst
    refine .call hp hst fun r c' hc' => ?_
    split
    · exact .mem ⟨rfl, rfl⟩ (.pure ⟨rfl, hc'⟩)
    · exact .pure ⟨rfl, hc'⟩
  -- clean
  · refine .call hp hst fun r c' hc' => ?_
    split
    · exact .cancel (.pure hc')
    · exact .commit (.pure hc')
    · exact .pure hc'
  -- skip
  · simp only [Prog.forNil, Bool.and_eq_true] at hp
    refine .call hp.1 hst.1 fun r c' hc' => ?_
    split
    · exact (mk_nilOnly _ hp.1).bind fun a h => .pure ⟨h, hst.2⟩
    · exact .pure ⟨hc', hst.2⟩
    · exact .pure ⟨hc', hst.2⟩
  · simp only [Prog.forNil, Bool.and_eq_true] at hp
    exact .call hp.2 hst.2 fun r c' hc' => .pure ⟨hst.1, hc'⟩
  · exact .fault rfl

/-- No error of destinations, and the objects are as they were. -/
inductive NilOut {σ α : Type} (Q : α → Prop) (A : Bool) (vs : Mem) : Out σ Mem α → Prop
  | error {e} : e.ofMem = false → NilOut Q A vs (.error e)
  | ok {a w} : Q a → w.mem.seen A = vs → NilOut Q A vs (.ok (a, w))

section
variable {σ : Type} [DataSource σ]

theorem exec_nilOnly {C} {call : Prog → Ref → Ref → PState → World σ Mem → Out σ Mem (Res × PState)}
    (hc : ∀ p st w, C p → st.In (· = .nil) →
      NilOut (fun x => x.2.In (· = .nil)) A (w.mem.seen A) (call p .nil .nil st w))
    {α : Type} {Q : α → Prop} {x : Cmd α} (hx : NilOnly A C Q x) (w : World σ Mem) :
    NilOut Q A (w.mem.seen A) (exec call x w) := by
  induction hx generalizing w with
  | pure hq => exact .ok hq rfl
  | fault h => exact .error h
  | isEmpty _ ih => exact ih _ w
  | isFinal _ ih => exact ih _ w
  | next _ ih =>
    simp only [exec]
    split
    · exact .error rfl
    · exact ih _ w
  | advance _ ih =>
    simp only [exec]
    split
    · exact .error rfl
    · exact (show ∀ ds, NilOut Q A (w.mem.seen A) (exec call _ ⟨ds, w.mem⟩) from fun ds => ih ⟨ds, w.mem⟩) _
  | prepare _ ih => exact (show ∀ ds, NilOut Q A (w.mem.seen A) (exec call _ ⟨ds, w.mem⟩) from fun ds => ih ⟨ds, w.mem⟩) _
  | commit _ ih =>
    simp only [exec]
    split
    · exact .error rfl
    · exact (show ∀ ds, NilOut Q A (w.mem.seen A) (exec call _ ⟨ds, w.mem⟩) from fun ds => ih ⟨ds, w.mem⟩) _
  | cancel _ ih =>
    simp only [exec]
    split
    · exact .error rfl
    · exact (show ∀ ds, NilOut Q A (w.mem.seen A) (exec call _ ⟨ds, w.mem⟩) from fun ds => ih ⟨ds, w.mem⟩) _
  | mem ho _ ih =>
    obtain ⟨m', h1, h2⟩ := ho.run w.mem
    have h1 : Store.op _ w.mem = .ok m' := h1
    simp only [exec, h1]
    have := ih ⟨w.ds, m'⟩
    rwa [h2] at this
  | alloc _ ih => exact ih w
  | call h1 h2 _ ih =>
    simp only [exec]
    have := hc _ _ w h1 h2
    generalize call _ _ _ _ w = y at this
    cases this with
    | error h => exact .error h
    | @ok a w1 h3 h4 =>
      obtain ⟨r, s⟩ := a
      have := ih r s h3 w1
      rwa [h4] at this

theorem construct_nilOnly {p : Prog} (hp : p.forNil A G = true) (w : World σ Mem) :
    NilOut (fun st => st.In (· = .nil)) A (w.mem.seen A) (construct p .nil .nil w) :=
  exec_nilOnly (C := fun _ => False) (fun _ _ _ h => h.elim) (mk_nilOnly p hp) w

theorem run_nilOnly {env : Env} (he : env.forNil A G) (n : Nat) {p : Prog} (hp : p.forNil A G = true)
    {st : PState} (hst : st.In (· = .nil)) (w : World σ Mem) :
    NilOut (fun x => x.2.In (· = .nil)) A (w.mem.seen A) (run env n p .nil .nil st w) := by
  induction n generalizing p st w with
  | zero => exact .error rfl
  | succ n ih =>
    rw [run_succ_eq]
    have := exec_nilOnly (fun p st w h1 h2 => ih h1 h2 w) (body_nilOnly he p st hp hst) w
    generalize exec (run env n) (body env p .nil .nil st) w = y at this
    cases this with
    | error h => exact .error h
    | @ok a w1 h1 h2 =>
      cases a with
      | ret r st' => exact .ok h1 h2
      | cont st' =>
        have := ih hp h1 w1
        rwa [h2] at this

end

/-- What is said about verdicts. -/
inductive NilVerdict (A : Bool) (vs : Mem) : Verdict → Prop
  | error {e} : e.ofMem = false → NilVerdict A vs (.error e)
  | ok {r m rest} : m.seen A = vs → NilVerdict A vs (.ok (r, m, rest))

theorem Parses.forNil {env : Env} {p m t v} (he : env.forNil A G) (hp : p.forNil A G = true)
    (h : Parses env p .nil m t v) : NilVerdict A (m.seen A) v := by
  have hP : (topParser p).forNil A G = true := elab_forNil p hp rfl
  have hc := construct_nilOnly hP (⟨SingleForward.make t, m⟩ : World SingleForward Mem)
  cases h with
  | construct h => rw [h] at hc; cases hc; exact .error (by assumption)
  | error h1 h2 =>
    rw [h1] at hc
    cases hc with
    | ok h3 h4 =>
      obtain ⟨_, n, hn⟩ := h2
      have := run_nilOnly he n hP h3 ‹_›
      rw [hn] at this
      cases this
      exact .error (by assumption)
  | @ok st w _ _ _ _ h1 h2 _ =>
    rw [h1] at hc
    cases hc with
    | ok h3 h4 =>
      obtain ⟨_, n, hn⟩ := h2
      have := run_nilOnly he n hP h3 w
      rw [hn] at this
      cases this with
      | ok _ h5 => exact .ok (h5.trans h4)

theorem Session.forNil {σ : Type} [DataSource σ] {add : σ → List Ch → Bool → Option σ} {env : Env}
    {p : Prog} (he : env.forNil A G) (hp : p.forNil A G = true) {st w ops v}
    (h : Session add env p .nil st w ops v) (hst : st.In (· = .nil)) : NilVerdict A (w.mem.seen A) v := by
  induction h with
  | nil _ => exact .ok rfl
  | addBad _ => exact .error rfl
  | add _ _ ih => exact ih hst
  | @error st w _ _ h =>
    obtain ⟨_, n, hn⟩ := h
    have := run_nilOnly he n hp hst w
    rw [hn] at this
    cases this
    exact .error (by assumption)
  | @verdict st w _ _ _ _ _ h _ _ =>
    obtain ⟨_, n, hn⟩ := h
    have := run_nilOnly he n hp hst w
    rw [hn] at this
    cases this with
    | ok _ h5 => exact .ok h5
  | @more st w _ _ _ _ h _ ih =>
    obtain ⟨_, n, hn⟩ := h
    have := run_nilOnly he n hp hst w
    rw [hn] at this
    cases this with
    | ok h4 h5 =>
      have := ih h4
      rwa [h5] at this

theorem MakeParserRun.forNil {env : Env} {p m ops v} (he : env.forNil A G) (hp : p.forNil A G = true)
    (h : MakeParserRun env p .nil m ops v) : NilVerdict A (m.seen A) v := by
  have hP : (topParser p).forNil A G = true := elab_forNil p hp rfl
  have hc := construct_nilOnly hP (⟨ContainerSeq.make, m⟩ : World ContainerSeq Mem)
  cases h with
  | construct h => rw [h] at hc; cases hc; exact .error (by assumption)
  | run h1 h2 =>
    rw [h1] at hc
    cases hc with
    | ok h3 h4 =>
      have := h2.forNil he hP h3
      rwa [h4] at this

/-- Whatever any destination gives, `nil` gives. -/
theorem Parses.nil_of {env : Env} {p dst m t r m' rest} (he : env.forNil A G) (hp : p.forNil A G = true)
    (h : Parses env p dst m t (.ok (r, m', rest))) (m0 : Mem) :
    ∃ m1, Parses env p .nil m0 t (.ok (r, m1, rest)) := by
  rcases h.ghost_id.real_id .nil m0 with h | ⟨e, h1, h2⟩
  · exact h
  · have := h2.forNil he hp
    cases this with
    | error h => rw [h1] at h; cases h

end Abu
