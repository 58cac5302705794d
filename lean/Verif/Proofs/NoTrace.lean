import Verif.Proofs.Location
import Verif.Proofs.Valued
import Verif.Spec.Apply
/-
Parsers that write nothing unless they succeed.
-/
namespace Abu

mutual
/-- Does the parser write its destination only when it succeeds? -/
def Prog.af : Prog → Bool
  | .int .. => false
  | .uint .. => false
  | .seq .. => false
  | .rep .. => false
  | .list .. => false
  | .recur .. => false
  | .bindDst _ => false
  | .alt ps => Prog.afs ps
  | .opt p => p.af
  | .not p => p.silent
  | .lexeme p => p.af
  | .except op _ => op.af
  | .withSkipper p => p.af
  | .clean p => p.af
  | .skip _ p => p.af
  | _ => true
/-- For all of a list. -/
def Prog.afs : List Prog → Bool
  | [] => true
  | p :: ps => p.af && Prog.afs ps
end

theorem Prog.afs_get {ps : List Prog} {i : Nat} {p : Prog} (h : Prog.afs ps = true)
    (hp : ps[i]? = some p) : p.af = true := by
  induction ps generalizing i with
  | nil => cases hp
  | cons q ps ih =>
    simp only [Prog.afs, Bool.and_eq_true] at h
    cases i with
    | zero => cases hp; exact h.1
    | succ i => exact ih h.2 hp

theorem mk_af {S C} (hS : Region S) (p : Prog) (dst bnd : Ref) (hd : p.af = true) :
    Uses S C (fun st => st.In S) (mk p dst bnd) := by
  cases p with
  | alt ps =>
    cases ps with
    | nil => exact .fault _
    | cons p ps => 
      simp only [mk]
      exact (mk_af hS p dst bnd (Prog.afs_get (i := 0) hd rfl)).bind fun _ h => .pure h
  | opt p => simp only [mk]; exact (mk_af hS p dst bnd hd).bind fun _ h => .prepare (.pure h)
  | lexeme p => simp only [mk]; exact (mk_af hS p dst bnd hd).bind fun _ h => .pure h
  | withSkipper p => simp only [mk]; exact (mk_af hS p dst bnd hd).bind fun _ h => .pure h
  | clean p => simp only [mk]; exact (mk_af hS p dst bnd hd).bind fun _ h => .prepare (.pure h)
  | skip s p =>
    simp only [mk]
    exact (mk_uses hS s _ _ (.inl hS.nil)).bind fun _ h1 =>
      (mk_af hS p dst bnd hd).bind fun _ h => .pure ⟨h1, h⟩
  | not p =>
    simp only [mk]
    exact (mk_uses hS p _ _ (.inr hd)).bind fun _ h => .prepare (.pure h)
  | except op neg =>
    simp only [mk]
    exact (mk_uses hS neg _ _ (.inl hS.nil)).bind fun _ h => .pure h
  | discard p =>
    simp only [mk]
    exact (mk_uses hS p _ _ (.inl hS.nil)).bind fun _ h => .pure h
  | construct tys p =>
    simp only [mk]
    exact .alloc fun r hr => (mk_uses hS p _ _ (.inl hr)).bind fun _ h => .pure ⟨hr, h⟩
  | action a p =>
    simp only [mk]
    exact .alloc fun r hr => (mk_uses hS p _ _ (.inl hr)).bind fun _ h => .pure ⟨hr, h⟩
  | atomic p =>
    simp only [mk]
    exact .alloc fun r hr => (mk_uses hS p _ _ (.inl hr)).bind fun _ h => .pure ⟨hr, h⟩
  | char _ => exact .pure trivial
  | charSymbol _ => exact .pure trivial
  | strLit _ => exact .pure trivial
  | symbol _ => exact .pure trivial
  | eoi => exact .pure trivial
  | pass => exact .pure trivial
  | fail => exact .pure trivial
  | int _ _ _ => cases hd
  | uint _ _ _ => cases hd
  | seq _ _ => cases hd
  | rep _ _ _ => cases hd
  | list _ _ => cases hd
  | recur _ _ => cases hd
  | bindDst _ => cases hd

/-- Is it not the call of an action? -/
def MemOp.still : MemOp → Bool
  | .act .. => false
  | _ => true

/-- All ends of the command are `return SUCCESS`, and it calls no action. -/
inductive Succ : Cmd Step → Prop
  | ret (st) : Succ (retS .SUCCESS st)
  | mem {o k} : o.still = true → Succ k → Succ (.mem o k)
  | advance {k} : Succ k → Succ (.advance k)
  | commit {k} : Succ k → Succ (.commit k)
  | cancel {k} : Succ k → Succ (.cancel k)

/-- The command writes outside `S` only if it ends with `return SUCCESS`, and calls no action after
that. -/
inductive Neat (env : Env) (S : Ref → Prop) : Cmd Step → Prop
  | succ {k} : Succ k → Neat env S k
  | act {a l d b st} : S l → (a.param = true → S b) →
      Neat env S (.mem (.act a l d b) (retS .SUCCESS st))
  | pure {a} : a.In S → Neat env S (.pure a)
  | fault (e) : Neat env S (.fault e)
  | isEmpty {k} : (∀ b, Neat env S (k b)) → Neat env S (.isEmpty k)
  | isFinal {k} : (∀ b, Neat env S (k b)) → Neat env S (.isFinal k)
  | next {k} : (∀ b, Neat env S (k b)) → Neat env S (.next k)
  | advance {k} : Neat env S k → Neat env S (.advance k)
  | prepare {k} : Neat env S k → Neat env S (.prepare k)
  | commit {k} : Neat env S k → Neat env S (.commit k)
  | cancel {k} : Neat env S k → Neat env S (.cancel k)
  | bind {x : Cmd PState} {k} : Uses S (fun _ _ _ => False) (fun st => st.In S) x →
      (∀ st, st.In S → Neat env S (k st)) → Neat env S (x.bind k)
  | call {p d b st k} : CallOK env S p d b → st.In S → (∀ r s, s.In S → Neat env S (k r s)) →
      Neat env S (.call p d b st k)
  | callAf {p d b st k} : p.af = true → BndOK env S p b → st.In S →
      (∀ s, Succ (k .SUCCESS s)) → (∀ r s, r ≠ .SUCCESS → s.In S → Neat env S (k r s)) →
      Neat env S (.call p d b st k)

theorem guarded_neat {env S st A} {B : Ch → Cmd Step} (hst : st.In S) (hA : Neat env S A)
    (hB : ∀ c, Neat env S (B c)) : Neat env S (guarded st A B) := by
  refine .isEmpty fun e => ?_
  split
  · refine .isFinal fun f => ?_
    split
    · exact hA
    · exact .pure hst
  · exact .next hB

theorem pass_neat {env S p d b st} {f : PState → PState} (h : p.af = true) (hb : BndOK env S p b)
    (hst : st.In S) (hf : ∀ c, c.In S → (f c).In S) :
    Neat env S (.call p d b st fun r c' => retS r (f c')) :=
  .callAf h hb hst (fun _ => .ret _) fun _ _ _ hs => .pure (hf _ hs)

theorem body_af {env S} (hS : Region S) (p : Prog) (dst bnd : Ref) (st : PState) (hd : p.af = true)
    (hb : BndOK env S p bnd) (hst : st.In S) : Neat env S (body env p dst bnd st) := by
  unfold body
  split
  -- char
  · refine guarded_neat trivial (.pure trivial) fun c => ?_
    split
    · exact .succ (.mem rfl (.advance (.ret _)))
    · exact .pure trivial
  -- charSymbol
  · refine guarded_neat trivial (.pure trivial) fun c => ?_
    split
    · exact .pure trivial
    · exact .succ (.mem rfl (.ret _))
  -- strLit
  · split
    · exact .pure trivial
    · refine guarded_neat trivial (.pure trivial) fun c => ?_
      split
      · exact .advance (.pure trivial)
      · exact .pure trivial
  -- symbol
  · rename_i n v
    have hhit : ∀ {n' x v}, Neat env S
        (if (Node.child n').isEmpty then .mem (.assign dst x) (retS .SUCCESS (.symbol n' v))
          else .prepare (contS (.symbol n' (some x)))) := by
      intro n' x v
      split
      · exact .succ (.mem rfl (.ret _))
      · exact .prepare (.pure trivial)
    cases v with
    | none =>
      refine guarded_neat trivial (.pure trivial) fun c => ?_
      split
      · exact .pure trivial
      · refine .advance ?_
        rename_i n' _
        cases n'.val with
        | none => exact .pure trivial
        | some x => exact hhit
    | some y =>
      refine guarded_neat trivial (.succ (.mem rfl (.commit (.ret _)))) fun c => ?_
      split
      · exact .succ (.mem rfl (.commit (.ret _)))
      · refine .advance ?_
        rename_i n' _
        cases n'.val with
        | none => exact .pure trivial
        | some x => exact .cancel hhit
  -- uint, int
  · cases hd
  · cases hd
  -- eoi, pass, fail
  · exact guarded_neat trivial (.pure trivial) fun c => .pure trivial
  · exact .pure trivial
  · exact .pure trivial
  -- seq
  · cases hd
  -- alt
  · rename_i ps i c
    split
    · rename_i p hp
      refine .callAf (Prog.afs_get hd hp) (hb.sub fun h => Prog.quiets_get h hp) hst
        (fun s => .ret _) fun r s hr hs => ?_
      split
      · split
        · rename_i p' hp'
          exact .bind (mk_af hS _ _ _ (Prog.afs_get hd hp')) fun _ h => .pure h
        · exact .pure hs
      · exact .pure hs
    · exact .fault _
  -- rep
  · cases hd
  -- opt
  · refine .callAf hd (hb.sub id) hst (fun s => .ret _) fun r s hr hs => ?_
    split
    · exact .pure hs
    · exact .commit (.pure hs)
    · exact .pure hs
  -- not
  · refine .call ⟨.inr hd, hb.sub id⟩ hst fun r s hs => ?_
    split
    · exact .commit (.pure hs)
    · exact .commit (.pure hs)
    · exact .pure hs
  -- discard, lexeme, bindDst
  · exact .call ⟨.inl hS.nil, hb.sub id⟩ hst fun r s hs => .pure hs
  · exact pass_neat hd (hb.sub id) hst fun _ h => h
  · cases hd
  -- construct
  · refine .call ⟨.inl hst.1, hb.sub id⟩ hst.2 fun r s hs => ?_
    split
    · exact .succ (.mem rfl (.ret _))
    · exact .pure ⟨hst.1, hs⟩
  -- action
  · refine .call ⟨.inl hst.1,
      hb.sub fun h => by simp only [Prog.quiet, Bool.and_eq_true] at h; exact h.2⟩
      hst.2 fun r s hs => ?_
    split
    · refine .act hst.1 fun hp => hb.elim id fun hq => ?_
      have := hq.1
      simp only [Prog.quiet, Bool.and_eq_true, hp] at this
      simp at this
    · exact .pure ⟨hst.1, hs⟩
  -- except
  · refine .call ⟨.inl hS.nil,
      hb.sub fun h => by simp only [Prog.quiet, Bool.and_eq_true] at h; exact h.2⟩
      hst fun r s hs => ?_
    split
    · exact .pure hs
    · exact .pure hs
    · exact .bind (mk_af hS _ _ _ hd) fun _ h => .pure h
  · exact pass_neat hd
      (hb.sub fun h => by simp only [Prog.quiet, Bool.and_eq_true] at h; exact h.1) hst
      fun _ h => h
  -- list
  · cases hd
  · cases hd
  -- withSkipper
  · exact pass_neat hd (hb.sub id) hst fun _ h => h
  -- recur
  · cases hd
  · cases hd
  -- atomic
  · refine .call ⟨.inl hst.1, hb.sub id⟩ hst.2 fun r s hs => ?_
    split
    · exact .succ (.mem rfl (.ret _))
    · exact .pure ⟨hst.1, hs⟩
  -- clean
  · refine .callAf hd (hb.sub id) hst (fun s => .cancel (.ret _)) fun r s hr hs => ?_
    split
    · exact .cancel (.pure hs)
    · exact .commit (.pure hs)
    · exact .pure hs
  -- skip
  · refine .call ⟨.inl hS.nil, .inl hS.nil⟩ hst.1 fun r s hs => ?_
    split
    · exact .bind (mk_uses hS _ _ _ (.inl hS.nil)) fun _ h => .pure ⟨h, hst.2⟩
    · exact .pure ⟨hs, hst.2⟩
    · exact .pure ⟨hs, hst.2⟩
  · exact pass_neat hd
      (hb.sub fun h => by simp only [Prog.quiet, Bool.and_eq_true] at h; exact h.2) hst.2
      fun _ h => ⟨hst.1, h⟩
  · exact .fault _

section
variable {σ : Type} [DataSource σ] {S : Ref → Prop} {J : Mem → Prop}

theorem exec_succ {k : Cmd Step} (hk : Succ k)
    {call : Prog → Ref → Ref → PState → World σ Mem → Out σ Mem (Res × PState)} {w : World σ Mem}
    {a w'} (h : exec call k w = .ok (a, w')) : ∃ st, a = .ret .SUCCESS st := by
  induction hk generalizing w with
  | ret st => simp only [exec] at h; cases h; exact ⟨_, rfl⟩
  | mem _ _ ih =>
    simp only [exec] at h
    split at h
    · cases h
    · exact ih h
  | advance _ ih =>
    simp only [exec] at h
    split at h
    · cases h
    · exact ih h
  | commit _ ih =>
    simp only [exec] at h
    split at h
    · cases h
    · exact ih h
  | cancel _ ih =>
    simp only [exec] at h
    split at h
    · cases h
    · exact ih h

/-- A step that is not `return SUCCESS`. -/
def Step.notSucc : Step → Prop
  | .ret r _ => r ≠ .SUCCESS
  | .cont _ => True

theorem exec_neat {env : Env} (hJ : Keeps S J)
    {call : Prog → Ref → Ref → PState → World σ Mem → Out σ Mem (Res × PState)}
    (hc : ∀ p d b st w r st' w', CallOK env S p d b → st.In S → J w.mem →
      call p d b st w = .ok ((r, st'), w') → st'.In S ∧ J w'.mem)
    (hc' : ∀ p d b st w r st' w', p.af = true → BndOK env S p b → st.In S → J w.mem →
      call p d b st w = .ok ((r, st'), w') → r ≠ .SUCCESS → st'.In S ∧ J w'.mem)
    {x : Cmd Step} (hx : Neat env S x) {w : World σ Mem} (hw : J w.mem)
    {a w'} (h : exec call x w = .ok (a, w')) (ha : a.notSucc) : a.In S ∧ J w'.mem := by
  induction hx generalizing w with
  | succ hk => obtain ⟨st, rfl⟩ := exec_succ hk h; exact absurd rfl ha
  | act _ _ =>
    simp only [exec] at h
    split at h
    · cases h
    · cases h; exact absurd rfl ha
  | pure hq => simp only [exec] at h; cases h; exact ⟨hq, hw⟩
  | fault e => simp only [exec] at h; cases h
  | isEmpty _ ih => exact ih _ hw h
  | isFinal _ ih => exact ih _ hw h
  | next _ ih =>
    simp only [exec] at h
    split at h
    · cases h
    · exact ih _ hw h
  | advance _ ih =>
    simp only [exec] at h
    split at h
    · cases h
    · exact ih (w := ⟨_, w.mem⟩) (by exact hw) h
  | prepare _ ih => exact ih (w := ⟨_, w.mem⟩) (by exact hw) h
  | commit _ ih =>
    simp only [exec] at h
    split at h
    · cases h
    · exact ih (w := ⟨_, w.mem⟩) (by exact hw) h
  | cancel _ ih =>
    simp only [exec] at h
    split at h
    · cases h
    · exact ih (w := ⟨_, w.mem⟩) (by exact hw) h
  | bind hu _ ih =>
    rw [exec_bind] at h
    cases hx : exec call _ w with
    | error e => rw [hx] at h; cases h
    | ok y =>
      obtain ⟨s, w1⟩ := y
      rw [hx] at h
      obtain ⟨h1, h2⟩ := exec_uses hJ (fun _ _ _ _ _ _ _ _ hf => hf.elim) hu hw hx
      exact ih _ h1 h2 h
  | call h1 h2 _ ih =>
    simp only [exec] at h
    split at h
    · cases h
    · rename_i r s' w1 hcall
      obtain ⟨h4, h5⟩ := hc _ _ _ _ _ _ _ _ h1 h2 hw hcall
      exact ih _ _ h4 h5 h
  | callAf h1 h2 h3 h4 _ ih =>
    simp only [exec] at h
    split at h
    · cases h
    · rename_i r s' w1 hcall
      by_cases hr : r = .SUCCESS
      · subst hr
        obtain ⟨st, rfl⟩ := exec_succ (h4 _) h
        exact absurd rfl ha
      · obtain ⟨h4, h5⟩ := hc' _ _ _ _ _ _ _ _ h1 h2 h3 hw hcall hr
        exact ih _ _ hr h4 h5 h

theorem construct_af (hS : Region S) (hJ : Keeps S J) {p dst bnd} {w : World σ Mem}
    (hd : p.af = true) (hw : J w.mem) {st w'} (h : construct p dst bnd w = .ok (st, w')) :
    st.In S ∧ J w'.mem :=
  exec_uses (C := fun _ _ _ => True) hJ (fun _ _ _ _ _ _ _ _ _ _ _ h => by cases h)
    (mk_af hS p dst bnd hd) hw h

theorem run_af (hS : Region S) (hJ : Keeps S J) {env : Env} (n : Nat) {p dst bnd st}
    {w : World σ Mem} (hd : p.af = true) (hb : BndOK env S p bnd) (hst : st.In S) (hw : J w.mem)
    {r st' w'} (h : run env n p dst bnd st w = .ok ((r, st'), w')) (hr : r ≠ .SUCCESS) :
    st'.In S ∧ J w'.mem := by
  induction n generalizing p dst bnd st w r st' w' with
  | zero => cases h
  | succ n ih =>
    rw [run_succ_eq] at h
    cases hx : exec (run env n) (body env p dst bnd st) w with
    | error e => rw [hx] at h; cases h
    | ok y =>
      obtain ⟨s, w1⟩ := y
      have key : s.notSucc → s.In S ∧ J w1.mem := exec_neat hJ
        (fun p d b st w r st' w' a1 a2 a3 a4 => run_uses hS hJ n a1.1 a1.2 a2 a3 a4)
        (fun p d b st w r st' w' a1 a2 a3 a4 a5 a6 => ih a1 a2 a3 a4 a5 a6)
        (body_af hS p dst bnd st hd hb hst) hw hx
      rw [hx] at h
      cases s with
      | ret r2 st2 => cases h; exact key hr
      | cont st2 =>
        obtain ⟨h1, h2⟩ := key trivial
        exact ih hd hb h1 h2 h hr

end

/-! ### Uses of a parser -/

section
variable {σ : Type} [DataSource σ] {S : Ref → Prop} {J : Mem → Prop}

theorem Resumes.uses (hS : Region S) (hJ : Keeps S J) {env P dst bnd st} {w : World σ Mem} {r w'}
    (h : Resumes env P dst bnd st w r w') (hd : DstOK S P dst) (hb : BndOK env S P bnd)
    (hst : st.In S) (hw : J w.mem) : J w'.mem := by
  induction h with
  | last h _ =>
    obtain ⟨_, n, hn⟩ := h
    exact (run_uses hS hJ n hd hb hst hw hn).2
  | more h _ ih =>
    obtain ⟨_, n, hn⟩ := h
    obtain ⟨h1, h2⟩ := run_uses hS hJ n hd hb hst hw hn
    exact ih h1 h2

theorem Resumes.af (hS : Region S) (hJ : Keeps S J) {env P dst bnd st} {w : World σ Mem} {w'}
    (h : Resumes env P dst bnd st w .FAILURE w') (hd : P.af = true) (hb : BndOK env S P bnd)
    (hst : st.In S) (hw : J w.mem) : J w'.mem := by
  generalize hr : Res.FAILURE = r at h
  induction h with
  | last h _ =>
    subst hr
    obtain ⟨_, n, hn⟩ := h
    exact (run_af hS hJ n hd hb hst hw hn (by simp)).2
  | more h _ ih =>
    obtain ⟨_, n, hn⟩ := h
    obtain ⟨h1, h2⟩ := run_af hS hJ n hd hb hst hw hn (by simp)
    exact ih h1 h2 hr

theorem Used.extends_af {env P dst bnd} {w w' : World σ Mem}
    (h : Used env P dst bnd w .FAILURE w') (hd : P.af = true) (hq : P.quiet = true)
    (he : env.quiet) : w.mem.Extends w'.mem := by
  intro o v hv
  obtain ⟨st, w1, ds, hc, hr⟩ := h
  rw [← look_nil] at hv ⊢
  have hJ := misses_keeps o [] v
  have hS := misses_region o []
  obtain ⟨h1, h2⟩ := construct_af hS hJ hd hv hc
  exact Resumes.af hS hJ hr hd (.inr ⟨hq, he.prog⟩) h1 h2

theorem Used.extends_silent {env P dst bnd} {w w' : World σ Mem} {r}
    (h : Used env P dst bnd w r w') (hd : P.silent = true) (hq : P.quiet = true)
    (he : env.quiet) : w.mem.Extends w'.mem := by
  intro o v hv
  obtain ⟨st, w1, ds, hc, hr⟩ := h
  rw [← look_nil] at hv ⊢
  have hJ := misses_keeps o [] v
  have hS := misses_region o []
  obtain ⟨h1, h2⟩ := construct_uses hS hJ (.inr hd) hv hc
  exact Resumes.uses hS hJ hr (.inr hd) (.inr ⟨hq, he.prog⟩) h1 h2

/-- The part of memory a destination designates. -/
theorem Used.keeps_other {env P dst bnd} {w w' : World σ Mem} {r o q v}
    (h : Used env P dst bnd w r w') (hd : dst.Misses o q ∨ P.silent = true)
    (hq : P.quiet = true) (he : env.quiet) (hv : w.mem.look o q = .ok v) :
    w'.mem.look o q = .ok v := by
  obtain ⟨st, w1, ds, hc, hr⟩ := h
  have hJ := misses_keeps o q v
  have hS := misses_region o q
  obtain ⟨h1, h2⟩ := construct_uses hS hJ hd hv hc
  exact Resumes.uses hS hJ hr hd (.inr ⟨hq, he.prog⟩) h1 h2

end

/-! ### Patterns -/

theorem adapt_silent {sk raw : Prog} {c} (h : raw.silent = true) :
    (adapt sk false c raw).silent = true := by
  unfold adapt
  cases c <;> cases sk.isFail <;> simp [Prog.silent, h]

theorem adapt_af {sk raw : Prog} {a c} (h : a = true ∨ raw.af = true) :
    (adapt sk a c raw).af = true := by
  unfold adapt
  cases a <;> cases c <;> cases sk.isFail <;> simp_all [Prog.af]

theorem needsAtomic_false {r : Req} {p : Pat} (h : r.ATOMIC = false) : r.needsAtomic p = false := by
  simp [Req.needsAtomic, h]

theorem needsAtomic_false' {r : Req} {p : Pat} (h : p.ATOMIC = true) : r.needsAtomic p = false := by
  simp [Req.needsAtomic, h]

theorem lower_atomic {r : Req} {p : Pat} (h : r.needsAtomic p = false) :
    (r.lower p).ATOMIC = r.ATOMIC := by
  unfold Req.lower
  split
  · rfl
  · simp [h]

mutual
theorem silent_elab : ∀ (p : Pat) {sk r}, p.silent r.ATOMIC = true → (elabP sk r p).silent = true
  | .strLit _, _, _, _ => adapt_silent rfl
  | .eoi, _, _, _ => adapt_silent rfl
  | .pass, _, _, _ => adapt_silent rfl
  | .fail, _, _, _ => adapt_silent rfl
  | .discard p, sk, r, _ => by
    simp only [elabP, needsAtomic_false' (p := .discard p) rfl]
    exact adapt_silent rfl
  | .action a p, sk, r, h => by
    simp only [elabP, needsAtomic_false' (p := .action a p) rfl]
    exact adapt_silent h
  | .seq ps, sk, r, h => by
    simp only [Pat.silent, Bool.and_eq_true, Bool.not_eq_true'] at h
    simp only [elabP, needsAtomic_false (p := .seq ps) h.1]
    exact adapt_silent (silentSeq_elab ps h.2 _)
  | .alt ps, sk, r, h => by
    simp only [elabP, needsAtomic_false' (p := .alt ps) rfl]
    refine adapt_silent (silents_elab ps ?_)
    simp only [Req.derive, lower_atomic (r := r) (needsAtomic_false' (p := .alt ps) rfl)]
    exact h
  | .rep mn mx p, sk, r, h => by
    simp only [Pat.silent, Bool.and_eq_true, Bool.not_eq_true'] at h
    simp only [elabP, needsAtomic_false (p := .rep mn mx p) h.1]
    exact adapt_silent (silent_elab p h.2)
  | .list op sep, sk, r, h => by
    simp only [Pat.silent, Bool.and_eq_true, Bool.not_eq_true'] at h
    simp only [elabP, needsAtomic_false (p := .list op sep) h.1]
    exact adapt_silent (silent_elab op h.2)
  | .opt p, sk, r, h => by
    simp only [elabP, needsAtomic_false' (p := .opt p) rfl]
    exact adapt_silent (silent_elab p h)
  | .not p, sk, r, h => by
    simp only [elabP, needsAtomic_false' (p := .not p) rfl]
    exact adapt_silent (silent_elab p h)
  | .lexeme p, sk, r, h => by
    simp only [elabP, needsAtomic_false' (p := .lexeme p) rfl]
    refine adapt_silent (silent_elab p ?_)
    rwa [lower_atomic (needsAtomic_false' rfl)]
  | .except op neg, sk, r, h => by
    simp only [elabP, needsAtomic_false' (p := .except op neg) rfl]
    refine adapt_silent (silent_elab op ?_)
    simp only [Req.derive, lower_atomic (r := r) (needsAtomic_false' (p := .except op neg) rfl)]
    exact h
  | .withSkipper p s, sk, r, h => by
    have hn : r.needsAtomic (.withSkipper p s) = false := by
      cases hr : r.ATOMIC with
      | false => exact needsAtomic_false hr
      | true => exact needsAtomic_false' (silent_atomic p (by rwa [hr] at h))
    simp only [elabP, hn]
    refine adapt_silent (silent_elab p ?_)
    rwa [lower_atomic hn]
theorem silents_elab : ∀ (ps : List Pat) {sk r}, Pat.silents r.ATOMIC ps = true →
    Prog.silents (elabPs sk r ps) = true
  | [], _, _, _ => rfl
  | p :: ps, sk, r, h => by
    simp only [Pat.silents, Bool.and_eq_true] at h
    simp only [elabPs, Prog.silents, silent_elab p h.1, silents_elab ps h.2, Bool.and_self]
theorem silentSeq_elab : ∀ (ps : List Pat) {sk}, Pat.silentSeq ps = true → ∀ n,
    Prog.silentSeq (tupleSlots n ps) (elabPs sk ⟨false, false, false, false⟩ ps) = true
  | [], _, _, _ => rfl
  | p :: ps, sk, h, n => by
    simp only [Pat.silentSeq, Bool.and_eq_true, Bool.or_eq_true] at h
    simp only [tupleSlots]
    cases hb : p.dstBehavior with
    | IGNORE =>
      simp only [elabPs, Prog.silentSeq, silentSeq_elab ps h.2]
      rfl
    | VALUE =>
      have := h.1.resolve_left (by rw [valued_of_value hb]; decide)
      have hp := silent_elab p (sk := sk) (r := ⟨false, false, false, false⟩) this
      simp only [elabPs, Prog.silentSeq, silentSeq_elab ps h.2, hp, Bool.and_self, Bool.or_true]
theorem silent_atomic : ∀ (p : Pat), p.silent true = true → p.ATOMIC = true
  | .strLit _, _ => rfl
  | .eoi, _ => rfl
  | .pass, _ => rfl
  | .fail, _ => rfl
  | .discard _, _ => rfl
  | .action .., _ => rfl
  | .alt _, _ => rfl
  | .opt _, _ => rfl
  | .not _, _ => rfl
  | .lexeme _, _ => rfl
  | .except .., _ => rfl
  | .withSkipper p _, h => silent_atomic p h
end

theorem needsAtomic_true {r : Req} {p : Pat} (h1 : r.recurChild = false) (h2 : r.ATOMIC = true)
    (h3 : p.ATOMIC = false) : r.needsAtomic p = true := by
  simp [Req.needsAtomic, h1, h2, h3]

theorem lower_recurChild {r : Req} {p : Pat} : (r.lower p).recurChild = r.recurChild := by
  unfold Req.lower
  split <;> rfl

mutual
theorem af_elab : ∀ (p : Pat) {sk r}, (r.recurChild = true → r.ATOMIC = false) →
    p.traceless r.ATOMIC = true → (elabP sk r p).af = true
  | .char _, _, _, _, _ => adapt_af (.inr rfl)
  | .charSymbol _, _, _, _, _ => adapt_af (.inr rfl)
  | .strLit _, _, _, _, _ => adapt_af (.inr rfl)
  | .symbol _, _, _, _, _ => adapt_af (.inr rfl)
  | .eoi, _, _, _, _ => adapt_af (.inr rfl)
  | .pass, _, _, _, _ => adapt_af (.inr rfl)
  | .fail, _, _, _, _ => adapt_af (.inr rfl)
  | .discard _, _, _, _, _ => adapt_af (.inr rfl)
  | .construct .., _, _, _, _ => adapt_af (.inr rfl)
  | .action .., _, _, _, _ => adapt_af (.inr rfl)
  | .int .., _, r, hr, h => adapt_af (.inl (needsAtomic_true (by
      cases hc : r.recurChild with | false => rfl | true => rw [Pat.traceless, hr hc] at h; cases h) h rfl))
  | .uint .., _, r, hr, h => adapt_af (.inl (needsAtomic_true (by
      cases hc : r.recurChild with | false => rfl | true => rw [Pat.traceless, hr hc] at h; cases h) h rfl))
  | .seq _, _, r, hr, h => adapt_af (.inl (needsAtomic_true (by
      cases hc : r.recurChild with | false => rfl | true => rw [Pat.traceless, hr hc] at h; cases h) h rfl))
  | .rep .., _, r, hr, h => adapt_af (.inl (needsAtomic_true (by
      cases hc : r.recurChild with | false => rfl | true => rw [Pat.traceless, hr hc] at h; cases h) h rfl))
  | .list .., _, r, hr, h => adapt_af (.inl (needsAtomic_true (by
      cases hc : r.recurChild with | false => rfl | true => rw [Pat.traceless, hr hc] at h; cases h) h rfl))
  | .recur .., _, r, hr, h => adapt_af (.inl (needsAtomic_true (by
      cases hc : r.recurChild with | false => rfl | true => rw [Pat.traceless, hr hc] at h; cases h) h rfl))
  | .bindDst _, _, r, hr, h => adapt_af (.inl (needsAtomic_true (by
      cases hc : r.recurChild with | false => rfl | true => rw [Pat.traceless, hr hc] at h; cases h) h rfl))
  | .alt ps, sk, r, hr, h => by
    simp only [elabP]
    refine adapt_af (.inr (afs_elab ps (fun h => by simp [Req.derive] at h) ?_))
    simp only [Req.derive, lower_atomic (r := r) (needsAtomic_false' (p := .alt ps) rfl)]
    exact h
  | .opt p, sk, r, hr, h => by
    simp only [elabP]
    exact adapt_af (.inr (af_elab p (fun h => by simp at h) h))
  | .not p, sk, r, hr, h => by
    simp only [elabP]
    exact adapt_af (.inr (silent_elab p h))
  | .lexeme p, sk, r, hr, h => by
    simp only [elabP]
    refine adapt_af (.inr (af_elab p ?_ ?_))
    · rw [lower_recurChild, lower_atomic (needsAtomic_false' rfl)]; exact hr
    · rwa [lower_atomic (needsAtomic_false' rfl)]
  | .except op neg, sk, r, hr, h => by
    simp only [elabP]
    refine adapt_af (.inr (af_elab op (fun h => by simp [Req.derive] at h) ?_))
    simp only [Req.derive, lower_atomic (r := r) (needsAtomic_false' (p := .except op neg) rfl)]
    exact h
  | .withSkipper p s, sk, r, hr, h => by
    simp only [elabP]
    cases hn : r.needsAtomic (.withSkipper p s) with
    | true => exact adapt_af (.inl rfl)
    | false =>
      refine adapt_af (.inr (af_elab p ?_ ?_))
      · rw [lower_recurChild, lower_atomic hn]; exact hr
      · rwa [lower_atomic hn]
theorem afs_elab : ∀ (ps : List Pat) {sk r}, (r.recurChild = true → r.ATOMIC = false) →
    Pat.tracelesses r.ATOMIC ps = true → Prog.afs (elabPs sk r ps) = true
  | [], _, _, _, _ => rfl
  | p :: ps, sk, r, hr, h => by
    simp only [Pat.tracelesses, Bool.and_eq_true] at h
    simp only [elabPs, Prog.afs, af_elab p hr h.1, afs_elab ps hr h.2, Bool.and_self]
end

/-! ### Items -/

mutual
/-- Every item and optional operand in the parser writes only on success, and nothing writes
through the bound destination. -/
def Prog.itemsAf : Prog → Bool
  | .seq _ ps => Prog.allItemsAf ps
  | .alt ps => Prog.allItemsAf ps
  | .rep _ _ p => p.af && p.itemsAf
  | .opt p => p.af && p.itemsAf
  | .not p => p.itemsAf
  | .discard p => p.itemsAf
  | .lexeme p => p.itemsAf
  | .bindDst p => p.itemsAf
  | .construct _ p => p.itemsAf
  | .action _ p => p.itemsAf
  | .except op neg => op.itemsAf && neg.itemsAf
  | .list op sep => op.af && op.itemsAf && sep.itemsAf
  | .withSkipper p => p.itemsAf
  | .atomic p => p.itemsAf
  | .clean p => p.itemsAf
  | .skip s p => s.itemsAf && p.itemsAf
  | _ => true
/-- For all of a list. -/
def Prog.allItemsAf : List Prog → Bool
  | [] => true
  | p :: ps => p.itemsAf && Prog.allItemsAf ps
end

theorem Prog.allItemsAf_mem {ps : List Prog} (h : Prog.allItemsAf ps = true) {p : Prog} (hp : p ∈ ps) :
    p.itemsAf = true := by
  induction ps with
  | nil => cases hp
  | cons q ps ih =>
    simp only [Prog.allItemsAf, Bool.and_eq_true] at h
    cases hp with
    | head => exact h.1
    | tail _ hp => exact ih h.2 hp

theorem Prog.quiets_mem {ps : List Prog} (h : Prog.quiets ps = true) {p : Prog} (hp : p ∈ ps) :
    p.quiet = true := by
  induction ps with
  | nil => cases hp
  | cons q ps ih =>
    simp only [Prog.quiets, Bool.and_eq_true] at h
    cases hp with
    | head => exact h.1
    | tail _ hp => exact ih h.2 hp

theorem itemsAf_part {P Q : Prog} (h : Q.itemsAf = true) (hp : P ∈ Q.parts) : P.itemsAf = true := by
  cases Q <;> simp only [Prog.parts, List.mem_cons, List.not_mem_nil, or_false] at hp <;>
    simp only [Prog.itemsAf, Bool.and_eq_true] at h
  case seq => exact Prog.allItemsAf_mem h hp
  case alt => exact Prog.allItemsAf_mem h hp
  case except => exact hp.elim (fun e => e ▸ h.1) (fun e => e ▸ h.2)
  case list => exact hp.elim (fun e => e ▸ h.1.2) (fun e => e ▸ h.2)
  case skip => exact hp.elim (fun e => e ▸ h.1) (fun e => e ▸ h.2)
  case rep => subst hp; exact h.2
  case opt => subst hp; exact h.2
  all_goals subst hp; exact h

theorem quiet_part {P Q : Prog} (h : Q.quiet = true) (hp : P ∈ Q.parts) : P.quiet = true := by
  cases Q <;> simp only [Prog.parts, List.mem_cons, List.not_mem_nil, or_false] at hp <;>
    simp only [Prog.quiet, Bool.and_eq_true] at h
  case seq => exact Prog.quiets_mem h hp
  case alt => exact Prog.quiets_mem h hp
  case except => exact hp.elim (fun e => e ▸ h.1) (fun e => e ▸ h.2)
  case list => exact hp.elim (fun e => e ▸ h.1) (fun e => e ▸ h.2)
  case skip => exact hp.elim (fun e => e ▸ h.1) (fun e => e ▸ h.2)
  case action => subst hp; exact h.2
  all_goals subst hp; exact h

theorem Inside.itemsAf {P Q : Prog} (h : Inside P Q) (hQ : Q.itemsAf = true) : P.itemsAf = true := by
  induction h with
  | self => exact hQ
  | part hp _ ih => exact ih (itemsAf_part hQ hp)

theorem Inside.quiet {P Q : Prog} (h : Inside P Q) (hQ : Q.quiet = true) : P.quiet = true := by
  induction h with
  | self => exact hQ
  | part hp _ ih => exact ih (quiet_part hQ hp)

theorem Iterated.af {Q P : Prog} (h : Iterated Q P) (hP : P.itemsAf = true) : Q.af = true := by
  cases h <;> simp only [Prog.itemsAf, Bool.and_eq_true] at hP
  · exact hP.1
  · exact hP.1.1
  · exact hP.1

theorem Iterated.quiet {Q P : Prog} (h : Iterated Q P) (hP : P.quiet = true) : Q.quiet = true :=
  quiet_part hP (by cases h <;> simp [Prog.parts])

theorem adapt_itemsAf {sk raw : Prog} {a c} (hsk : sk.itemsAf = true) (h : raw.itemsAf = true) :
    (adapt sk a c raw).itemsAf = true := by
  unfold adapt
  cases a <;> cases c <;> cases sk.isFail <;> simp [Prog.itemsAf, h, hsk]

theorem skipper_itemsAf {sk : Prog} {r : Req} (h : sk.itemsAf = true) :
    (r.skipper sk).itemsAf = true := by
  unfold Req.skipper
  split
  · rfl
  · exact h

mutual
theorem traceless_of_lookaheads : ∀ (p : Pat), p.lookaheadsSilent = true → p.traceless true = true
  | .int .., _ => rfl
  | .uint .., _ => rfl
  | .seq _, _ => rfl
  | .rep .., _ => rfl
  | .list .., _ => rfl
  | .recur .., _ => rfl
  | .bindDst _, _ => rfl
  | .alt ps, h => tracelesses_of_lookaheads ps h
  | .opt p, h => traceless_of_lookaheads p h
  | .not p, h => by
    simp only [Pat.lookaheadsSilent, Bool.and_eq_true] at h
    exact h.1
  | .lexeme p, h => traceless_of_lookaheads p h
  | .except op _, h => by
    simp only [Pat.lookaheadsSilent, Bool.and_eq_true] at h
    exact traceless_of_lookaheads op h.1
  | .withSkipper p _, h => by
    simp only [Pat.lookaheadsSilent, Bool.and_eq_true] at h
    exact traceless_of_lookaheads p h.1
  | .char _, _ => rfl
  | .charSymbol _, _ => rfl
  | .strLit _, _ => rfl
  | .symbol _, _ => rfl
  | .eoi, _ => rfl
  | .pass, _ => rfl
  | .fail, _ => rfl
  | .discard _, _ => rfl
  | .construct .., _ => rfl
  | .action .., _ => rfl
theorem tracelesses_of_lookaheads : ∀ (ps : List Pat), Pat.allLookaheadsSilent ps = true →
    Pat.tracelesses true ps = true
  | [], _ => rfl
  | p :: ps, h => by
    simp only [Pat.allLookaheadsSilent, Bool.and_eq_true] at h
    simp only [Pat.tracelesses, traceless_of_lookaheads p h.1, tracelesses_of_lookaheads ps h.2,
      Bool.and_self]
end

mutual
theorem itemsAf_elab : ∀ (p : Pat) {sk r}, p.lookaheadsSilent = true → sk.itemsAf = true →
    (elabP sk r p).itemsAf = true
  | .seq ps, sk, r, h, hs => adapt_itemsAf (skipper_itemsAf hs) (allItemsAf_elab ps h hs)
  | .alt ps, sk, r, h, hs => adapt_itemsAf (skipper_itemsAf hs) (allItemsAf_elab ps h hs)
  | .rep mn mx p, sk, r, h, hs => by
    refine adapt_itemsAf (skipper_itemsAf hs) ?_
    simp only [Prog.itemsAf, Bool.and_eq_true]
    exact ⟨af_elab p (fun h => by simp at h) (traceless_of_lookaheads p h), itemsAf_elab p h hs⟩
  | .opt p, sk, r, h, hs => by
    refine adapt_itemsAf (skipper_itemsAf hs) ?_
    simp only [Prog.itemsAf, Bool.and_eq_true]
    exact ⟨af_elab p (fun h => by simp at h) (traceless_of_lookaheads p h), itemsAf_elab p h hs⟩
  | .not p, sk, r, h, hs => by
    simp only [Pat.lookaheadsSilent, Bool.and_eq_true] at h
    exact adapt_itemsAf (skipper_itemsAf hs) (itemsAf_elab p h.2 hs)
  | .discard p, sk, r, h, hs => adapt_itemsAf (skipper_itemsAf hs) (itemsAf_elab p h hs)
  | .lexeme p, sk, r, h, hs => adapt_itemsAf (skipper_itemsAf hs) (itemsAf_elab p h rfl)
  | .bindDst p, sk, r, h, hs => adapt_itemsAf (skipper_itemsAf hs) (itemsAf_elab p h hs)
  | .construct _ p, sk, r, h, hs => adapt_itemsAf (skipper_itemsAf hs) (itemsAf_elab p h hs)
  | .action _ p, sk, r, h, hs => adapt_itemsAf (skipper_itemsAf hs) (itemsAf_elab p h hs)
  | .except op neg, sk, r, h, hs => by
    simp only [Pat.lookaheadsSilent, Bool.and_eq_true] at h
    refine adapt_itemsAf (skipper_itemsAf hs) ?_
    simp only [Prog.itemsAf, itemsAf_elab op h.1 hs, itemsAf_elab neg h.2 hs, Bool.and_self]
  | .list op sep, sk, r, h, hs => by
    simp only [Pat.lookaheadsSilent, Bool.and_eq_true] at h
    refine adapt_itemsAf (skipper_itemsAf hs) ?_
    simp only [Prog.itemsAf, Bool.and_eq_true]
    exact ⟨⟨af_elab op (fun h => by simp at h) (traceless_of_lookaheads op h.1),
      itemsAf_elab op h.1 hs⟩, itemsAf_elab sep h.2 hs⟩
  | .withSkipper p s, sk, r, h, hs => by
    simp only [Pat.lookaheadsSilent, Bool.and_eq_true] at h
    exact adapt_itemsAf (skipper_itemsAf hs) (itemsAf_elab p h.1 (itemsAf_elab s h.2 rfl))
  | .recur _ _, sk, r, h, hs => adapt_itemsAf (skipper_itemsAf hs) rfl
  | .char _, sk, r, h, hs => adapt_itemsAf (skipper_itemsAf hs) rfl
  | .charSymbol _, sk, r, h, hs => adapt_itemsAf (skipper_itemsAf hs) rfl
  | .strLit _, sk, r, h, hs => adapt_itemsAf (skipper_itemsAf hs) rfl
  | .symbol _, sk, r, h, hs => adapt_itemsAf (skipper_itemsAf hs) rfl
  | .int .., sk, r, h, hs => adapt_itemsAf (skipper_itemsAf hs) rfl
  | .uint .., sk, r, h, hs => adapt_itemsAf (skipper_itemsAf hs) rfl
  | .eoi, sk, r, h, hs => adapt_itemsAf (skipper_itemsAf hs) rfl
  | .pass, sk, r, h, hs => adapt_itemsAf (skipper_itemsAf hs) rfl
  | .fail, sk, r, h, hs => adapt_itemsAf (skipper_itemsAf hs) rfl
theorem allItemsAf_elab : ∀ (ps : List Pat) {sk r}, Pat.allLookaheadsSilent ps = true →
    sk.itemsAf = true → Prog.allItemsAf (elabPs sk r ps) = true
  | [], _, _, _, _ => rfl
  | p :: ps, sk, r, h, hs => by
    simp only [Pat.allLookaheadsSilent, Bool.and_eq_true] at h
    simp only [elabPs, Prog.allItemsAf, itemsAf_elab p h.1 hs, allItemsAf_elab ps h.2 hs,
      Bool.and_self]
end

/-! ### Whole parses -/

theorem Session.uses {σ : Type} [DataSource σ] {add : σ → List Ch → Bool → Option σ} {env : Env}
    {p : Prog} {dst : Ref} {S J} (hS : Region S) (hJ : Keeps S J) (hd : DstOK S p dst)
    (hb : BndOK env S p dst) {st w ops v} (h : Session add env p dst st w ops v) {r m' rest}
    (hv : v = .ok (r, m', rest)) (hst : st.In S) (hw : J w.mem) : J m' := by
  induction h with
  | nil _ => cases hv; exact hw
  | addBad _ => cases hv
  | add _ _ ih => exact ih hv hst hw
  | error _ => cases hv
  | verdict h1 _ _ =>
    cases hv
    obtain ⟨_, n, hn⟩ := h1
    exact (run_uses hS hJ n hd hb hst hw hn).2
  | more h1 _ ih =>
    obtain ⟨_, n, hn⟩ := h1
    obtain ⟨h2, h3⟩ := run_uses hS hJ n hd hb hst hw hn
    exact ih hv h2 h3

theorem MakeParserRun.uses {env p dst m ops r m' rest S J} (hS : Region S) (hJ : Keeps S J)
    (hd : DstOK S (topParser p) dst) (hb : BndOK env S (topParser p) dst)
    (h : MakeParserRun env p dst m ops (.ok (r, m', rest))) (hw : J m) : J m' := by
  cases h with
  | run hc hs =>
    obtain ⟨h1, h2⟩ := construct_uses hS hJ hd (by exact hw) hc
    exact hs.uses hS hJ hd hb rfl h1 h2

theorem Parses.uses {env p dst m t r m' rest S J} (hS : Region S) (hJ : Keeps S J)
    (hd : DstOK S (topParser p) dst) (hb : BndOK env S (topParser p) dst)
    (h : Parses env p dst m t (.ok (r, m', rest))) (hw : J m) : J m' := by
  cases h with
  | ok hc he _ =>
    obtain ⟨h1, h2⟩ := construct_uses hS hJ hd (by exact hw) hc
    obtain ⟨_, n, hn⟩ := he
    exact (run_uses hS hJ n hd hb h1 h2 hn).2

end Abu
