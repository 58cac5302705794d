import Verif.Spec.Throws
import Verif.Proofs.NoTrace
import Verif.Proofs.Logs
import Verif.Proofs.Action
/-
Parsers whose actions throw run as others until the first call that throws.
-/
namespace Abu

theorem untilThrow_append (T : Throwing) (l a b : List LogEntry) :
    untilThrow T l (a ++ b) =
      match untilThrow T l a with
      | some x => some x
      | none => untilThrow T (l ++ a) b := by
  induction a generalizing l with
  | nil => simp [untilThrow]
  | cons c a ih =>
    simp only [List.cons_append, untilThrow]
    split
    · rfl
    · rw [ih]; simp

/-- None of the calls between the two histories throws. -/
def Calm (T : Throwing) (l l' : List LogEntry) : Prop :=
  ∃ cs, l' = l ++ cs ∧ untilThrow T l cs = none

/-- The last of the calls between the two histories is the first that throws. -/
def Cut (T : Throwing) (l l' : List LogEntry) : Prop :=
  ∃ cs, l' = l ++ cs ∧ untilThrow T l cs = some l'

theorem Calm.refl (T l) : Calm T l l := ⟨[], by simp, rfl⟩

theorem Calm.trans {T a b c} (h : Calm T a b) (h' : Calm T b c) : Calm T a c := by
  obtain ⟨x, rfl, hx⟩ := h
  obtain ⟨y, rfl, hy⟩ := h'
  exact ⟨x ++ y, by simp, by rw [untilThrow_append, hx]; exact hy⟩

theorem Calm.cut {T a b c} (h : Calm T a b) (h' : Cut T b c) : Cut T a c := by
  obtain ⟨x, rfl, hx⟩ := h
  obtain ⟨y, rfl, hy⟩ := h'
  exact ⟨x ++ y, by simp, by rw [untilThrow_append, hx]; exact hy⟩

theorem Cut.until {T l l'} (h : Cut T l l') {cs} (hp : l' <+: l ++ cs) : untilThrow T l cs = some l' := by
  obtain ⟨x, rfl, hx⟩ := h
  obtain ⟨y, hy⟩ := hp
  rw [List.append_assoc, List.append_cancel_left_eq] at hy
  rw [← hy, untilThrow_append, hx]

/-! ### One operation -/

theorem act_grows {m m' : Mem} {op : MemOp} (h : m.run op = .ok m') : m.log <+: m'.log := by
  by_cases hx : ∀ a l d b, op ≠ .act a l d b
  · rw [run_log_same hx h]; exact List.prefix_refl _
  · cases op with
    | act a l d b =>
      obtain ⟨v, _, _, hl⟩ := act_log (m := m) (m' := m') h
      rw [hl]; exact List.prefix_append _ _
    | _ => exact absurd (fun _ _ _ _ => by simp) hx

theorem act_void {m m' : Mem} {a : Act} {l d b} (h : m.act a l d b = .ok m') :
    ∃ m1, m.act { a with void := true } l .nil b = .ok m1 ∧ m1.log = m'.log := by
  rw [act_eq] at h ⊢
  have key : ∀ v bv, m.actWith a d b v bv = .ok m' →
      ∃ m1, m.actWith { a with void := true } .nil b v bv = .ok m1 ∧ m1.log = m'.log := by
    intro v bv h
    unfold Mem.actWith at h ⊢
    cases bv with
    | error e => cases h
    | ok bv =>
      simp only at h ⊢
      split at h
      · cases h
      · rename_i m2 hw
        refine ⟨m2, by simp, ?_⟩
        split at h
        · cases h; rfl
        · exact (assign_log h).symm
  cases hr : m.read l with
  | error e => rw [hr] at h; cases h
  | ok v =>
    rw [hr] at h
    cases v with
    | indet => cases h
    | _ => exact key _ _ h

/-- An operation that does not throw. -/
theorem throws_none {T : Throwing} {m m' : Mem} {op} (h : m.throws T op = none) (hr : m.run op = .ok m') :
    Calm T m.log m'.log := by
  by_cases hx : ∀ a l d b, op ≠ .act a l d b
  · rw [run_log_same hx hr]; exact .refl T _
  · cases op with
    | act a l d b =>
      obtain ⟨v, hv, hn, hl⟩ := act_log (m := m) (m' := m') hr
      refine ⟨_, hl, ?_⟩
      simp only [Mem.throws, hv] at h
      cases v with
      | indet => exact absurd rfl hn
      | _ =>
        split at h
        · cases h
        · rename_i ht; simp [untilThrow, ht]
    | _ => exact absurd (fun _ _ _ _ => by simp) hx

/-- An operation that throws. -/
theorem throws_some {T : Throwing} {m m1 : Mem} {op} (h : m.throws T op = some (.ok m1)) :
    ∃ a l d b, op = .act a l d b ∧ m.act { a with void := true } l .nil b = .ok m1 ∧
      Cut T m.log m1.log := by
  cases op with
  | act a l d b =>
    refine ⟨a, l, d, b, rfl, ?_⟩
    simp only [Mem.throws] at h
    cases hv : m.read l with
    | error e => simp [hv] at h
    | ok v =>
      have key : (if T a.id m.log v then some (m.act { a with void := true } l .nil b) else none)
          = some (.ok m1) → m.act { a with void := true } l .nil b = .ok m1 ∧ Cut T m.log m1.log := by
        intro h
        split at h
        · rename_i ht
          rw [Option.some.injEq] at h
          obtain ⟨v', hv', hn, hl⟩ := act_log h
          rw [hv] at hv'; cases hv'
          refine ⟨h, _, hl, ?_⟩
          simp only [untilThrow, ht, if_true]
          rw [hl]
        · cases h
      rw [hv] at h
      cases v with
      | indet => cases h
      | _ => exact key h
  | _ => cases h

section
variable {σ : Type} [DataSource σ]

/-! ### The history only grows -/

theorem exec_grows {f : Prog → Ref → Ref → PState → World σ Mem → Out σ Mem (Res × PState)}
    (hf : ∀ p d b st w y w', f p d b st w = .ok (y, w') → w.mem.log <+: w'.mem.log)
    {α : Type} (x : Cmd α) {w w' : World σ Mem} {a} (h : exec f x w = .ok (a, w')) :
    w.mem.log <+: w'.mem.log := by
  induction x generalizing w with
  | pure a => simp only [exec] at h; cases h; exact List.prefix_refl _
  | fault e => simp only [exec] at h; cases h
  | isEmpty k ih => exact ih _ h
  | isFinal k ih => exact ih _ h
  | next k ih =>
    simp only [exec] at h
    split at h
    · cases h
    · exact ih _ h
  | advance k ih =>
    simp only [exec] at h
    split at h
    · cases h
    · have := ih h; exact this
  | prepare k ih => simp only [exec] at h; have := ih h; exact this
  | commit k ih =>
    simp only [exec] at h
    split at h
    · cases h
    · have := ih h; exact this
  | cancel k ih =>
    simp only [exec] at h
    split at h
    · cases h
    · have := ih h; exact this
  | mem o k ih =>
    simp only [exec] at h
    split at h
    · cases h
    · rename_i m hm
      exact (act_grows hm).trans (ih (w := ⟨w.ds, m⟩) h)
  | alloc t k ih =>
    have := ih _ (w := ⟨w.ds, (w.mem.alloc t).2⟩) h
    have hl : (w.mem.alloc t).2.log = w.mem.log := by unfold Mem.alloc; split <;> rfl
    simpa only [hl] using this
  | call p d b s k ih =>
    simp only [exec] at h
    split at h
    · cases h
    · rename_i r s' w1 h1
      exact (hf _ _ _ _ _ _ _ h1).trans (ih _ _ h)

theorem run_grows {env : Env} (n : Nat) {p dst bnd st} {w w' : World σ Mem} {y}
    (h : run env n p dst bnd st w = .ok (y, w')) : w.mem.log <+: w'.mem.log := by
  induction n generalizing p dst bnd st w y w' with
  | zero => cases h
  | succ n ih =>
    rw [run_succ_eq] at h
    cases hx : exec (run env n) (body env p dst bnd st) w with
    | error e => rw [hx] at h; cases h
    | ok z =>
      obtain ⟨s, w1⟩ := z
      have h1 := exec_grows (fun _ _ _ _ _ _ _ h => ih h) _ hx
      rw [hx] at h
      cases s with
      | ret r2 st2 => cases h; exact h1
      | cont st2 => exact h1.trans (ih h)

/-! ### The two machines -/

/-- How the outcome with exceptions, from the history `l` on, relates to the one without. -/
inductive ThrowRel (T : Throwing) (l : List LogEntry) {α : Type} : OutT σ α → Out σ Mem α → Prop
  | error (e) : ThrowRel T l (.error (.err e)) (.error e)
  | ok (a w) : Calm T l w.mem.log → ThrowRel T l (.ok (a, w)) (.ok (a, w))
  | thrown {w y} : Cut T l w.mem.log → (∀ a w', y = .ok (a, w') → w.mem.log <+: w'.mem.log) →
      ThrowRel T l (.error (.thrown w)) y

omit [DataSource σ] in
theorem ThrowRel.calm {T : Throwing} {l l' : List LogEntry} {α : Type} {x : OutT σ α} {y : Out σ Mem α}
    (hl : Calm T l l') (h : ThrowRel T l' x y) : ThrowRel T l x y := by
  cases h with
  | error e => exact .error e
  | ok a w h => exact .ok a w (hl.trans h)
  | thrown h h' => exact .thrown (hl.cut h) h'

/-- A call that throws has no other errors than one that does not. -/
theorem throws_error_eq {T : Throwing} {m : Mem} {e op} (h : m.throws T op = some (.error e)) :
    m.run op = .error e := by
  cases op with
  | act a l d b =>
    simp only [Mem.throws] at h
    have key : m.act { a with void := true } l .nil b = .error e → m.act a l d b = .error e := by
      intro h
      rw [act_eq] at h ⊢
      have key : ∀ v bv, m.actWith { a with void := true } .nil b v bv = .error e →
          m.actWith a d b v bv = .error e := by
        intro v bv h
        unfold Mem.actWith at h ⊢
        cases bv with
        | error e => exact h
        | ok bv =>
          simp only at h ⊢
          split at h
          · rename_i hw; exact h
          · cases h
      cases hr : m.read l with
      | error e => rw [hr] at h; exact h
      | ok v =>
        rw [hr] at h
        cases v with
        | indet => exact h
        | _ => exact key _ _ h
    cases hv : m.read l with
    | error e => simp [hv] at h
    | ok v =>
      rw [hv] at h
      cases v with
      | indet => cases h
      | _ =>
        simp only at h
        split at h
        · rw [Option.some.injEq] at h; exact key h
        · cases h
  | _ => cases h

theorem exec_throws {T : Throwing}
    {f : Prog → Ref → Ref → PState → World σ Mem → Out σ Mem (Res × PState)}
    {g : Prog → Ref → Ref → PState → World σ Mem → OutT σ (Res × PState)}
    (hf : ∀ p d b st w y w', f p d b st w = .ok (y, w') → w.mem.log <+: w'.mem.log)
    (hg : ∀ p d b st w, ThrowRel T w.mem.log (g p d b st w) (f p d b st w))
    {α : Type} (x : Cmd α) (w : World σ Mem) :
    ThrowRel T w.mem.log (execT T g x w) (exec f x w) := by
  induction x generalizing w with
  | pure a => exact .ok a w (.refl T _)
  | fault e => exact .error e
  | isEmpty k ih => exact ih _ _
  | isFinal k ih => exact ih _ _
  | next k ih =>
    simp only [exec, execT]
    cases DataSource.next w.ds with
    | none => exact .error _
    | some c => exact ih _ _
  | advance k ih =>
    simp only [exec, execT]
    cases DataSource.advance w.ds with
    | none => exact .error _
    | some c => exact ih ⟨c, w.mem⟩
  | prepare k ih => exact ih ⟨DataSource.prepare w.ds, w.mem⟩
  | commit k ih =>
    simp only [exec, execT]
    cases DataSource.commit w.ds with
    | none => exact .error _
    | some c => exact ih ⟨c, w.mem⟩
  | cancel k ih =>
    simp only [exec, execT]
    cases DataSource.cancel w.ds with
    | none => exact .error _
    | some c => exact ih ⟨c, w.mem⟩
  | mem o k ih =>
    simp only [exec, execT]
    rw [show Store.op o w.mem = w.mem.run o from rfl]
    cases ht : w.mem.throws T o with
    | none =>
      cases hr : w.mem.run o with
      | error e => exact .error e
      | ok m => exact (ih ⟨w.ds, m⟩).calm (throws_none ht hr)
    | some y =>
      cases y with
      | error e => rw [throws_error_eq ht]; exact .error e
      | ok m1 =>
        obtain ⟨a, l, d, b, rfl, h1, h2⟩ := throws_some ht
        refine .thrown h2 fun y w' h => ?_
        cases hr : w.mem.run (.act a l d b) with
        | error e => rw [hr] at h; cases h
        | ok m2 =>
          rw [hr] at h
          obtain ⟨m3, h3, h4⟩ := act_void (m := w.mem) (m' := m2) hr
          rw [h1] at h3; cases h3
          change m1.log <+: _
          rw [h4]
          exact exec_grows hf k (w := ⟨w.ds, m2⟩) h
  | alloc t k ih =>
    have hl : (w.mem.alloc t).2.log = w.mem.log := by unfold Mem.alloc; split <;> rfl
    have := ih (w.mem.alloc t).1 ⟨w.ds, (w.mem.alloc t).2⟩
    simp only [hl] at this
    exact this
  | call p d b s k ih =>
    simp only [exec, execT]
    have h1 := hg p d b s w
    generalize g p d b s w = x at h1
    generalize f p d b s w = y at h1
    cases h1 with
    | error e => exact .error e
    | ok a w' hc => exact (ih _ _ w').calm hc
    | thrown hc hp =>
      refine .thrown hc fun a w' h => ?_
      cases y with
      | error e => cases h
      | ok z =>
        obtain ⟨⟨r, s'⟩, w2⟩ := z
        exact (hp _ _ rfl).trans (exec_grows hf _ h)

theorem run_throws {T : Throwing} {env : Env} (n : Nat) (p dst bnd st) (w : World σ Mem) :
    ThrowRel T w.mem.log (runT T env n p dst bnd st w) (run env n p dst bnd st w) := by
  induction n generalizing p dst bnd st w with
  | zero => exact .error _
  | succ n ih =>
    rw [run_succ_eq]
    have h1 := exec_throws (T := T) (fun _ _ _ _ _ _ _ h => run_grows n h) (fun p d b st w => ih p d b st w)
      (body env p dst bnd st) w
    simp only [runT]
    generalize execT T (runT T env n) (body env p dst bnd st) w = x at h1
    generalize exec (run env n) (body env p dst bnd st) w = y at h1
    cases h1 with
    | error e => exact .error e
    | ok a w' hc =>
      cases a with
      | ret r st' => exact .ok _ _ hc
      | cont st' => exact (ih p dst bnd st' w').calm hc
    | thrown hc hp =>
      refine .thrown hc fun a w' h => ?_
      cases y with
      | error e => cases h
      | ok z =>
        obtain ⟨s, w2⟩ := z
        have h2 := hp _ _ rfl
        cases s with
        | ret r st' => cases h; exact h2
        | cont st' => exact h2.trans (run_grows n h)

/-- Outcomes of `consume`. -/
theorem Evals.throws {T : Throwing} {env : Env} {p dst bnd st} {w : World σ Mem} {y}
    (h : Evals env p dst bnd st w y) :
    ∃ x, EvalsT T env p dst bnd st w x ∧ ThrowRel T w.mem.log x y := by
  obtain ⟨h1, n, rfl⟩ := h
  have h2 := run_throws (T := T) (env := env) n p dst bnd st w
  refine ⟨_, ⟨fun he => ?_, n, rfl⟩, h2⟩
  rw [he] at h2
  generalize run env n p dst bnd st w = y at *
  cases h2 with
  | error => exact h1 rfl

theorem construct_log {p dst bnd} {w w' : World σ Mem} {st} (h : construct p dst bnd w = .ok (st, w')) :
    w'.mem.log = w.mem.log := by
  have := exec_logs (S := fun _ => true) (A := fun _ => False) (fun _ h => h.elim)
    (fun _ _ _ _ _ _ _ _ h => by cases h) (mk_acting p dst bnd) h
  rwa [List.filter_eq_self.2 (by simp), List.filter_eq_self.2 (by simp)] at this

/-! ### What is left when an exception leaves -/

theorem ThrowRel.ok_eq {T : Throwing} {l} {α : Type} {a : α} {w : World σ Mem} {y : Out σ Mem α}
    (h : ThrowRel T l (.ok (a, w)) y) : y = .ok (a, w) := by
  cases h; rfl

theorem runT_ok {T : Throwing} {env : Env} {n p dst bnd st} {w : World σ Mem} {y}
    (h : runT T env n p dst bnd st w = .ok y) : run env n p dst bnd st w = .ok y := by
  have := run_throws (T := T) (env := env) n p dst bnd st w
  rw [h] at this
  exact this.ok_eq

section
variable {S : Ref → Prop} {J : Mem → Prop} {T : Throwing}

theorem Keeps.thrown (hJ : Keeps S J) {m m1 : Mem} {a l d b} (hl : S l) (hb : a.param = true → S b)
    (hm : J m) (h : m.throws T (.act a l d b) = some (.ok m1)) : J m1 := by
  obtain ⟨a', l', d', b', he, h1, _⟩ := throws_some h
  cases he
  refine hJ.op (o := .act { a with void := true } l .nil b) ⟨hl, ?_, hb⟩ hm h1
  intro h; cases h

theorem exec_usesT {C} (hJ : Keeps S J)
    {g : Prog → Ref → Ref → PState → World σ Mem → OutT σ (Res × PState)}
    (hc : ∀ p d b st w r st' w', C p d b → st.In S → J w.mem →
      g p d b st w = .ok ((r, st'), w') → st'.In S ∧ J w'.mem)
    (ht : ∀ p d b st w w', C p d b → st.In S → J w.mem →
      g p d b st w = .error (.thrown w') → J w'.mem)
    {α : Type} {Q : α → Prop} {x : Cmd α} (hx : Uses S C Q x) {w : World σ Mem} (hw : J w.mem)
    {w'} (h : execT T g x w = .error (.thrown w')) : J w'.mem := by
  induction hx generalizing w with
  | pure hq => simp only [execT] at h; cases h
  | fault e => simp only [execT] at h; cases h
  | isEmpty _ ih => exact ih _ hw h
  | isFinal _ ih => exact ih _ hw h
  | next _ ih =>
    simp only [execT] at h
    split at h
    · cases h
    · exact ih _ hw h
  | advance _ ih =>
    simp only [execT] at h
    split at h
    · cases h
    · exact ih (w := ⟨_, w.mem⟩) (by exact hw) h
  | prepare _ ih => exact ih (w := ⟨_, w.mem⟩) (by exact hw) h
  | commit _ ih =>
    simp only [execT] at h
    split at h
    · cases h
    · exact ih (w := ⟨_, w.mem⟩) (by exact hw) h
  | cancel _ ih =>
    simp only [execT] at h
    split at h
    · cases h
    · exact ih (w := ⟨_, w.mem⟩) (by exact hw) h
  | mem ho _ ih =>
    simp only [execT] at h
    split at h
    · cases h
    · rename_i m1 hm
      cases h
      obtain ⟨a, l, d, b, rfl, _⟩ := throws_some hm
      exact hJ.thrown ho.1 ho.2.2 hw hm
    · split at h
      · cases h
      · rename_i m hm
        exact ih (w := ⟨_, m⟩) (hJ.op ho hw hm) h
  | alloc _ ih => exact ih _ (hJ.alloc hw).1 (w := ⟨_, _⟩) (hJ.alloc hw).2 h
  | call h1 h2 _ ih =>
    simp only [execT] at h
    split at h
    · rename_i e hcall
      cases h
      exact ht _ _ _ _ _ _ h1 h2 hw hcall
    · rename_i r s' w1 hcall
      obtain ⟨h4, h5⟩ := hc _ _ _ _ _ _ _ _ h1 h2 hw hcall
      exact ih _ _ h4 h5 h

theorem run_usesT (hS : Region S) (hJ : Keeps S J) {env : Env} (n : Nat) {p dst bnd st}
    {w : World σ Mem} (hd : DstOK S p dst) (hb : BndOK env S p bnd) (hst : st.In S) (hw : J w.mem)
    {w'} (h : runT T env n p dst bnd st w = .error (.thrown w')) : J w'.mem := by
  induction n generalizing p dst bnd st w w' with
  | zero => cases h
  | succ n ih =>
    simp only [runT] at h
    have hu := body_uses hS p dst bnd st hd hb hst
    cases hx : execT T (runT T env n) (body env p dst bnd st) w with
    | error e =>
      rw [hx] at h; cases h
      exact exec_usesT hJ
        (fun p d b st w r st' w' a1 a2 a3 a4 => run_uses hS hJ n a1.1 a1.2 a2 a3 (runT_ok a4))
        (fun p d b st w w' a1 a2 a3 a4 => ih a1.1 a1.2 a2 a3 a4) hu hw hx
    | ok y =>
      obtain ⟨s, w1⟩ := y
      have hx' := exec_throws (T := T) (fun _ _ _ _ _ _ _ h => run_grows n h)
        (fun p d b st w => run_throws (env := env) n p d b st w) (body env p dst bnd st) w
      rw [hx] at hx'
      obtain ⟨h1, h2⟩ := exec_uses hJ
        (fun p d b st w r st' w' a1 a2 a3 a4 => run_uses hS hJ n a1.1 a1.2 a2 a3 a4) hu hw hx'.ok_eq
      rw [hx] at h
      cases s with
      | ret r2 st2 => cases h
      | cont st2 => exact ih hd hb h1 h2 h

theorem exec_succT {k : Cmd Step} (hk : Succ k)
    {g : Prog → Ref → Ref → PState → World σ Mem → OutT σ (Res × PState)} {w w' : World σ Mem} :
    execT T g k w ≠ .error (.thrown w') := by
  intro h
  induction hk generalizing w with
  | ret st => simp only [retS, execT] at h; cases h
  | @mem o k ho _ ih =>
    simp only [execT] at h
    split at h
    · cases h
    · rename_i hm
      obtain ⟨a, l, d, b, rfl, _⟩ := throws_some hm
      cases ho
    · split at h
      · cases h
      · exact ih h
  | advance _ ih =>
    simp only [execT] at h
    split at h
    · cases h
    · exact ih h
  | commit _ ih =>
    simp only [execT] at h
    split at h
    · cases h
    · exact ih h
  | cancel _ ih =>
    simp only [execT] at h
    split at h
    · cases h
    · exact ih h

theorem execT_bind {α β : Type} (g : Prog → Ref → Ref → PState → World σ Mem → OutT σ (Res × PState))
    (x : Cmd α) (k : α → Cmd β) (w : World σ Mem) :
    execT T g (x.bind k) w =
      match execT T g x w with
      | .error e => .error e
      | .ok (a, w') => execT T g (k a) w' := by
  induction x generalizing w with
  | pure a => rfl
  | fault e => rfl
  | isEmpty _ ih => exact ih _ _
  | isFinal _ ih => exact ih _ _
  | next _ ih =>
    simp only [Cmd.bind, execT]
    cases DataSource.next w.ds with
    | none => rfl
    | some c => exact ih _ _
  | advance _ ih =>
    simp only [Cmd.bind, execT]
    cases DataSource.advance w.ds with
    | none => rfl
    | some c => exact ih _
  | prepare _ ih => exact ih _
  | commit _ ih =>
    simp only [Cmd.bind, execT]
    cases DataSource.commit w.ds with
    | none => rfl
    | some c => exact ih _
  | cancel _ ih =>
    simp only [Cmd.bind, execT]
    cases DataSource.cancel w.ds with
    | none => rfl
    | some c => exact ih _
  | mem o _ ih =>
    simp only [Cmd.bind, execT]
    cases w.mem.throws T o with
    | none =>
      cases w.mem.run o with
      | error e => rfl
      | ok m => exact ih _
    | some y => cases y <;> rfl
  | alloc t _ ih => exact ih _ _
  | call p d b s _ ih =>
    simp only [Cmd.bind, execT]
    cases g p d b s w with
    | error e => rfl
    | ok y => exact ih _ _ _

theorem exec_neatT {env : Env} (hJ : Keeps S J)
    {f : Prog → Ref → Ref → PState → World σ Mem → Out σ Mem (Res × PState)}
    {g : Prog → Ref → Ref → PState → World σ Mem → OutT σ (Res × PState)}
    (hf : ∀ p d b st w y w', f p d b st w = .ok (y, w') → w.mem.log <+: w'.mem.log)
    (hg : ∀ p d b st w, ThrowRel T w.mem.log (g p d b st w) (f p d b st w))
    (hc : ∀ p d b st w r st' w', CallOK env S p d b → st.In S → J w.mem →
      g p d b st w = .ok ((r, st'), w') → st'.In S ∧ J w'.mem)
    (ht : ∀ p d b st w w', CallOK env S p d b → st.In S → J w.mem →
      g p d b st w = .error (.thrown w') → J w'.mem)
    (hc' : ∀ p d b st w r st' w', p.af = true → BndOK env S p b → st.In S → J w.mem →
      g p d b st w = .ok ((r, st'), w') → r ≠ .SUCCESS → st'.In S ∧ J w'.mem)
    (ht' : ∀ p d b st w w', p.af = true → BndOK env S p b → st.In S → J w.mem →
      g p d b st w = .error (.thrown w') → J w'.mem)
    {x : Cmd Step} (hx : Neat env S x) {w : World σ Mem} (hw : J w.mem)
    {w'} (h : execT T g x w = .error (.thrown w')) : J w'.mem := by
  induction hx generalizing w with
  | succ hk => exact absurd h (exec_succT hk)
  | act hl hb =>
    simp only [execT] at h
    split at h
    · cases h
    · rename_i m1 hm
      cases h
      exact hJ.thrown hl hb hw hm
    · split at h <;> cases h
  | pure hq => simp only [execT] at h; cases h
  | fault e => simp only [execT] at h; cases h
  | isEmpty _ ih => exact ih _ hw h
  | isFinal _ ih => exact ih _ hw h
  | next _ ih =>
    simp only [execT] at h
    split at h
    · cases h
    · exact ih _ hw h
  | advance _ ih =>
    simp only [execT] at h
    split at h
    · cases h
    · exact ih (w := ⟨_, w.mem⟩) (by exact hw) h
  | prepare _ ih => exact ih (w := ⟨_, w.mem⟩) (by exact hw) h
  | commit _ ih =>
    simp only [execT] at h
    split at h
    · cases h
    · exact ih (w := ⟨_, w.mem⟩) (by exact hw) h
  | cancel _ ih =>
    simp only [execT] at h
    split at h
    · cases h
    · exact ih (w := ⟨_, w.mem⟩) (by exact hw) h
  | @bind x k hu _ ih =>
    rw [execT_bind] at h
    cases hx : execT T g x w with
    | error e =>
      rw [hx] at h; cases h
      exact exec_usesT hJ (fun _ _ _ _ _ _ _ _ hf => hf.elim) (fun _ _ _ _ _ _ hf => hf.elim) hu hw hx
    | ok y =>
      obtain ⟨s, w1⟩ := y
      rw [hx] at h
      have hx' := exec_throws hf hg x w
      rw [hx] at hx'
      obtain ⟨h1, h2⟩ := exec_uses hJ (fun _ _ _ _ _ _ _ _ hf => hf.elim) hu hw hx'.ok_eq
      exact ih _ h1 h2 h
  | call h1 h2 _ ih =>
    simp only [execT] at h
    split at h
    · rename_i hcall; cases h; exact ht _ _ _ _ _ _ h1 h2 hw hcall
    · rename_i r s' w1 hcall
      obtain ⟨h4, h5⟩ := hc _ _ _ _ _ _ _ _ h1 h2 hw hcall
      exact ih _ _ h4 h5 h
  | callAf h1 h2 h3 h4 _ ih =>
    simp only [execT] at h
    split at h
    · rename_i hcall; cases h; exact ht' _ _ _ _ _ _ h1 h2 h3 hw hcall
    · rename_i r s' w1 hcall
      by_cases hr : r = .SUCCESS
      · subst hr
        exact absurd h (exec_succT (h4 _))
      · obtain ⟨h4, h5⟩ := hc' _ _ _ _ _ _ _ _ h1 h2 h3 hw hcall hr
        exact ih _ _ hr h4 h5 h

theorem run_afT (hS : Region S) (hJ : Keeps S J) {env : Env} (n : Nat) {p dst bnd st}
    {w : World σ Mem} (hd : p.af = true) (hb : BndOK env S p bnd) (hst : st.In S) (hw : J w.mem)
    {w'} (h : runT T env n p dst bnd st w = .error (.thrown w')) : J w'.mem := by
  induction n generalizing p dst bnd st w w' with
  | zero => cases h
  | succ n ih =>
    simp only [runT] at h
    have hu := body_af hS p dst bnd st hd hb hst
    have hf : ∀ p d b st (w : World σ Mem) y w', run env n p d b st w = .ok (y, w') →
      w.mem.log <+: w'.mem.log := fun _ _ _ _ _ _ _ h => run_grows n h
    have hg := fun p d b st w => run_throws (σ := σ) (T := T) (env := env) n p d b st w
    cases hx : execT T (runT T env n) (body env p dst bnd st) w with
    | error e =>
      rw [hx] at h; cases h
      exact exec_neatT hJ hf hg
        (fun p d b st w r st' w' a1 a2 a3 a4 => run_uses hS hJ n a1.1 a1.2 a2 a3 (runT_ok a4))
        (fun p d b st w w' a1 a2 a3 a4 => run_usesT hS hJ n a1.1 a1.2 a2 a3 a4)
        (fun p d b st w r st' w' a1 a2 a3 a4 a5 a6 => run_af hS hJ n a1 a2 a3 a4 (runT_ok a5) a6)
        (fun p d b st w w' a1 a2 a3 a4 a5 => ih a1 a2 a3 a4 a5) hu hw hx
    | ok y =>
      obtain ⟨s, w1⟩ := y
      have hx' := exec_throws hf hg (body env p dst bnd st) w
      rw [hx] at hx'
      rw [hx] at h
      cases s with
      | ret r2 st2 => cases h
      | cont st2 =>
        obtain ⟨h1, h2⟩ := exec_neat hJ
          (fun p d b st w r st' w' a1 a2 a3 a4 => run_uses hS hJ n a1.1 a1.2 a2 a3 a4)
          (fun p d b st w r st' w' a1 a2 a3 a4 a5 a6 => run_af hS hJ n a1 a2 a3 a4 a5 a6)
          hu hw hx'.ok_eq trivial
        exact ih hd hb h1 h2 h

end

end

/-! ### One outcome -/

section
variable {σ : Type} [DataSource σ] {T : Throwing}

/-- `g` does what `f` does, where `f` has steps enough. -/
def CallLeT (f g : Prog → Ref → Ref → PState → World σ Mem → OutT σ (Res × PState)) : Prop :=
  ∀ p d b s w, f p d b s w ≠ .error (.err .fuel) → g p d b s w = f p d b s w

theorem execT_mono {f g} (h : CallLeT f g) {α : Type} (c : Cmd α) (w : World σ Mem) :
    execT T f c w ≠ .error (.err .fuel) → execT T g c w = execT T f c w := by
  induction c generalizing w with
  | pure a => intro _; rfl
  | fault e => intro _; rfl
  | isEmpty k ih => simp only [execT]; exact ih _ _
  | isFinal k ih => simp only [execT]; exact ih _ _
  | next k ih => simp only [execT]; cases DataSource.next w.ds <;> simp <;> exact ih _ _
  | advance k ih => simp only [execT]; cases DataSource.advance w.ds <;> simp <;> exact ih _
  | prepare k ih => simp only [execT]; exact ih _
  | commit k ih => simp only [execT]; cases DataSource.commit w.ds <;> simp <;> exact ih _
  | cancel k ih => simp only [execT]; cases DataSource.cancel w.ds <;> simp <;> exact ih _
  | mem o k ih =>
    simp only [execT]
    cases w.mem.throws T o with
    | none => cases w.mem.run o <;> simp <;> exact ih _
    | some y => cases y <;> simp
  | alloc t k ih => simp only [execT]; exact ih _ _
  | call p d b s k ih =>
    simp only [execT]
    intro hne
    have hc : f p d b s w ≠ .error (.err .fuel) := by
      intro hc; rw [hc] at hne; exact hne rfl
    rw [h p d b s w hc]
    cases hf : f p d b s w with
    | error e => rfl
    | ok x => obtain ⟨⟨r, s'⟩, w'⟩ := x; rw [hf] at hne; exact ih _ _ _ hne

theorem runT_succ_eq (env : Env) (n : Nat) (p dst bnd st) (w : World σ Mem) :
    runT T env (n + 1) p dst bnd st w =
      match execT T (runT T env n) (body env p dst bnd st) w with
      | .error e => .error e
      | .ok (.ret r st', w') => .ok ((r, st'), w')
      | .ok (.cont st', w') => runT T env n p dst bnd st' w' := rfl

theorem runT_succ (env : Env) (n : Nat) :
    CallLeT (runT T env n : _ → _ → _ → _ → World σ Mem → _) (runT T env (n + 1)) := by
  induction n with
  | zero => intro p d b s w h; exact absurd rfl h
  | succ n ih =>
    intro p d b s w h
    rw [runT_succ_eq env (n + 1), runT_succ_eq env n] at *
    have hx : execT T (runT T env n) (body env p d b s) w ≠ .error (.err .fuel) := by
      intro hx; rw [hx] at h; exact h rfl
    rw [execT_mono ih _ _ hx]
    cases he : execT T (runT T env n) (body env p d b s) w with
    | error e => rfl
    | ok x =>
      obtain ⟨s', w'⟩ := x
      cases s' with
      | ret r st => rfl
      | cont st => rw [he] at h; exact ih _ _ _ _ _ h

theorem runT_mono (env : Env) {n m : Nat} (hnm : n ≤ m) :
    CallLeT (runT T env n : _ → _ → _ → _ → World σ Mem → _) (runT T env m) := by
  induction hnm with
  | refl => intro _ _ _ _ _ _; rfl
  | step _ ih =>
    intro p d b s w h
    rw [runT_succ env _ p d b s w (by rw [ih p d b s w h]; exact h), ih p d b s w h]

theorem EvalsT.unique {env : Env} {p dst bnd st} {w : World σ Mem} {o o'}
    (h : EvalsT T env p dst bnd st w o) (h' : EvalsT T env p dst bnd st w o') : o = o' := by
  obtain ⟨hn, n, rfl⟩ := h
  obtain ⟨hm, m, rfl⟩ := h'
  rcases Nat.le_total n m with h | h
  · exact (runT_mono env h _ _ _ _ _ hn).symm
  · exact runT_mono env h _ _ _ _ _ hm

theorem EvalsT.error {env : Env} {p dst bnd st} {w : World σ Mem} {e}
    (h : EvalsT T env p dst bnd st w (.error (.err e))) : Evals env p dst bnd st w (.error e) := by
  obtain ⟨hn, n, h⟩ := h
  have := run_throws (T := T) (env := env) n p dst bnd st w
  rw [h] at this
  generalize hy : run env n p dst bnd st w = y at this
  cases this with
  | error => exact ⟨by simpa using hn, n, hy⟩

theorem EvalsT.ok {env : Env} {p dst bnd st} {w : World σ Mem} {y}
    (h : EvalsT T env p dst bnd st w (.ok y)) :
    Evals env p dst bnd st w (.ok y) := by
  obtain ⟨hn, n, h⟩ := h
  exact ⟨by simp, n, runT_ok h⟩

theorem EvalsT.cut {env : Env} {p dst bnd st} {w w' : World σ Mem}
    (h : EvalsT T env p dst bnd st w (.error (.thrown w'))) : Cut T w.mem.log w'.mem.log := by
  obtain ⟨hn, n, h⟩ := h
  have := run_throws (T := T) (env := env) n p dst bnd st w
  rw [h] at this
  cases this with
  | thrown h _ => exact h

theorem EvalsT.calm {env : Env} {p dst bnd st} {w w' : World σ Mem} {y}
    (h : EvalsT T env p dst bnd st w (.ok (y, w'))) : Calm T w.mem.log w'.mem.log := by
  obtain ⟨hn, n, h⟩ := h
  have := run_throws (T := T) (env := env) n p dst bnd st w
  rw [h] at this
  generalize run env n p dst bnd st w = z at this
  cases this with
  | ok _ _ h => exact h

/-! ### Whole parses -/

/-- `ThrowRel` of verdicts. -/
inductive ThrowVerdict (T : Throwing) (l : List LogEntry) : VerdictT → Verdict → Prop
  | error (e) : ThrowVerdict T l (.ends (.error e)) (.error e)
  | ok (r m rest) : Calm T l m.log → ThrowVerdict T l (.ends (.ok (r, m, rest))) (.ok (r, m, rest))
  | thrown {m1 v} : Cut T l m1.log → (∀ r m rest, v = .ok (r, m, rest) → m1.log <+: m.log) →
      ThrowVerdict T l (.thrown m1) v

theorem ThrowVerdict.calm {l l' : List LogEntry} {v v'} (hl : Calm T l l')
    (h : ThrowVerdict T l' v v') : ThrowVerdict T l v v' := by
  cases h with
  | error e => exact .error e
  | ok r m rest h => exact .ok _ _ _ (hl.trans h)
  | thrown h h' => exact .thrown (hl.cut h) h'

theorem Parses.throws {env p dst m t v} (h : Parses env p dst m t v) :
    ∃ v', ParsesT T env p dst m t v' ∧ ThrowVerdict T m.log v' v := by
  cases h with
  | construct hc => exact ⟨_, .construct hc, .error _⟩
  | error hc he =>
    have hl := construct_log hc
    obtain ⟨x, hx, hr⟩ := he.throws (T := T)
    rw [hl] at hr
    cases hr with
    | error => exact ⟨_, .error hc hx, .error _⟩
    | thrown h1 h2 => exact ⟨_, .thrown hc hx, .thrown h1 fun _ _ _ h => by cases h⟩
  | ok hc he hrest =>
    have hl := construct_log hc
    obtain ⟨x, hx, hr⟩ := he.throws (T := T)
    rw [hl] at hr
    cases hr with
    | ok _ _ h => exact ⟨_, .ok hc hx hrest, .ok _ _ _ h⟩
    | thrown h1 h2 =>
      exact ⟨_, .thrown hc hx, .thrown h1 fun _ _ _ h => by cases h; exact h2 _ _ rfl⟩

theorem Session.grows {add : σ → List Ch → Bool → Option σ} {env : Env} {p : Prog} {dst : Ref}
    {st w ops v} (h : Session add env p dst st w ops v) {r m' rest} (hv : v = .ok (r, m', rest)) :
    w.mem.log <+: m'.log := by
  induction h with
  | nil _ => cases hv; exact List.prefix_refl _
  | addBad _ => cases hv
  | add _ _ ih => exact ih hv
  | error _ => cases hv
  | verdict h1 _ _ =>
    cases hv
    obtain ⟨_, n, hn⟩ := h1
    exact run_grows n hn
  | more h1 _ ih =>
    obtain ⟨_, n, hn⟩ := h1
    exact (run_grows n hn).trans (ih hv)

theorem Session.throws {add : σ → List Ch → Bool → Option σ} {env : Env} {p : Prog} {dst : Ref}
    {st w ops v} (h : Session add env p dst st w ops v) :
    ∃ v', SessionT T env add p dst st w ops v' ∧ ThrowVerdict T w.mem.log v' v := by
  induction h with
  | nil hr => exact ⟨_, .nil hr, .ok _ _ _ (.refl T _)⟩
  | addBad h => exact ⟨_, .addBad h, .error _⟩
  | add h _ ih => obtain ⟨v', h1, h2⟩ := ih; exact ⟨v', .add h h1, h2⟩
  | error he =>
    obtain ⟨x, hx, hr⟩ := he.throws (T := T)
    cases hr with
    | error => exact ⟨_, .error hx, .error _⟩
    | thrown h1 h2 => exact ⟨_, .thrown hx, .thrown h1 fun _ _ _ h => by cases h⟩
  | verdict he hne hrest =>
    obtain ⟨x, hx, hr⟩ := he.throws (T := T)
    cases hr with
    | ok _ _ h => exact ⟨_, .verdict hx hne hrest, .ok _ _ _ h⟩
    | thrown h1 h2 =>
      exact ⟨_, .thrown hx, .thrown h1 fun _ _ _ h => by cases h; exact h2 _ _ rfl⟩
  | more he hs ih =>
    obtain ⟨x, hx, hr⟩ := he.throws (T := T)
    cases hr with
    | ok _ _ h =>
      obtain ⟨v', h3, h4⟩ := ih
      exact ⟨v', .more hx h3, h4.calm h⟩
    | thrown h1 h2 =>
      exact ⟨_, .thrown hx, .thrown h1 fun _ _ _ h => (h2 _ _ rfl).trans (hs.grows h)⟩

theorem MakeParserRun.throws {env p dst m ops v} (h : MakeParserRun env p dst m ops v) :
    ∃ v', MakeParserRunT T env p dst m ops v' ∧ ThrowVerdict T m.log v' v := by
  cases h with
  | construct hc => exact ⟨_, .construct hc, .error _⟩
  | run hc hs =>
    obtain ⟨v', h1, h2⟩ := hs.throws (T := T)
    rw [construct_log hc] at h2
    exact ⟨v', .run hc h1, h2⟩

theorem ParsesT.unique {env p dst m t v v'} (h : ParsesT T env p dst m t v)
    (h' : ParsesT T env p dst m t v') : v = v' := by
  cases h with
  | construct hc => cases h' <;> (rename_i hc' <;> simp_all)
  | error hc he =>
    cases h' with
    | construct hc' => rw [hc] at hc'; cases hc'
    | error hc' he' => rw [hc] at hc'; cases hc'; cases he.unique he'; rfl
    | thrown hc' he' => rw [hc] at hc'; cases hc'; cases he.unique he'
    | ok hc' he' _ => rw [hc] at hc'; cases hc'; cases he.unique he'
  | thrown hc he =>
    cases h' with
    | construct hc' => rw [hc] at hc'; cases hc'
    | error hc' he' => rw [hc] at hc'; cases hc'; cases he.unique he'
    | thrown hc' he' => rw [hc] at hc'; cases hc'; cases he.unique he'; rfl
    | ok hc' he' _ => rw [hc] at hc'; cases hc'; cases he.unique he'
  | ok hc he hr =>
    cases h' with
    | construct hc' => rw [hc] at hc'; cases hc'
    | error hc' he' => rw [hc] at hc'; cases hc'; cases he.unique he'
    | thrown hc' he' => rw [hc] at hc'; cases hc'; cases he.unique he'
    | ok hc' he' hr' => rw [hc] at hc'; cases hc'; cases he.unique he'; rw [hr.unique hr']

theorem SessionT.unique {add : σ → List Ch → Bool → Option σ} {env : Env} {p : Prog} {dst : Ref}
    {st w ops v v'} (h : SessionT T env add p dst st w ops v)
    (h' : SessionT T env add p dst st w ops v') : v = v' := by
  induction h generalizing v' with
  | nil hr => cases h' with | nil hr' => rw [hr.unique hr']
  | addBad h =>
    cases h' with
    | addBad _ => rfl
    | add h2 _ => rw [h] at h2; cases h2
  | add h _ ih =>
    cases h' with
    | addBad h2 => rw [h] at h2; cases h2
    | add h2 h3 => rw [h] at h2; cases h2; exact ih h3
  | error he =>
    cases h' with
    | error he' => cases he.unique he'; rfl
    | thrown he' => cases he.unique he'
    | verdict he' _ _ => cases he.unique he'
    | more he' _ => cases he.unique he'
  | thrown he =>
    cases h' with
    | error he' => cases he.unique he'
    | thrown he' => cases he.unique he'; rfl
    | verdict he' _ _ => cases he.unique he'
    | more he' _ => cases he.unique he'
  | verdict he hne hr =>
    cases h' with
    | error he' => cases he.unique he'
    | thrown he' => cases he.unique he'
    | verdict he' _ hr' => cases he.unique he'; rw [hr.unique hr']
    | more he' _ => cases he.unique he'; exact absurd rfl hne
  | more he _ ih =>
    cases h' with
    | error he' => cases he.unique he'
    | thrown he' => cases he.unique he'
    | verdict he' hne _ => cases he.unique he'; exact absurd rfl hne
    | more he' h2 => cases he.unique he'; exact ih h2

theorem MakeParserRunT.unique {env p dst m ops v v'} (h : MakeParserRunT T env p dst m ops v)
    (h' : MakeParserRunT T env p dst m ops v') : v = v' := by
  cases h with
  | construct hc =>
    cases h' with
    | construct hc' => rw [hc] at hc'; cases hc'; rfl
    | run hc' _ => rw [hc] at hc'; cases hc'
  | run hc h1 =>
    cases h' with
    | construct hc' => rw [hc] at hc'; cases hc'
    | run hc' h2 => rw [hc] at hc'; cases hc'; exact h1.unique h2

theorem SessionT.wrong {add : σ → List Ch → Bool → Option σ} {env : Env} {p : Prog} {dst : Ref}
    {st w ops v e} (h : SessionT T env add p dst st w ops v) (hv : v = .ends (.error e)) :
    Session add env p dst st w ops (.error e) := by
  induction h with
  | nil _ => cases hv
  | addBad h => cases hv; exact .addBad h
  | add h _ ih => exact .add h (ih hv)
  | error he => cases hv; exact .error he.error
  | thrown _ => cases hv
  | verdict _ _ _ => cases hv
  | more he _ ih => exact .more he.ok (ih hv)

/-- Where the pattern writes only on success, nothing is written when an exception leaves. -/
theorem SessionT.af {S : Ref → Prop} {J : Mem → Prop} {add : σ → List Ch → Bool → Option σ}
    {env : Env} {p : Prog} {dst : Ref} (hS : Region S) (hJ : Keeps S J) (hd : p.af = true)
    (hb : BndOK env S p dst) {st w ops v} (h : SessionT T env add p dst st w ops v) {m1}
    (hv : v = .thrown m1) (hst : st.In S) (hw : J w.mem) : J m1 := by
  induction h with
  | nil _ => cases hv
  | addBad h => cases hv
  | add h _ ih => exact ih hv hst hw
  | error he => cases hv
  | thrown he =>
    cases hv
    obtain ⟨_, n, hn⟩ := he
    exact run_afT hS hJ n hd hb hst hw hn
  | verdict _ _ _ => cases hv
  | more he _ ih =>
    obtain ⟨_, n, hn⟩ := he.ok
    obtain ⟨h2, h3⟩ := run_af hS hJ n hd hb hst hw hn (by simp)
    exact ih hv h2 h3

theorem MakeParserRunT.af {S : Ref → Prop} {J : Mem → Prop} {env p dst m ops m1} (hS : Region S)
    (hJ : Keeps S J) (hd : (topParser p).af = true) (hb : BndOK env S (topParser p) dst)
    (h : MakeParserRunT T env p dst m ops (.thrown m1)) (hw : J m) : J m1 := by
  cases h with
  | run hc hs =>
    obtain ⟨h1, h2⟩ := construct_af hS hJ hd (by exact hw) hc
    exact hs.af hS hJ hd hb rfl h1 h2

theorem ParsesT.af {S : Ref → Prop} {J : Mem → Prop} {env p dst m t m1} (hS : Region S)
    (hJ : Keeps S J) (hd : (topParser p).af = true) (hb : BndOK env S (topParser p) dst)
    (h : ParsesT T env p dst m t (.thrown m1)) (hw : J m) : J m1 := by
  generalize hv : VerdictT.thrown m1 = v at h
  cases h with
  | construct => cases hv
  | error => cases hv
  | ok => cases hv
  | thrown hc he =>
    cases hv
    obtain ⟨h1, h2⟩ := construct_af hS hJ hd (by exact hw) hc
    obtain ⟨_, n, hn⟩ := he
    exact run_afT hS hJ n hd hb h1 h2 hn

end

/-- Evaluates `ParsesT` with `n` steps, when an exception leaves. -/
def thrownN (T : Throwing) (env : Env) (n : Nat) (p : Pat) (dst : Ref) (m : Mem) (t : List Ch) :
    Option Mem :=
  match construct (topParser p) dst dst (⟨SingleForward.make t, m⟩ : World SingleForward Mem) with
  | .error _ => none
  | .ok (st, w) =>
    match runT T env n (topParser p) dst dst st w with
    | .error (.thrown w') => some w'.mem
    | _ => none

theorem parsesT_of_thrownN {T env n p dst m t m1} (h : thrownN T env n p dst m t = some m1) :
    ParsesT T env p dst m t (.thrown m1) := by
  unfold thrownN at h
  split at h
  · cases h
  · rename_i hc
    split at h
    · rename_i hr; cases h; exact .thrown hc ⟨by simp, n, hr⟩
    · cases h

end Abu
