import Verif.Proofs.Acting
import Verif.Proofs.Below
/-
Parsers run likewise whatever the calls of other actions before.
-/
namespace Abu

/-- The same objects, another history. -/
def Mem.setLog (m : Mem) (L : List LogEntry) : Mem := ⟨m.objs, L⟩

/-- The same outcome, another history. -/
def relog (L : List LogEntry) : Except Err Mem → Except Err Mem
  | .error e => .error e
  | .ok m => .ok (m.setLog L)

theorem modify_relog (m : Mem) (L o p f) : (m.setLog L).modify o p f = relog L (m.modify o p f) := by
  unfold Mem.modify
  change (match m.objs[o]? with
    | none => _
    | some v => _) = _
  cases m.objs[o]? with
  | none => rfl
  | some v =>
    simp only
    cases Val.update f p v <;> rfl

theorem read_relog (m : Mem) (L r) : (m.setLog L).read r = m.read r := by
  cases r <;> rfl

theorem assign_relog (m : Mem) (L d v) : (m.setLog L).assign d v = relog L (m.assign d v) := by
  cases d with
  | nil => rfl
  | «at» o p t =>
    cases t with
    | coll t =>
      simp only [Mem.assign]
      cases t.convert v with
      | error e => rfl
      | ok e => exact modify_relog _ _ _ _ _
    | _ =>
      simp only [Mem.assign]
      split
      · rfl
      · exact modify_relog _ _ _ _ _

theorem onNum_relog (m : Mem) (L d f) : (m.setLog L).onNum d f = relog L (m.onNum d f) := by
  cases d with
  | nil => rfl
  | «at» o p t =>
    cases t with
    | num k => exact modify_relog _ _ _ _ _
    | _ => rfl

theorem run_relog (m : Mem) (L) {op : MemOp} (h : ∀ a l d b, op ≠ .act a l d b) :
    (m.setLog L).run op = relog L (m.run op) := by
  cases op with
  | zero d => exact onNum_relog _ _ _ _
  | mulAdd b c d =>
    simp only [Mem.run, Mem.mulAdd, Mem.mul, onNum_relog]
    cases m.onNum d _ with
    | error e => rfl
    | ok m1 => exact onNum_relog _ _ _ _
  | neg d => exact onNum_relog _ _ _ _
  | assign d v => exact assign_relog _ _ _ _
  | move d b =>
    simp only [Mem.run, Mem.assignFrom, read_relog]
    cases m.read b with
    | error e => rfl
    | ok v =>
      cases v with
      | indet => rfl
      | _ => exact assign_relog _ _ _ _
  | construct d b =>
    simp only [Mem.run, Mem.construct, read_relog]
    cases m.read b with
    | error e => rfl
    | ok v =>
      cases v with
      | tup args =>
        cases d with
        | nil =>
          simp only
          cases Ty.nil.makeFrom args <;> rfl
        | «at» o p t =>
          simp only
          cases t.makeFrom args with
          | error e => rfl
          | ok v => exact assign_relog _ _ _ _
      | _ => rfl
  | act a l d b => exact absurd rfl (h a l d b)

theorem setLog_self (m : Mem) : m.setLog m.log = m := rfl

theorem run_log_same {m m' : Mem} {op : MemOp} (h : ∀ a l d b, op ≠ .act a l d b)
    (hr : m.run op = .ok m') : m'.log = m.log := by
  have := run_relog m m.log h
  rw [setLog_self, hr] at this
  simp only [relog, Except.ok.injEq] at this
  rw [this]; rfl

/-- The same objects, and the calls of the actions in `S` are the same. -/
structure LogR (S : Nat → Bool) (m m' : Mem) : Prop where
  objs : m'.objs = m.objs
  log : m'.log.filter (fun e => S e.action) = m.log.filter (fun e => S e.action)

theorem LogR.eq {S m m'} (h : LogR S m m') : m' = m.setLog m'.log := by
  cases m'; cases m; cases h.objs; rfl

theorem LogR.symm {S m m'} (h : LogR S m m') : LogR S m' m := ⟨h.objs.symm, h.log.symm⟩

/-- Results of operations. -/
inductive LogOp (S : Nat → Bool) : Except Err Mem → Except Err Mem → Prop
  | error (e) : LogOp S (.error e) (.error e)
  | ok {m m'} : LogR S m m' → LogOp S (.ok m) (.ok m')

theorem relog_op {S L} {x : Except Err Mem} (h : ∀ m, x = .ok m →
    L.filter (fun e => S e.action) = m.log.filter (fun e => S e.action)) : LogOp S x (relog L x) := by
  cases x with
  | error e => exact .error e
  | ok m => exact .ok ⟨rfl, h m rfl⟩

theorem modify_log_same {m m' : Mem} {o p f} (h : m.modify o p f = .ok m') : m'.log = m.log := by
  have := modify_relog m m.log o p f
  rw [setLog_self, h] at this
  simp only [relog, Except.ok.injEq] at this
  rw [this]; rfl

theorem assign_log_same {m m' : Mem} {d v} (h : m.assign d v = .ok m') : m'.log = m.log := by
  have := assign_relog m m.log d v
  rw [setLog_self, h] at this
  simp only [relog, Except.ok.injEq] at this
  rw [this]; rfl

theorem actWith_logR {S m m'} (h : LogR S m m') {a : Act} (ha : a.Heeds S) (d b v bv) :
    LogOp S (m.actWith a d b v bv) (m'.actWith a d b v bv) := by
  unfold Mem.actWith
  cases bv with
  | error e => exact .error e
  | ok bv =>
    have hfn : a.fn m'.log v bv = a.fn m.log v bv := by rw [ha m'.log, ha m.log, h.log]
    have h1 : LogR S { m with log := m.log ++ [⟨a.id, v⟩] }
        { m' with log := m'.log ++ [⟨a.id, v⟩] } :=
      ⟨h.objs, by simp only [List.filter_append, h.log]⟩
    simp only [hfn]
    generalize ({ m with log := m.log ++ [⟨a.id, v⟩] } : Mem) = m1 at *
    generalize ({ m' with log := m'.log ++ [⟨a.id, v⟩] } : Mem) = m1' at *
    have h2 : LogOp S (m1.actWrite a.param b (a.fn m.log v bv).2)
        (m1'.actWrite a.param b (a.fn m.log v bv).2) := by
      unfold Mem.actWrite
      split
      · rw [h1.eq, modify_relog]
        exact relog_op fun m2 hm2 => by rw [modify_log_same hm2]; exact h1.log
      · exact .ok h1
    generalize m1.actWrite a.param b (a.fn m.log v bv).2 = x at *
    generalize m1'.actWrite a.param b (a.fn m.log v bv).2 = y at *
    cases h2 with
    | error e => exact .error e
    | ok h2 =>
      simp only
      split
      · exact .ok h2
      · rw [h2.eq, assign_relog]
        exact relog_op fun m3 hm3 => by rw [assign_log_same hm3]; exact h2.log

theorem run_logR {S m m'} (h : LogR S m m') {op : MemOp} (ho : op.Acts (Act.Heeds S)) :
    LogOp S (m.run op) (m'.run op) := by
  by_cases hx : ∀ a l d b, op ≠ .act a l d b
  · rw [h.eq, run_relog _ _ hx]
    exact relog_op fun m1 hm1 => by rw [run_log_same hx hm1]; exact h.log
  · cases op with
    | act a l d b =>
      simp only [Mem.run, act_eq]
      have hr : ∀ r, m'.read r = m.read r := fun r => by rw [h.eq, read_relog]
      rw [hr l, hr b]
      cases m.read l with
      | error e => exact .error e
      | ok v =>
        cases v with
        | indet => exact .error _
        | _ => exact actWith_logR h ho _ _ _ _
    | _ => exact absurd (fun _ _ _ _ => by simp) hx

theorem alloc_logR {S m m'} (h : LogR S m m') (t : Ty) :
    (m'.alloc t).1 = (m.alloc t).1 ∧ LogR S (m.alloc t).2 (m'.alloc t).2 := by
  unfold Mem.alloc
  cases t with
  | nil => exact ⟨rfl, h⟩
  | _ => exact ⟨by rw [h.objs], by simp only [h.objs], h.log⟩

/-- Outcomes. -/
inductive LogOut {σ α : Type} (S : Nat → Bool) : Out σ Mem α → Out σ Mem α → Prop
  | error (e) : LogOut S (.error e) (.error e)
  | ok (a ds) {m m'} : LogR S m m' → LogOut S (.ok (a, ⟨ds, m⟩)) (.ok (a, ⟨ds, m'⟩))

section
variable {σ : Type} [DataSource σ] {S : Nat → Bool}

theorem exec_logR {f : Prog → Ref → Ref → PState → World σ Mem → Out σ Mem (Res × PState)}
    (hc : ∀ p d b st ds m m', p.Acts (Act.Heeds S) → LogR S m m' →
      LogOut S (f p d b st ⟨ds, m⟩) (f p d b st ⟨ds, m'⟩))
    {α : Type} {x : Cmd α} (hx : Acting (Act.Heeds S) x) {ds m m'}
    (h : LogR S m m') : LogOut S (exec f x ⟨ds, m⟩) (exec f x ⟨ds, m'⟩) := by
  induction hx generalizing ds m m' with
  | pure a => exact .ok _ _ h
  | fault e => exact .error _
  | isEmpty _ ih => exact ih _ h
  | isFinal _ ih => exact ih _ h
  | next _ ih =>
    simp only [exec]
    cases DataSource.next ds with
    | none => exact .error _
    | some c => exact ih _ h
  | advance _ ih =>
    simp only [exec]
    cases DataSource.advance ds with
    | none => exact .error _
    | some c => exact ih h
  | prepare _ ih => exact ih h
  | commit _ ih =>
    simp only [exec]
    cases DataSource.commit ds with
    | none => exact .error _
    | some c => exact ih h
  | cancel _ ih =>
    simp only [exec]
    cases DataSource.cancel ds with
    | none => exact .error _
    | some c => exact ih h
  | mem ho _ ih =>
    simp only [exec]
    have h1 := run_logR h ho
    change LogOp S (Store.op _ m) (Store.op _ m') at h1
    generalize Store.op _ m = x at *
    generalize Store.op _ m' = y at *
    cases h1 with
    | error e => exact .error _
    | ok h1 => exact ih h1
  | @alloc t k _ ih =>
    obtain ⟨h1, h2⟩ := alloc_logR h t
    have := ih (m.alloc t).1 (ds := ds) h2
    rw [show exec f (.alloc t k) ⟨ds, m'⟩ = exec f (k (m'.alloc t).1) ⟨ds, (m'.alloc t).2⟩ from rfl, h1]
    exact this
  | @call p d b st k h1 _ ih =>
    simp only [exec]
    have h2 := hc p d b st ds m m' h1 h
    generalize f p d b st (⟨ds, m⟩ : World σ Mem) = x at *
    generalize f p d b st (⟨ds, m'⟩ : World σ Mem) = y at *
    cases h2 with
    | error e => exact .error _
    | ok a ds h3 => exact ih _ _ h3

theorem construct_logR (p dst bnd) {ds : σ} {m m'} (h : LogR S m m') :
    LogOut S (construct p dst bnd ⟨ds, m⟩) (construct p dst bnd ⟨ds, m'⟩) :=
  exec_logR (fun _ _ _ _ _ _ _ _ _ => .error _) (mk_acting p dst bnd) h

theorem consume_logR {env : Env} (he : env.ActsP (Act.Heeds S)) (n : Nat) (p dst bnd st) {ds : σ}
    {m m'} (hp : p.Acts (Act.Heeds S)) (h : LogR S m m') :
    LogOut S (run env n p dst bnd st ⟨ds, m⟩) (run env n p dst bnd st ⟨ds, m'⟩) := by
  induction n generalizing p dst bnd st ds m m' with
  | zero => exact .error _
  | succ n ih =>
    have hb := exec_logR (fun p d b st ds m m' h1 h2 => ih p d b st h1 h2)
      (body_acting he p dst bnd st hp) (ds := ds) h
    rw [run_succ_eq, run_succ_eq]
    generalize exec (run env n) (body env p dst bnd st) ⟨ds, m⟩ = x at *
    generalize exec (run env n) (body env p dst bnd st) ⟨ds, m'⟩ = y at *
    cases hb with
    | error e => exact .error _
    | ok a ds h1 =>
      cases a with
      | ret r st' => exact .ok (r, st') ds h1
      | cont st' => exact ih _ _ _ _ hp h1

/-! ### Which calls are added -/

theorem run_logs {m m' : Mem} {A : Act → Prop} {op : MemOp} (ho : op.Acts A)
    (h : m.run op = .ok m') (hA : ∀ a, A a → S a.id = false) :
    m'.log.filter (fun e => S e.action) = m.log.filter (fun e => S e.action) := by
  by_cases hx : ∀ a l d b, op ≠ .act a l d b
  · rw [run_log_same hx h]
  · cases op with
    | act a l d b =>
      have ha := hA a ho
      simp only [Mem.run, act_eq] at h
      have key : ∀ v bv, m.actWith a d b v bv = .ok m' →
          m'.log.filter (fun e => S e.action) = m.log.filter (fun e => S e.action) := by
        intro v bv h
        unfold Mem.actWith at h
        cases bv with
        | error e => cases h
        | ok bv =>
          simp only at h
          split at h
          · cases h
          · rename_i m2 hm2
            have h2 : m2.log = m.log ++ [⟨a.id, v⟩] := by
              unfold Mem.actWrite at hm2
              split at hm2
              · rw [modify_log_same hm2]
              · cases hm2; rfl
            have h3 : m'.log = m2.log := by
              split at h
              · cases h; rfl
              · exact assign_log_same h
            rw [h3, h2]
            simp [List.filter_append, ha]
      cases hl : m.read l with
      | error e => rw [hl] at h; cases h
      | ok v =>
        rw [hl] at h
        cases v with
        | indet => cases h
        | _ => exact key _ _ h
    | _ => exact absurd (fun _ _ _ _ => by simp) hx

variable {A : Act → Prop}

theorem exec_logs (hA : ∀ a, A a → S a.id = false)
    {f : Prog → Ref → Ref → PState → World σ Mem → Out σ Mem (Res × PState)}
    (hc : ∀ p d b st w y w', p.Acts A → f p d b st w = .ok (y, w') →
      w'.mem.log.filter (fun e => S e.action) = w.mem.log.filter (fun e => S e.action))
    {α : Type} {x : Cmd α} (hx : Acting A x) {w w' : World σ Mem} {a}
    (h : exec f x w = .ok (a, w')) :
    w'.mem.log.filter (fun e => S e.action) = w.mem.log.filter (fun e => S e.action) := by
  induction hx generalizing w with
  | pure a => simp only [exec] at h; cases h; rfl
  | fault e => simp only [exec] at h; cases h
  | isEmpty _ ih => exact ih _ h
  | isFinal _ ih => exact ih _ h
  | next _ ih =>
    simp only [exec] at h
    split at h
    · cases h
    · exact ih _ h
  | advance _ ih =>
    simp only [exec] at h
    split at h
    · cases h
    · rename_i ds _
      exact ih (w := ⟨ds, w.mem⟩) h
  | prepare _ ih => exact ih (w := ⟨DataSource.prepare w.ds, w.mem⟩) h
  | commit _ ih =>
    simp only [exec] at h
    split at h
    · cases h
    · rename_i ds _
      exact ih (w := ⟨ds, w.mem⟩) h
  | cancel _ ih =>
    simp only [exec] at h
    split at h
    · cases h
    · rename_i ds _
      exact ih (w := ⟨ds, w.mem⟩) h
  | mem ho _ ih =>
    simp only [exec] at h
    split at h
    · cases h
    · rename_i m hm
      rw [ih h]
      exact run_logs ho hm hA
  | @alloc t k _ ih =>
    simp only [exec] at h
    rw [ih _ h]
    change ((w.mem.alloc t).2.log.filter _) = _
    unfold Mem.alloc
    split <;> rfl
  | call h1 _ ih =>
    simp only [exec] at h
    split at h
    · cases h
    · rename_i hcall
      rw [ih _ _ h]
      exact hc _ _ _ _ _ _ _ h1 hcall

theorem construct_logs {p dst bnd} {w w' : World σ Mem} {st}
    (h : construct p dst bnd w = .ok (st, w')) :
    w'.mem.log.filter (fun e => S e.action) = w.mem.log.filter (fun e => S e.action) :=
  exec_logs (A := fun _ => False) (fun _ h => h.elim) (fun _ _ _ _ _ _ _ _ h => by cases h)
    (mk_acting p dst bnd) h

theorem run_keepsLogs (hA : ∀ a, A a → S a.id = false) {env : Env} (he : env.ActsP A) (n : Nat)
    {p dst bnd st} {w w' : World σ Mem} {y} (hp : p.Acts A)
    (h : run env n p dst bnd st w = .ok (y, w')) :
    w'.mem.log.filter (fun e => S e.action) = w.mem.log.filter (fun e => S e.action) := by
  induction n generalizing p dst bnd st w y w' with
  | zero => cases h
  | succ n ih =>
    rw [run_succ_eq] at h
    cases hx : exec (run env n) (body env p dst bnd st) w with
    | error e => rw [hx] at h; cases h
    | ok z =>
      obtain ⟨s, w1⟩ := z
      have h1 := exec_logs hA (fun p d b st w y w' a1 a2 => ih a1 a2)
        (body_acting he p dst bnd st hp) hx
      rw [hx] at h
      cases s with
      | ret r2 st2 => cases h; exact h1
      | cont st2 => rw [ih hp h]; exact h1

end
end Abu
