import Verif.Proofs.RetryElab
import Verif.Proofs.Logs
import Verif.Proofs.Action
/-
Actions called again until they do not throw, and actions that do not throw.
-/
namespace Abu

theorem Repeats.append {a a' b b'} (h : Repeats a a') (h' : Repeats b b') : Repeats (a ++ b) (a' ++ b') := by
  induction h with
  | nil => exact h'
  | cons c n _ ih => rw [List.append_assoc]; exact .cons c n ih

theorem Repeats.snoc {a a' c} (n : Nat) (h : Repeats a a') :
    Repeats (a ++ [c]) (a' ++ List.replicate (n + 1) c) := by
  have := Repeats.cons c n .nil
  rw [List.append_nil] at this
  exact h.append this

/-- The same objects; in the second the calls since `base` are repeated. -/
structure RepMem (base : List LogEntry) (m m' : Mem) : Prop where
  objs : m'.objs = m.objs
  log : ∃ x x', m.log = base ++ x ∧ m'.log = base ++ x' ∧ Repeats x x'

theorem RepMem.eq {base m m'} (h : RepMem base m m') : m = m'.setLog m.log := by
  cases m'; cases m; cases h.objs; rfl

theorem RepMem.refl (m : Mem) : RepMem m.log m m := ⟨rfl, [], [], by simp, by simp, .nil⟩

inductive RepOp (base : List LogEntry) : Except Err Mem → Except Err Mem → Prop
  | error (e) : RepOp base (.error e) (.error e)
  | ok {m m'} : RepMem base m m' → RepOp base (.ok m) (.ok m')

/-- Outcomes; the second is the one with repetitions. -/
inductive RepOut (base : List LogEntry) {σ α : Type} : Out σ Mem α → Out σ Mem α → Prop
  | error (e) : RepOut base (.error e) (.error e)
  | ok (a : α) (ds : σ) {m m'} : RepMem base m m' → RepOut base (.ok (a, ⟨ds, m⟩)) (.ok (a, ⟨ds, m'⟩))

theorem rep_op {base m m'} {op : MemOp} (h : RepMem base m m') (ho : ∀ a l d b, op ≠ .act a l d b) :
    RepOp base (m.run op) (m'.run op) := by
  have h1 := run_relog m' m.log ho
  rw [← h.eq] at h1
  rw [h1]
  cases hr : m'.run op with
  | error e => exact .error e
  | ok m1 =>
    refine .ok ⟨rfl, ?_⟩
    rw [run_log_same ho hr]
    exact h.log

/-- One call of the action, after `j` that threw. -/
theorem rep_act {base} {m m' : Mem} {a : Act} {l d b v} (ha : a.unaware) (hv : m.read l = .ok v) (hne : v ≠ .indet)
    (ho : m'.objs = m.objs) {x x' j} (hx : m.log = base ++ x)
    (hx' : m'.log = base ++ x' ++ List.replicate j ⟨a.id, v⟩) (hr : Repeats x x') :
    RepOp base (m.act a l d b) (m'.act a l d b) := by
  have hm : m' = m.setLog m'.log := by cases m'; cases m; cases ho; rfl
  have hv' : m'.read l = .ok v := by rw [hm, read_relog]; exact hv
  have hlog : ∃ y y', m.log ++ [⟨a.id, v⟩] = base ++ y ∧ m'.log ++ [⟨a.id, v⟩] = base ++ y' ∧
      Repeats y y' := by
    refine ⟨x ++ [⟨a.id, v⟩], x' ++ List.replicate (j + 1) ⟨a.id, v⟩, by rw [hx, List.append_assoc], ?_,
      hr.snoc j⟩
    rw [hx', List.replicate_succ', List.append_assoc, List.append_assoc]
  rw [act_plain ha.1 hv hne, act_plain ha.1 hv' hne]
  split
  · exact .ok ⟨ho, hlog⟩
  · rw [ha.2 m'.log m.log]
    have h1 := assign_relog ({ m with log := m.log ++ [⟨a.id, v⟩] } : Mem) (m'.log ++ [⟨a.id, v⟩]) d
      (a.fn m.log v .nil).1
    have h2 : ({ m' with log := m'.log ++ [⟨a.id, v⟩] } : Mem) =
        ({ m with log := m.log ++ [⟨a.id, v⟩] } : Mem).setLog (m'.log ++ [⟨a.id, v⟩]) := by
      simp only [Mem.setLog, ho]
    rw [h2, h1]
    cases hr : ({ m with log := m.log ++ [⟨a.id, v⟩] } : Mem).assign d (a.fn m.log v .nil).1 with
    | error e => exact .error e
    | ok m1 =>
      refine .ok ⟨rfl, ?_⟩
      rw [assign_log_same hr]
      exact hlog

/-- An action that throws: nothing but the call has happened. -/
theorem throws_unaware {T : Throwing} {m : Mem} {a : Act} {l d b v} (ha : a.unaware) (hv : m.read l = .ok v)
    (hne : v ≠ .indet) : m.throws T (.act a l d b) =
      if T a.id m.log v then some (.ok { m with log := m.log ++ [⟨a.id, v⟩] }) else none := by
  have h1 := act_plain (m := m) (a := { a with void := true }) (l := l) (d := .nil) (b := b) ha.1 hv hne
  simp only [if_true] at h1
  simp only [Mem.throws, hv]
  cases v <;> first | exact absurd rfl hne | rw [h1]

theorem throws_no_value {T : Throwing} {m : Mem} {a : Act} {l d b}
    (h : ∀ v, m.read l = .ok v → v = .indet) : m.throws T (.act a l d b) = none := by
  simp only [Mem.throws]
  cases hr : m.read l with
  | error e => rfl
  | ok v => cases h v hr; rfl

theorem act_no_value {base} {m m' : Mem} {a : Act} {l d b} (hm : RepMem base m m')
    (h : ∀ v, m.read l = .ok v → v = .indet) : RepOp base (m.act a l d b) (m'.act a l d b) := by
  have h1 : m'.read l = m.read l := by rw [hm.eq, read_relog]
  simp only [Mem.act, h1]
  cases hr : m.read l with
  | error e => exact .error e
  | ok v => cases h v hr; exact .error _

theorem throws_other {T : Throwing} {m : Mem} {op : MemOp} (ho : ∀ a l d b, op ≠ .act a l d b) :
    m.throws T op = none := by
  cases op <;> first | rfl | exact absurd rfl (ho _ _ _ _)

theorem persist_none {T : Throwing} {m : Mem} {op : MemOp} {n} (h : m.throws T op = none) :
    m.persist T (n + 1) op = m.run op := by
  simp only [Mem.persist, h]

/-- The call that does not throw, after `j` that did. -/
theorem persist_act {T : Throwing} {base} {m : Mem} {a : Act} {l d b v} (ha : a.unaware) (hv : m.read l = .ok v)
    (hne : v ≠ .indet) {x x'} (hx : m.log = base ++ x) (hr : Repeats x x') :
    ∀ (n j : Nat) (m' : Mem), m'.objs = m.objs → m'.log = base ++ x' ++ List.replicate j ⟨a.id, v⟩ →
      m'.persist T n (.act a l d b) = .error .fuel ∨
        RepOp base (m.run (.act a l d b)) (m'.persist T n (.act a l d b))
  | 0, _, _, _, _ => .inl rfl
  | n + 1, j, m', ho, hx' => by
    have hm : m' = m.setLog m'.log := by cases m'; cases m; cases ho; rfl
    have hv' : m'.read l = .ok v := by rw [hm, read_relog]; exact hv
    have ht := throws_unaware (T := T) (d := d) (b := b) ha hv' hne
    split at ht
    · rw [persist_throws ht]
      exact persist_act ha hv hne hx hr n (j + 1) _ ho (by
        simp only [hx', List.replicate_succ', List.append_assoc])
    · rw [persist_none ht]
      exact .inr (rep_act ha hv hne ho hx hx' hr)

/-- It comes, if the action does not throw for ever. -/
theorem persist_ends {T : Throwing} {a : Act} {l d b v} (ha : a.unaware) (hne : v ≠ .indet) :
    ∀ (k : Nat) (m : Mem), m.read l = .ok v → T a.id (m.log ++ List.replicate k ⟨a.id, v⟩) v = false →
      ∃ (n : Nat) (m2 : Mem), m2.objs = m.objs ∧ m2.throws T (.act a l d b) = none ∧
        m.persist T n (.act a l d b) = m2.run (.act a l d b) ∧
        ∃ j, m2.log = m.log ++ List.replicate j ⟨a.id, v⟩
  | 0, m, hv, hk => by
    have ht := throws_unaware (T := T) (d := d) (b := b) ha hv hne
    rw [List.replicate_zero, List.append_nil] at hk
    rw [hk] at ht
    exact ⟨1, m, rfl, ht, persist_none ht, 0, by simp⟩
  | k + 1, m, hv, hk => by
    have ht := throws_unaware (T := T) (d := d) (b := b) ha hv hne
    by_cases h : T a.id m.log v = true
    · rw [h, if_pos rfl] at ht
      obtain ⟨n, m2, h1, h2, h3, j, h4⟩ := persist_ends (l := l) (d := d) (b := b) ha hne k
        { m with log := m.log ++ [⟨a.id, v⟩] }
        (by rw [← hv]; exact read_relog m _ l) (by
          simpa only [List.replicate_succ, List.append_assoc, List.singleton_append] using hk)
      refine ⟨n + 1, m2, h1, h2, by rw [persist_throws ht, h3], j + 1, ?_⟩
      rw [h4]
      simp only [List.replicate_succ, List.append_assoc, List.singleton_append]
    · rw [if_neg h] at ht
      exact ⟨1, m, rfl, ht, persist_none ht, 0, by simp⟩

/-- Any operation. -/
theorem persist_rep {T : Throwing} {base m m'} {op : MemOp} (h : RepMem base m m')
    (ha : op.Acts Act.unaware) (n : Nat) :
    m'.persist T n op = .error .fuel ∨ RepOp base (m.run op) (m'.persist T n op) := by
  cases n with
  | zero => exact .inl rfl
  | succ n =>
    by_cases ho : ∀ a l d b, op ≠ .act a l d b
    · rw [persist_none (throws_other ho)]
      exact .inr (rep_op h ho)
    · cases op with
      | act a l d b =>
        by_cases hv : ∀ v, m.read l = .ok v → v = .indet
        · have h1 : m'.read l = m.read l := by rw [h.eq, read_relog]
          rw [persist_none (throws_no_value (by rw [h1]; exact hv))]
          exact .inr (act_no_value h hv)
        · simp only [Classical.not_forall] at hv
          obtain ⟨v, hv, hne⟩ := hv
          obtain ⟨x, x', hx, hx', hr⟩ := h.log
          exact persist_act ha hv hne hx hr (n + 1) 0 m' h.objs (by simpa using hx')
      | _ => exact absurd (fun _ _ _ _ => by simp) ho

theorem persist_some {T : Throwing} (hT : T.givesUp) {m' : Mem} {op : MemOp} (ha : op.Acts Act.unaware)
    {base} {m : Mem} (h : RepMem base m m') (hf : m.run op ≠ .error .fuel) :
    ∃ n, m'.persist T n op ≠ .error .fuel := by
  have hrun : ∀ {m2 : Mem}, RepOp base (m.run op) (m2.run op) → m2.run op ≠ .error .fuel := by
    intro m2 h2 hc
    rw [hc] at h2
    generalize hy : m.run op = y at h2
    cases h2
    exact hf hy
  by_cases ho : ∀ a l d b, op ≠ .act a l d b
  · refine ⟨1, ?_⟩
    rw [persist_none (throws_other ho)]
    exact hrun (rep_op h ho)
  · cases op with
    | act a l d b =>
      have h1 : m'.read l = m.read l := by rw [h.eq, read_relog]
      by_cases hv : ∀ v, m.read l = .ok v → v = .indet
      · refine ⟨1, ?_⟩
        rw [persist_none (throws_no_value (by rw [h1]; exact hv))]
        exact hrun (act_no_value h hv)
      · simp only [Classical.not_forall] at hv
        obtain ⟨v, hv, hne⟩ := hv
        obtain ⟨k, hk⟩ := hT a.id m'.log v
        obtain ⟨n, m2, h2, _, h3, j, h4⟩ := persist_ends (l := l) (d := d) (b := b) (T := T) ha hne k m'
          (h1.trans hv) hk
        obtain ⟨x, x', hx, hx', hr⟩ := h.log
        refine ⟨n, ?_⟩
        rw [h3]
        exact hrun (rep_act ha hv hne (h2.trans h.objs) hx (by rw [h4, hx']) hr)
    | _ => exact absurd (fun _ _ _ _ => by simp) ho

theorem alloc_rep {base} {m m' : Mem} (h : RepMem base m m') (t : Ty) :
    (m'.alloc t).1 = (m.alloc t).1 ∧ RepMem base (m.alloc t).2 (m'.alloc t).2 := by
  by_cases ht : t = .nil
  · subst ht; exact ⟨rfl, h⟩
  · rw [alloc_eq ht, alloc_eq ht, h.objs]
    exact ⟨rfl, rfl, h.log⟩

section
variable {σ : Type} [DataSource σ] {T : Throwing} {base : List LogEntry}

theorem exec_rep {n : Nat} {f g : Prog → Ref → Ref → PState → World σ Mem → Out σ Mem (Res × PState)}
    (hc : ∀ p d b st ds m m', p.Acts Act.unaware → RepMem base m m' →
      g p d b st ⟨ds, m'⟩ = .error .fuel ∨ RepOut base (f p d b st ⟨ds, m⟩) (g p d b st ⟨ds, m'⟩))
    {α : Type} {c : Cmd α} (ha : Acting Act.unaware c) (ds : σ) {m m' : Mem} (h : RepMem base m m') :
    execP T n g c ⟨ds, m'⟩ = .error .fuel ∨ RepOut base (exec f c ⟨ds, m⟩) (execP T n g c ⟨ds, m'⟩) := by
  induction ha generalizing ds m m' with
  | pure a => exact .inr (.ok a ds h)
  | fault e => exact .inr (.error e)
  | isEmpty _ ih => exact ih _ ds h
  | isFinal _ ih => exact ih _ ds h
  | next _ ih =>
    simp only [exec, execP]
    cases DataSource.next ds with
    | none => exact .inr (.error _)
    | some c => exact ih _ ds h
  | advance _ ih =>
    simp only [exec, execP]
    cases DataSource.advance ds with
    | none => exact .inr (.error _)
    | some c => exact ih _ h
  | prepare _ ih => exact ih _ h
  | commit _ ih =>
    simp only [exec, execP]
    cases DataSource.commit ds with
    | none => exact .inr (.error _)
    | some c => exact ih _ h
  | cancel _ ih =>
    simp only [exec, execP]
    cases DataSource.cancel ds with
    | none => exact .inr (.error _)
    | some c => exact ih _ h
  | @mem o k ho _ ih =>
    have h1 := persist_rep (T := T) h ho n
    simp only [exec, execP, Store.op]
    generalize m'.persist T n o = y at h1 ⊢
    generalize m.run o = x at h1 ⊢
    rcases h1 with rfl | h1
    · exact .inl rfl
    · cases h1 with
      | error e => exact .inr (.error e)
      | ok h2 => exact ih ds h2
  | @alloc t k _ ih =>
    obtain ⟨h1, h2⟩ := alloc_rep h t
    simp only [exec, execP, Store.alloc, h1]
    exact ih _ ds h2
  | @call p d b st k hp _ ih =>
    have h1 := hc p d b st ds m m' hp h
    simp only [exec, execP]
    generalize g p d b st ⟨ds, m'⟩ = y at h1 ⊢
    generalize f p d b st ⟨ds, m⟩ = x at h1 ⊢
    rcases h1 with rfl | h1
    · exact .inl rfl
    · cases h1 with
      | error e => exact .inr (.error e)
      | ok a ds h2 => exact ih _ _ ds h2

theorem run_rep {env : Env} (he : env.ActsP Act.unaware) (n : Nat) (p dst bnd st) (ds : σ) {m m' : Mem}
    (hp : p.Acts Act.unaware) (h : RepMem base m m') :
    persisting T env n p dst bnd st ⟨ds, m'⟩ = .error .fuel ∨
      RepOut base (run env n p dst bnd st ⟨ds, m⟩) (persisting T env n p dst bnd st ⟨ds, m'⟩) := by
  induction n generalizing p dst bnd st ds m m' with
  | zero => exact .inl rfl
  | succ n ih =>
    have h1 := exec_rep (T := T) (n := n + 1) (f := run env n) (g := persisting T env n)
      (fun p d b st ds m m' hp h => ih p d b st ds hp h) (body_acting he p dst bnd st hp) ds h
    rw [persisting_succ]
    simp only [run]
    generalize execP T (n + 1) (persisting T env n) (body env p dst bnd st) ⟨ds, m'⟩ = y at h1 ⊢
    generalize exec (run env n) (body env p dst bnd st) ⟨ds, m⟩ = x at h1 ⊢
    rcases h1 with rfl | h1
    · exact .inl rfl
    · cases h1 with
      | error e => exact .inr (.error e)
      | ok a ds h2 =>
        cases a with
        | ret r st' => exact .inr (.ok _ _ h2)
        | cont st' => exact ih _ _ _ _ _ hp h2

/-- A call that ends, ends when actions are called again, too. -/
theorem exec_some (hT : T.givesUp) {f g : Nat → Prog → Ref → Ref → PState → World σ Mem → Out σ Mem (Res × PState)}
    (hg : ∀ {n n'}, n ≤ n' → ∀ p d b st w, g n p d b st w ≠ .error .fuel → g n' p d b st w = g n p d b st w)
    {n0 : Nat}
    (hc : ∀ p d b st ds m m', p.Acts Act.unaware → RepMem base m m' →
      f n0 p d b st ⟨ds, m⟩ ≠ .error .fuel →
      ∃ n, g n p d b st ⟨ds, m'⟩ ≠ .error .fuel)
    (hs : ∀ n p d b st ds m m', p.Acts Act.unaware → RepMem base m m' → f n0 p d b st ⟨ds, m⟩ ≠ .error .fuel →
      g n p d b st ⟨ds, m'⟩ = .error .fuel ∨ RepOut base (f n0 p d b st ⟨ds, m⟩) (g n p d b st ⟨ds, m'⟩))
    {α : Type} {c : Cmd α} (ha : Acting Act.unaware c) (ds : σ) {m m' : Mem} (h : RepMem base m m')
    (hf : exec (f n0) c ⟨ds, m⟩ ≠ .error .fuel) : ∃ n, execP T n (g n) c ⟨ds, m'⟩ ≠ .error .fuel := by
  induction ha generalizing ds m m' with
  | pure a => exact ⟨0, by simp [execP]⟩
  | fault e => exact ⟨0, hf⟩
  | isEmpty _ ih => exact ih _ ds h hf
  | isFinal _ ih => exact ih _ ds h hf
  | next _ ih =>
    simp only [exec, execP] at hf ⊢
    cases hx : DataSource.next ds with
    | none => exact ⟨0, by simp⟩
    | some c => rw [hx] at hf; exact ih _ ds h hf
  | advance _ ih =>
    simp only [exec, execP] at hf ⊢
    cases hx : DataSource.advance ds with
    | none => exact ⟨0, by simp⟩
    | some c => rw [hx] at hf; exact ih _ h hf
  | prepare _ ih => exact ih _ h hf
  | commit _ ih =>
    simp only [exec, execP] at hf ⊢
    cases hx : DataSource.commit ds with
    | none => exact ⟨0, by simp⟩
    | some c => rw [hx] at hf; exact ih _ h hf
  | cancel _ ih =>
    simp only [exec, execP] at hf ⊢
    cases hx : DataSource.cancel ds with
    | none => exact ⟨0, by simp⟩
    | some c => rw [hx] at hf; exact ih _ h hf
  | @mem o k ho _ ih =>
    simp only [exec, Store.op] at hf
    have hr : m.run o ≠ .error .fuel := fun hr => by rw [hr] at hf; exact hf rfl
    obtain ⟨n1, h1⟩ := persist_some hT ho h hr
    have h2 := (persist_rep (T := T) h ho n1).resolve_left h1
    cases hy : m'.persist T n1 o with
    | error e =>
      refine ⟨n1, ?_⟩
      simp only [execP, hy]
      rw [hy] at h1
      intro hc; cases hc; exact h1 rfl
    | ok m1' =>
      rw [hy] at h2
      generalize hx : m.run o = x at h2 hf
      cases h2 with
      | ok h3 =>
        obtain ⟨n2, h4⟩ := ih ds h3 hf
        refine ⟨max n1 n2, ?_⟩
        have h5 : m'.persist T (max n1 n2) o = .ok m1' := by
          exact persist_mono hy (by simp) (Nat.le_max_left n1 n2)
        simp only [execP, h5]
        rw [execP_mono (Nat.le_max_right n1 n2) (fun p d b st w => hg (Nat.le_max_right n1 n2) p d b st w)
          _ _ h4]
        exact h4
  | @alloc t k _ ih =>
    obtain ⟨h1, h2⟩ := alloc_rep h t
    simp only [exec, execP, Store.alloc, h1] at hf ⊢
    exact ih _ ds h2 hf
  | @call p d b st k hp _ ih =>
    simp only [exec] at hf
    have hr : f n0 p d b st ⟨ds, m⟩ ≠ .error .fuel := fun hr => by rw [hr] at hf; exact hf rfl
    obtain ⟨n1, h1⟩ := hc p d b st ds m m' hp h hr
    have h2 := (hs n1 p d b st ds m m' hp h hr).resolve_left h1
    cases hy : g n1 p d b st ⟨ds, m'⟩ with
    | error e =>
      refine ⟨n1, ?_⟩
      simp only [execP, hy]
      rw [hy] at h1
      intro hc; cases hc; exact h1 rfl
    | ok y =>
      rw [hy] at h2
      generalize hx : f n0 p d b st ⟨ds, m⟩ = x at h2 hf
      cases h2 with
      | ok a ds h3 =>
        obtain ⟨n2, h4⟩ := ih _ _ ds h3 hf
        refine ⟨max n1 n2, ?_⟩
        have h5 := hg (Nat.le_max_left n1 n2) p d b st _ h1
        rw [hy] at h5
        simp only [execP, h5]
        rw [execP_mono (Nat.le_max_right n1 n2) (fun p d b st w => hg (Nat.le_max_right n1 n2) p d b st w)
          _ _ h4]
        exact h4

theorem RepOut.fuel {α : Type} {x y : Out σ Mem α} (h : RepOut base x y) (hy : y ≠ .error .fuel) :
    x ≠ .error .fuel := by
  cases h with
  | error e => exact hy
  | ok => simp

theorem run_fuels {env : Env} {n n' p d b st} {w : World σ Mem} (h : run env n p d b st w ≠ .error .fuel)
    (h' : run env n' p d b st w ≠ .error .fuel) : run env n p d b st w = run env n' p d b st w := by
  rw [← run_mono env (Nat.le_max_left n n') p d b st w h, ← run_mono env (Nat.le_max_right n n') p d b st w h']

theorem run_some (hT : T.givesUp) {env : Env} (he : env.ActsP Act.unaware) (n0 : Nat) (p dst bnd st) (ds : σ)
    {m m' : Mem} (hp : p.Acts Act.unaware) (h : RepMem base m m')
    (hf : run env n0 p dst bnd st ⟨ds, m⟩ ≠ .error .fuel) :
    ∃ n, persisting T env n p dst bnd st ⟨ds, m'⟩ ≠ .error .fuel := by
  induction n0 generalizing p dst bnd st ds m m' with
  | zero => exact absurd rfl hf
  | succ n0 ih =>
    simp only [run] at hf
    have hx : exec (run env n0) (body env p dst bnd st) ⟨ds, m⟩ ≠ .error .fuel := fun hx => by
      rw [hx] at hf; exact hf rfl
    obtain ⟨n1, h1⟩ := exec_some (f := run env) (g := persisting T env) hT
      (fun hn p d b st w h => persisting_mono T env hn p d b st w h)
      (fun p d b st ds m m' hp h hf => ih p d b st ds hp h hf)
      (fun n p d b st ds m m' hp h hf => by
        rcases run_rep (T := T) he n p d b st ds hp h with h2 | h2
        · exact .inl h2
        · by_cases h3 : persisting T env n p d b st ⟨ds, m'⟩ = .error .fuel
          · exact .inl h3
          · rw [run_fuels hf (h2.fuel h3)]; exact .inr h2)
      (body_acting he p dst bnd st hp) ds h hx
    have h2 := (exec_rep (T := T) (n := n1) (f := run env n1) (g := persisting T env n1)
      (fun p d b st ds m m' hp h => run_rep he n1 p d b st ds hp h)
      (body_acting he p dst bnd st hp) ds h).resolve_left h1
    have h3 : exec (run env n1) (body env p dst bnd st) (⟨ds, m⟩ : World σ Mem) =
        exec (run env n0) (body env p dst bnd st) ⟨ds, m⟩ := by
      rw [← exec_mono (run_mono env (Nat.le_max_left n1 n0)) _ _ (h2.fuel h1),
        ← exec_mono (run_mono env (Nat.le_max_right n1 n0)) _ _ hx]
    rw [h3] at h2
    have h4 : ∀ n2, execP T (max n1 n2 + 1) (persisting T env (max n1 n2)) (body env p dst bnd st) ⟨ds, m'⟩ =
        execP T n1 (persisting T env n1) (body env p dst bnd st) ⟨ds, m'⟩ := fun n2 =>
      execP_mono (by omega)
        (fun p d b st w h => persisting_mono T env (Nat.le_max_left n1 n2) p d b st w h) _ _ h1
    generalize execP T n1 (persisting T env n1) (body env p dst bnd st) ⟨ds, m'⟩ = y at h1 h2 h4
    generalize exec (run env n0) (body env p dst bnd st) ⟨ds, m⟩ = x at h2 hf
    cases h2 with
    | error e => exact ⟨max n1 0 + 1, by rw [persisting_succ, h4]; intro hc; cases hc; exact h1 rfl⟩
    | ok a ds h5 =>
      cases a with
      | ret r st' => exact ⟨max n1 0 + 1, by rw [persisting_succ, h4]; simp⟩
      | cont st' =>
        obtain ⟨n2, h6⟩ := ih _ _ _ _ _ hp h5 hf
        refine ⟨max n1 n2 + 1, ?_⟩
        rw [persisting_succ, h4]
        simp only
        rw [persisting_mono T env (Nat.le_max_right n1 n2) _ _ _ _ _ h6]
        exact h6

/-- What ends with repetitions ends without. -/
theorem evals_rep {env : Env} (he : env.ActsP Act.unaware) {p dst bnd st} {ds : σ} {m m' : Mem} {y}
    (hp : p.Acts Act.unaware) (h : RepMem base m m')
    (hy : EvalsBy (persisting T env) p dst bnd st ⟨ds, m'⟩ y) :
    ∃ x, Evals env p dst bnd st ⟨ds, m⟩ x ∧ RepOut base x y := by
  obtain ⟨hf, n, rfl⟩ := hy
  have h1 := (run_rep (T := T) he n p dst bnd st ds hp h).resolve_left hf
  exact ⟨_, ⟨h1.fuel hf, n, rfl⟩, h1⟩

/-- What ends without ends with repetitions. -/
theorem evals_some (hT : T.givesUp) {env : Env} (he : env.ActsP Act.unaware) {p dst bnd st} {ds : σ}
    {m m' : Mem} {x} (hp : p.Acts Act.unaware) (h : RepMem base m m')
    (hx : Evals env p dst bnd st ⟨ds, m⟩ x) :
    ∃ y, EvalsBy (persisting T env) p dst bnd st ⟨ds, m'⟩ y ∧ RepOut base x y := by
  obtain ⟨hf, n0, rfl⟩ := hx
  obtain ⟨n, h1⟩ := run_some hT he n0 p dst bnd st ds hp h hf
  have h2 := (run_rep (T := T) he n p dst bnd st ds hp h).resolve_left h1
  exact ⟨_, ⟨h1, n, rfl⟩, by rw [run_fuels hf (h2.fuel h1)]; exact h2⟩

/-- Verdicts; the second is the one with repetitions. -/
inductive RepVerdict (base : List LogEntry) : Verdict → Verdict → Prop
  | error (e) : RepVerdict base (.error e) (.error e)
  | ok (r rest) {m m'} : RepMem base m m' → RepVerdict base (.ok (r, m, rest)) (.ok (r, m', rest))

theorem session_rep {env : Env} (he : env.ActsP Act.unaware) {add p dst} (hp : p.Acts Act.unaware)
    {st} {w' : World σ Mem} {ops v'} (hs : SessionBy (persisting T env) add p dst st w' ops v') :
    ∀ {m}, RepMem base m w'.mem → ∃ v, Session add env p dst st ⟨w'.ds, m⟩ ops v ∧ RepVerdict base v v' := by
  induction hs with
  | nil hr => exact fun h => ⟨_, .nil hr, .ok _ _ h⟩
  | addBad ha => exact fun h => ⟨_, .addBad ha, .error _⟩
  | add ha _ ih => intro m h; obtain ⟨v, h1, h2⟩ := ih h; exact ⟨v, .add ha h1, h2⟩
  | error hy =>
    intro m h
    obtain ⟨x, hx, hr⟩ := evals_rep he hp h hy
    cases hr
    exact ⟨_, .error hx, .error _⟩
  | @verdict st w ops r st' w1 rest hy hn hr =>
    intro m h
    obtain ⟨x, hx, ho⟩ := evals_rep he hp h hy
    cases ho with
    | ok _ ds h2 => exact ⟨_, .verdict hx hn hr, .ok _ _ h2⟩
  | @more st w ops st' w1 v hy _ ih =>
    intro m h
    obtain ⟨x, hx, ho⟩ := evals_rep he hp h hy
    cases ho with
    | ok _ ds h2 => obtain ⟨v, h3, h4⟩ := ih h2; exact ⟨v, .more hx h3, h4⟩

theorem session_some (hT : T.givesUp) {env : Env} (he : env.ActsP Act.unaware) {add p dst}
    (hp : p.Acts Act.unaware) {st} {w : World σ Mem} {ops v} (hs : Session add env p dst st w ops v) :
    ∀ {m'}, RepMem base w.mem m' →
      ∃ v', SessionBy (persisting T env) add p dst st ⟨w.ds, m'⟩ ops v' ∧ RepVerdict base v v' := by
  induction hs with
  | nil hr => exact fun h => ⟨_, .nil hr, .ok _ _ h⟩
  | addBad ha => exact fun h => ⟨_, .addBad ha, .error _⟩
  | add ha _ ih => intro m h; obtain ⟨v, h1, h2⟩ := ih h; exact ⟨v, .add ha h1, h2⟩
  | error hy =>
    intro m h
    obtain ⟨x, hx, hr⟩ := evals_some hT he hp h hy
    cases hr
    exact ⟨_, .error hx, .error _⟩
  | @verdict st w ops r st' w1 rest hy hn hr =>
    intro m h
    obtain ⟨x, hx, ho⟩ := evals_some hT he hp h hy
    cases ho with
    | ok _ ds h2 => exact ⟨_, .verdict hx hn hr, .ok _ _ h2⟩
  | @more st w ops st' w1 v hy _ ih =>
    intro m h
    obtain ⟨x, hx, ho⟩ := evals_some hT he hp h hy
    cases ho with
    | ok _ ds h2 => obtain ⟨v, h3, h4⟩ := ih h2; exact ⟨v, .more hx h3, h4⟩

theorem construct_log_all {p dst bnd} {w w' : World σ Mem} {st}
    (h : construct p dst bnd w = .ok (st, w')) : w'.mem.log = w.mem.log := by
  have := construct_logs (S := fun _ => true) h
  rwa [List.filter_eq_self.2 (fun _ _ => rfl), List.filter_eq_self.2 (fun _ _ => rfl)] at this

end

theorem object_rep {T : Throwing} {env : Env} (he : env.ActsP Act.unaware) {p : Pat}
    (hp : (topParser p).Acts Act.unaware) {dst m ops v'}
    (h : MakeParserRunBy (persisting T env) p dst m ops v') :
    ∃ v, MakeParserRun env p dst m ops v ∧ RepVerdict m.log v v' := by
  cases h with
  | construct h => exact ⟨_, .construct h, .error _⟩
  | @run st w v h hs =>
    obtain ⟨v, h1, h2⟩ := session_rep he hp hs (RepMem.refl w.mem)
    rw [construct_log_all h] at h2
    exact ⟨v, .run h h1, h2⟩

theorem object_some {T : Throwing} (hT : T.givesUp) {env : Env} (he : env.ActsP Act.unaware) {p : Pat}
    (hp : (topParser p).Acts Act.unaware) {dst m ops v} (h : MakeParserRun env p dst m ops v) :
    ∃ v', MakeParserRunBy (persisting T env) p dst m ops v' ∧ RepVerdict m.log v v' := by
  cases h with
  | construct h => exact ⟨_, .construct h, .error _⟩
  | @run st w v h hs =>
    obtain ⟨v, h1, h2⟩ := session_some hT he hp hs (RepMem.refl w.mem)
    rw [construct_log_all h] at h2
    exact ⟨v, .run h h1, h2⟩

end Abu
