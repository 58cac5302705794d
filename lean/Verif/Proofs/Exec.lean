import Verif.Model.Machine
import Verif.Proofs.DataSource
/-
Generic facts about running commands: composition, fuel, change of data source.
-/
namespace Abu

section
variable {σ μ : Type} [DataSource σ] [Store μ]

theorem exec_bind (call) {α β : Type} (c : Cmd α) (f : α → Cmd β) (w : World σ μ) :
    exec call (c.bind f) w =
      match exec call c w with
      | .error e => .error e
      | .ok (a, w') => exec call (f a) w' := by
  induction c generalizing w with
  | pure a => rfl
  | fault e => rfl
  | isEmpty k ih => simp only [Cmd.bind, exec, ih]
  | isFinal k ih => simp only [Cmd.bind, exec, ih]
  | next k ih => simp only [Cmd.bind, exec]; cases DataSource.next w.ds <;> simp [ih]
  | advance k ih => simp only [Cmd.bind, exec]; cases DataSource.advance w.ds <;> simp [ih]
  | prepare k ih => simp only [Cmd.bind, exec, ih]
  | commit k ih => simp only [Cmd.bind, exec]; cases DataSource.commit w.ds <;> simp [ih]
  | cancel k ih => simp only [Cmd.bind, exec]; cases DataSource.cancel w.ds <;> simp [ih]
  | mem o k ih => simp only [Cmd.bind, exec]; cases Store.op o w.mem <;> simp [ih]
  | alloc t k ih => simp only [Cmd.bind, exec, ih]
  | call p d b s k ih =>
    simp only [Cmd.bind, exec]
    cases call p d b s w with
    | error e => rfl
    | ok x => obtain ⟨⟨r, s'⟩, w'⟩ := x; simp [ih]

/-! ### Fuel -/

/-- More calls return. -/
def CallLe (f g : Prog → Ref → Ref → PState → World σ μ → Out σ μ (Res × PState)) : Prop :=
  ∀ p d b s w, f p d b s w ≠ .error .fuel → g p d b s w = f p d b s w

theorem exec_mono {f g} (h : CallLe f g) {α : Type} (c : Cmd α) (w : World σ μ) :
    exec f c w ≠ .error .fuel → exec g c w = exec f c w := by
  induction c generalizing w with
  | pure a => intro _; rfl
  | fault e => intro _; rfl
  | isEmpty k ih => simp only [exec]; exact ih _ _
  | isFinal k ih => simp only [exec]; exact ih _ _
  | next k ih => simp only [exec]; cases DataSource.next w.ds <;> simp <;> exact ih _ _
  | advance k ih => simp only [exec]; cases DataSource.advance w.ds <;> simp <;> exact ih _
  | prepare k ih => simp only [exec]; exact ih _
  | commit k ih => simp only [exec]; cases DataSource.commit w.ds <;> simp <;> exact ih _
  | cancel k ih => simp only [exec]; cases DataSource.cancel w.ds <;> simp <;> exact ih _
  | mem o k ih => simp only [exec]; cases Store.op o w.mem <;> simp <;> exact ih _
  | alloc t k ih => simp only [exec]; exact ih _ _
  | call p d b s k ih =>
    simp only [exec]
    intro hne
    have hc : f p d b s w ≠ .error .fuel := by
      intro hc; rw [hc] at hne; exact hne rfl
    rw [h p d b s w hc]
    cases hf : f p d b s w with
    | error e => rfl
    | ok x => obtain ⟨⟨r, s'⟩, w'⟩ := x; rw [hf] at hne; exact ih _ _ _ hne

theorem run_succ_eq (env : Env) (n : Nat) (p dst bnd st) (w : World σ μ) :
    run env (n + 1) p dst bnd st w =
      match exec (run env n) (body env p dst bnd st) w with
      | .error e => .error e
      | .ok (.ret r st', w') => .ok ((r, st'), w')
      | .ok (.cont st', w') => run env n p dst bnd st' w' := rfl

theorem run_succ (env : Env) (n : Nat) :
    CallLe (run env n : _ → _ → _ → _ → World σ μ → _) (run env (n + 1)) := by
  induction n with
  | zero => intro p d b s w h; exact absurd rfl h
  | succ n ih =>
    intro p d b s w h
    rw [run_succ_eq env (n + 1), run_succ_eq env n] at *
    have hx : exec (run env n) (body env p d b s) w ≠ .error .fuel := by
      intro hx; rw [hx] at h; exact h rfl
    rw [exec_mono ih _ _ hx]
    cases he : exec (run env n) (body env p d b s) w with
    | error e => rfl
    | ok x =>
      obtain ⟨s', w'⟩ := x
      cases s' with
      | ret r st' => rfl
      | cont st' => rw [he] at h; exact ih _ _ _ _ _ h

theorem run_mono (env : Env) {n m : Nat} (hnm : n ≤ m) :
    CallLe (run env n : _ → _ → _ → _ → World σ μ → _) (run env m) := by
  induction hnm with
  | refl => intro _ _ _ _ _ _; rfl
  | step _ ih =>
    intro p d b s w h
    rw [run_succ env _ p d b s w (by rw [ih p d b s w h]; exact h), ih p d b s w h]

theorem Evals.unique {env : Env} {p dst bnd st} {w : World σ μ} {o o'}
    (h : Evals env p dst bnd st w o) (h' : Evals env p dst bnd st w o') : o = o' := by
  obtain ⟨hn, n, rfl⟩ := h
  obtain ⟨hm, m, rfl⟩ := h'
  rcases Nat.le_total n m with h | h
  · exact (run_mono env h _ _ _ _ _ hn).symm
  · exact run_mono env h _ _ _ _ _ hm

theorem Evals.run_eq {env : Env} {p dst bnd st} {w : World σ μ} {o}
    (h : Evals env p dst bnd st w o) : ∃ n, ∀ m, n ≤ m → run env m p dst bnd st w = o := by
  obtain ⟨hn, n, rfl⟩ := h
  exact ⟨n, fun m hm => run_mono env hm _ _ _ _ _ hn⟩

theorem evals_or_diverges (env : Env) (p dst bnd st) (w : World σ μ) :
    (∃ o, Evals env p dst bnd st w o) ∨ Diverges env p dst bnd st w := by
  by_cases h : ∃ n, run env n p dst bnd st w ≠ .error .fuel
  · obtain ⟨n, h⟩ := h
    exact .inl ⟨_, h, n, rfl⟩
  · exact .inr fun n => Classical.byContradiction fun hn => h ⟨n, hn⟩

theorem Evals.not_diverges {env : Env} {p dst bnd st} {w : World σ μ} {o}
    (h : Evals env p dst bnd st w o) : ¬ Diverges env p dst bnd st w := by
  intro hd; obtain ⟨hn, n, rfl⟩ := h; exact hn (hd n)

end

/-! ### Change of data source -/

/-- Same outcome, on related worlds. -/
inductive OutRel {σ τ μ α : Type} (R : σ → τ → Prop) : Out σ μ α → Out τ μ α → Prop
  | error (e) : OutRel R (.error e) (.error e)
  | ok (a) {s c m} : R s c → OutRel R (.ok (a, ⟨s, m⟩)) (.ok (a, ⟨c, m⟩))

section
variable {σ τ μ : Type} [DataSource σ] [DataSource τ] [Store μ] {R : σ → τ → Prop}

theorem exec_sim (hR : DsSim R)
    {f : Prog → Ref → Ref → PState → World σ μ → Out σ μ (Res × PState)}
    {g : Prog → Ref → Ref → PState → World τ μ → Out τ μ (Res × PState)}
    (h : ∀ p d b st s c m, R s c → OutRel R (f p d b st ⟨s, m⟩) (g p d b st ⟨c, m⟩))
    {α : Type} (x : Cmd α) {s c} (m : μ) (hr : R s c) :
    OutRel R (exec f x ⟨s, m⟩) (exec g x ⟨c, m⟩) := by
  induction x generalizing s c m with
  | pure a => exact .ok a hr
  | fault e => exact .error e
  | isEmpty k ih => simp only [exec]; rw [hR.empty hr]; exact ih _ m hr
  | isFinal k ih => simp only [exec]; rw [hR.final hr]; exact ih _ m hr
  | next k ih =>
    simp only [exec]; rw [hR.next hr]
    cases DataSource.next c with
    | none => exact .error _
    | some ch => exact ih _ m hr
  | advance k ih =>
    have ha := hR.advance hr
    simp only [exec]
    generalize DataSource.advance s = s' at *
    generalize DataSource.advance c = c' at *
    cases ha with
    | none => exact .error _
    | some ha => exact ih m ha
  | prepare k ih => exact ih m (hR.prepare hr)
  | commit k ih =>
    have ha := hR.commit hr
    simp only [exec]
    generalize DataSource.commit s = s' at *
    generalize DataSource.commit c = c' at *
    cases ha with
    | none => exact .error _
    | some ha => exact ih m ha
  | cancel k ih =>
    have ha := hR.cancel hr
    simp only [exec]
    generalize DataSource.cancel s = s' at *
    generalize DataSource.cancel c = c' at *
    cases ha with
    | none => exact .error _
    | some ha => exact ih m ha
  | mem o k ih =>
    simp only [exec]
    cases Store.op o m with
    | error e => exact .error e
    | ok m' => exact ih m' hr
  | alloc t k ih => exact ih _ _ hr
  | call p d b st k ih =>
    have hc := h p d b st s c m hr
    simp only [exec]
    generalize f p d b st ⟨s, m⟩ = x at *
    generalize g p d b st ⟨c, m⟩ = y at *
    cases hc with
    | error e => exact .error e
    | ok a hr' => obtain ⟨r, st'⟩ := a; exact ih r st' _ hr'

/-- Parsers cannot tell related data sources apart. -/
theorem run_sim (hR : DsSim R) (env : Env) (n : Nat) (p dst bnd st) {s c} (m : μ) (hr : R s c) :
    OutRel R (run env n p dst bnd st ⟨s, m⟩) (run env n p dst bnd st ⟨c, m⟩) := by
  induction n generalizing p dst bnd st s c m with
  | zero => exact .error _
  | succ n ih =>
    have he := exec_sim hR (fun p d b st s c m h => ih p d b st m h) (body env p dst bnd st) m hr
    rw [run_succ_eq, run_succ_eq]
    generalize exec (run env n) (body env p dst bnd st) ⟨s, m⟩ = x at *
    generalize exec (run env n) (body env p dst bnd st) ⟨c, m⟩ = y at *
    cases he with
    | error e => exact .error e
    | ok a hr' =>
      cases a with
      | ret r st' => exact .ok _ hr'
      | cont st' => exact ih _ _ _ _ _ hr'

theorem construct_sim (hR : DsSim R) (p dst bnd) {s c} (m : μ) (hr : R s c) :
    OutRel R (construct p dst bnd ⟨s, m⟩) (construct p dst bnd ⟨c, m⟩) :=
  exec_sim hR (fun _ _ _ _ _ _ _ _ => .error _) _ m hr

end

theorem OutRel.fuel_iff {σ τ μ α : Type} {R : σ → τ → Prop} {x : Out σ μ α} {y : Out τ μ α}
    (h : OutRel R x y) : x = .error .fuel ↔ y = .error .fuel := by
  cases h <;> simp

section
variable {σ τ μ : Type} [DataSource σ] [DataSource τ] [Store μ] {R : σ → τ → Prop}

theorem Evals.sim (hR : DsSim R) {env : Env} {p dst bnd st} {s : σ} {c : τ} {m : μ} {o}
    (h : Evals env p dst bnd st ⟨s, m⟩ o) (hr : R s c) :
    ∃ o', Evals env p dst bnd st ⟨c, m⟩ o' ∧ OutRel R o o' := by
  obtain ⟨hn, n, rfl⟩ := h
  have := run_sim hR env n p dst bnd st m hr
  exact ⟨_, ⟨fun h => hn (this.fuel_iff.2 h), n, rfl⟩, this⟩

theorem Evals.sim' (hR : DsSim R) {env : Env} {p dst bnd st} {s : σ} {c : τ} {m : μ} {o}
    (h : Evals env p dst bnd st ⟨c, m⟩ o) (hr : R s c) :
    ∃ o', Evals env p dst bnd st ⟨s, m⟩ o' ∧ OutRel R o' o := by
  obtain ⟨hn, n, rfl⟩ := h
  have := run_sim hR env n p dst bnd st m hr
  exact ⟨_, ⟨fun h => hn (this.fuel_iff.1 h), n, rfl⟩, this⟩

end
end Abu
