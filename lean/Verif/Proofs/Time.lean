import Verif.Model.Time
import Verif.Proofs.Erase
/-
Counting iterations: independence of the bound of `run`, of the data source and of the memory.
-/
namespace Abu

section
variable {σ μ : Type} [DataSource σ] [Store μ]

theorem steps_succ (env : Env) (n : Nat) (p dst bnd st) (w : World σ μ) :
    steps env (n + 1) p dst bnd st w =
      1 + callSteps (run env n) (steps env n) (body env p dst bnd st) w +
      match exec (run env n) (body env p dst bnd st) w with
      | .ok (.cont st', w') => steps env n p dst bnd st' w'
      | _ => 0 := rfl

/-- One bound and a larger one. -/
structure CostLe (f g : Prog → Ref → Ref → PState → World σ μ → Out σ μ (Res × PState))
    (cf cg : Prog → Ref → Ref → PState → World σ μ → Nat) : Prop where
  call : CallLe f g
  le : ∀ p d b s w, cf p d b s w ≤ cg p d b s w
  eq : ∀ p d b s w, f p d b s w ≠ .error .fuel → cg p d b s w = cf p d b s w

theorem callSteps_mono {f g cf cg} (h : CostLe f g cf cg) {α : Type} (c : Cmd α) (w : World σ μ) :
    callSteps f cf c w ≤ callSteps g cg c w ∧
    (exec f c w ≠ .error .fuel → callSteps g cg c w = callSteps f cf c w) := by
  induction c generalizing w with
  | pure a => exact ⟨Nat.le_refl _, fun _ => rfl⟩
  | fault e => exact ⟨Nat.le_refl _, fun _ => rfl⟩
  | isEmpty k ih => exact ih _ _
  | isFinal k ih => exact ih _ _
  | next k ih =>
    simp only [exec, callSteps]
    cases DataSource.next w.ds with
    | none => exact ⟨Nat.le_refl _, fun _ => rfl⟩
    | some c => exact ih _ _
  | advance k ih =>
    simp only [exec, callSteps]
    cases DataSource.advance w.ds with
    | none => exact ⟨Nat.le_refl _, fun _ => rfl⟩
    | some c => exact ih _
  | prepare k ih => exact ih _
  | commit k ih =>
    simp only [exec, callSteps]
    cases DataSource.commit w.ds with
    | none => exact ⟨Nat.le_refl _, fun _ => rfl⟩
    | some c => exact ih _
  | cancel k ih =>
    simp only [exec, callSteps]
    cases DataSource.cancel w.ds with
    | none => exact ⟨Nat.le_refl _, fun _ => rfl⟩
    | some c => exact ih _
  | mem o k ih =>
    simp only [exec, callSteps]
    cases Store.op o w.mem with
    | error e => exact ⟨Nat.le_refl _, fun _ => rfl⟩
    | ok c => exact ih _
  | alloc t k ih => exact ih _ _
  | call p d b s k ih =>
    simp only [exec, callSteps]
    have h1 := h.le p d b s w
    have h2 := h.eq p d b s w
    have h3 := h.call p d b s w
    cases hf : f p d b s w with
    | error e =>
      rw [hf] at h2 h3
      refine ⟨?_, fun hn => ?_⟩
      · simp only; omega
      · have hn : (.error e : Out σ μ (Res × PState)) ≠ .error .fuel := by
          intro h; cases h; exact hn rfl
        rw [h2 hn, h3 hn]
    | ok x =>
      obtain ⟨⟨r, s'⟩, w'⟩ := x
      rw [hf] at h2 h3
      rw [h2 (by simp), h3 (by simp)]
      have := ih r s' w'
      refine ⟨?_, fun hn => ?_⟩
      · simp only; omega
      · simp only; rw [this.2 hn]

theorem steps_costLe (env : Env) (n : Nat) :
    CostLe (run env n : _ → _ → _ → _ → World σ μ → _) (run env (n + 1)) (steps env n)
      (steps env (n + 1)) := by
  induction n with
  | zero =>
    exact ⟨run_succ env 0, fun _ _ _ _ _ => Nat.zero_le _, fun _ _ _ _ _ h => absurd rfl h⟩
  | succ n ih =>
    have key : ∀ p d b s (w : World σ μ),
        steps env (n + 1) p d b s w ≤ steps env (n + 2) p d b s w ∧
        (run env (n + 1) p d b s w ≠ .error .fuel →
          steps env (n + 2) p d b s w = steps env (n + 1) p d b s w) := by
      intro p d b s w
      rw [steps_succ env (n + 1), steps_succ env n, run_succ_eq env n]
      have h1 := callSteps_mono ih (body env p d b s) w
      have h2 := exec_mono ih.call (body env p d b s) w
      cases he : exec (run env n) (body env p d b s) w with
      | error e =>
        rw [he] at h1 h2
        refine ⟨?_, fun hn => ?_⟩
        · simp only; omega
        · have hn : (.error e : Out σ μ Step) ≠ .error .fuel := by
            intro h; cases h; exact hn rfl
          rw [h1.2 hn, h2 hn]
      | ok x =>
        obtain ⟨s', w'⟩ := x
        rw [he] at h1 h2
        rw [h1.2 (by simp), h2 (by simp)]
        cases s' with
        | ret r st' => exact ⟨Nat.le_refl _, fun _ => rfl⟩
        | cont st' =>
          simp only
          refine ⟨Nat.add_le_add_left (ih.le _ _ _ _ _) _, fun hn => ?_⟩
          rw [ih.eq _ _ _ _ _ hn]
    exact ⟨run_succ env (n + 1), fun p d b s w => (key p d b s w).1,
      fun p d b s w => (key p d b s w).2⟩

theorem steps_mono (env : Env) {n m : Nat} (hnm : n ≤ m) :
    CostLe (run env n : _ → _ → _ → _ → World σ μ → _) (run env m) (steps env n) (steps env m) := by
  refine ⟨run_mono env hnm, ?_, ?_⟩
  · induction hnm with
    | refl => intro _ _ _ _ _; exact Nat.le_refl _
    | step _ ih => intro p d b s w; exact Nat.le_trans (ih p d b s w) ((steps_costLe env _).le p d b s w)
  · induction hnm with
    | refl => intro _ _ _ _ _ _; rfl
    | @step m hm ih =>
      intro p d b s w h
      rw [(steps_costLe env m).eq p d b s w (by rw [run_mono env hm p d b s w h]; exact h),
        ih p d b s w h]

/-- Once a parse has ended, the number of iterations is settled. -/
theorem steps_unique (env : Env) {n m : Nat} {p d b s} {w : World σ μ}
    (hn : run env n p d b s w ≠ .error .fuel) (hm : run env m p d b s w ≠ .error .fuel) :
    steps env n p d b s w = steps env m p d b s w := by
  rcases Nat.le_total n m with h | h
  · exact ((steps_mono env h).eq _ _ _ _ _ hn).symm
  · exact (steps_mono env h).eq _ _ _ _ _ hm

/-- Before that, there are no more iterations. -/
theorem steps_le (env : Env) {n m : Nat} {p d b s} {w : World σ μ}
    (hm : run env m p d b s w ≠ .error .fuel) :
    steps env n p d b s w ≤ steps env m p d b s w := by
  rcases Nat.le_total n m with h | h
  · exact (steps_mono env h).le _ _ _ _ _
  · rw [(steps_mono env h).eq _ _ _ _ _ hm]; exact Nat.le_refl _

theorem callSteps_bind (call : Prog → Ref → Ref → PState → World σ μ → Out σ μ (Res × PState)) (cost)
    {α β : Type} (x : Cmd α) (k : α → Cmd β) (w : World σ μ) :
    callSteps call cost (x.bind k) w = callSteps call cost x w +
      match exec call x w with
      | .ok (a, w') => callSteps call cost (k a) w'
      | .error _ => 0 := by
  induction x generalizing w with
  | pure a => simp [Cmd.bind, callSteps, exec]
  | fault e => simp [Cmd.bind, callSteps, exec]
  | isEmpty k ih => exact ih _ _
  | isFinal k ih => exact ih _ _
  | next k ih =>
    simp only [Cmd.bind, exec, callSteps]
    cases DataSource.next w.ds with
    | none => rfl
    | some c => exact ih _ _
  | advance k ih =>
    simp only [Cmd.bind, exec, callSteps]
    cases DataSource.advance w.ds with
    | none => rfl
    | some c => exact ih _
  | prepare k ih => exact ih _
  | commit k ih =>
    simp only [Cmd.bind, exec, callSteps]
    cases DataSource.commit w.ds with
    | none => rfl
    | some c => exact ih _
  | cancel k ih =>
    simp only [Cmd.bind, exec, callSteps]
    cases DataSource.cancel w.ds with
    | none => rfl
    | some c => exact ih _
  | mem o k ih =>
    simp only [Cmd.bind, exec, callSteps]
    cases Store.op o w.mem with
    | error e => rfl
    | ok c => exact ih _
  | alloc t k ih => exact ih _ _
  | call p d b s k ih =>
    simp only [Cmd.bind, exec, callSteps]
    cases call p d b s w with
    | error e => rfl
    | ok x =>
      obtain ⟨⟨r, s'⟩, w'⟩ := x
      simp only [ih, Nat.add_assoc]

/-- Constructors call no `consume`. -/
theorem callSteps_mk (call : Prog → Ref → Ref → PState → World σ μ → Out σ μ (Res × PState)) (cost)
    (p : Prog) (dst bnd : Ref) (w : World σ μ) : callSteps call cost (mk p dst bnd) w = 0 := by
  have hb : ∀ {α β : Type} {x : Cmd α} {k : α → Cmd β} {w : World σ μ},
      callSteps call cost x w = 0 → (∀ a w, callSteps call cost (k a) w = 0) →
      callSteps call cost (x.bind k) w = 0 := by
    intro α β x k w h1 h2
    rw [callSteps_bind, h1]
    cases exec call x w with
    | error e => rfl
    | ok y => obtain ⟨a, w'⟩ := y; simp only [h2]
  fun_induction mk p dst bnd generalizing w
  case case11 ih => exact hb (ih w) fun _ _ => rfl
  case case29 ih1 ih2 => exact hb (ih1 w) fun _ w => hb (ih2 w) fun _ _ => rfl
  all_goals first
    | rfl
    | (simp only [callSteps]; split <;> rfl)
    | (rename_i ih; exact hb (ih w) fun _ _ => rfl)
    | (rename_i ih; exact hb (ih _ _) fun _ _ => rfl)

end

/-! ### Change of data source -/

section
variable {σ τ μ : Type} [DataSource σ] [DataSource τ] [Store μ] {R : σ → τ → Prop}

theorem callSteps_sim (hR : DsSim R)
    {f : Prog → Ref → Ref → PState → World σ μ → Out σ μ (Res × PState)}
    {g : Prog → Ref → Ref → PState → World τ μ → Out τ μ (Res × PState)} {cf cg}
    (h : ∀ p d b st s c m, R s c → OutRel R (f p d b st ⟨s, m⟩) (g p d b st ⟨c, m⟩))
    (hc : ∀ p d b st s c m, R s c → cf p d b st ⟨s, m⟩ = cg p d b st ⟨c, m⟩)
    {α : Type} (x : Cmd α) {s c} (m : μ) (hr : R s c) :
    callSteps f cf x ⟨s, m⟩ = callSteps g cg x ⟨c, m⟩ := by
  induction x generalizing s c m with
  | pure a => rfl
  | fault e => rfl
  | isEmpty k ih => simp only [callSteps]; rw [hR.empty hr]; exact ih _ m hr
  | isFinal k ih => simp only [callSteps]; rw [hR.final hr]; exact ih _ m hr
  | next k ih =>
    simp only [callSteps]; rw [hR.next hr]
    cases DataSource.next c with
    | none => rfl
    | some ch => exact ih _ m hr
  | advance k ih =>
    have := hR.advance hr
    simp only [callSteps]
    generalize DataSource.advance s = x at *
    generalize DataSource.advance c = y at *
    cases this with
    | none => rfl
    | some h => exact ih m h
  | prepare k ih => exact ih m (hR.prepare hr)
  | commit k ih =>
    have := hR.commit hr
    simp only [callSteps]
    generalize DataSource.commit s = x at *
    generalize DataSource.commit c = y at *
    cases this with
    | none => rfl
    | some h => exact ih m h
  | cancel k ih =>
    have := hR.cancel hr
    simp only [callSteps]
    generalize DataSource.cancel s = x at *
    generalize DataSource.cancel c = y at *
    cases this with
    | none => rfl
    | some h => exact ih m h
  | mem o k ih =>
    simp only [callSteps]
    cases Store.op o m with
    | error e => rfl
    | ok m' => exact ih m' hr
  | alloc t k ih => exact ih _ _ hr
  | call p d b st k ih =>
    simp only [callSteps]
    have h1 := h p d b st s c m hr
    rw [hc p d b st s c m hr]
    generalize f p d b st ⟨s, m⟩ = x at *
    generalize g p d b st ⟨c, m⟩ = y at *
    cases h1 with
    | error e => rfl
    | ok a hr' => simp only; rw [ih _ _ _ hr']

theorem steps_sim (hR : DsSim R) (env : Env) (n : Nat) (p dst bnd st) {s c} (m : μ) (hr : R s c) :
    steps env n p dst bnd st ⟨s, m⟩ = steps env n p dst bnd st ⟨c, m⟩ := by
  induction n generalizing p dst bnd st s c m with
  | zero => rfl
  | succ n ih =>
    have he := exec_sim hR (fun p d b st s c m h => run_sim hR env n p d b st m h)
      (body env p dst bnd st) m hr
    rw [steps_succ, steps_succ, callSteps_sim hR (fun p d b st s c m h => run_sim hR env n p d b st m h)
      (fun p d b st s c m h => ih p d b st m h) _ m hr]
    generalize exec (run env n) (body env p dst bnd st) ⟨s, m⟩ = x at *
    generalize exec (run env n) (body env p dst bnd st) ⟨c, m⟩ = y at *
    cases he with
    | error e => rfl
    | ok a hr' =>
      cases a with
      | ret r st' => rfl
      | cont st' => simp only; rw [ih _ _ _ _ _ hr']

end

/-! ### Change of memory -/

section
variable {σ : Type} [DataSource σ] {g : Act → Act}

theorem callSteps_er {call : Prog → Ref → Ref → PState → World σ Mem → Out σ Mem (Res × PState)}
    {call' : Prog → Ref → Ref → PState → World σ Unit → Out σ Unit (Res × PState)} {cost cost'}
    (hcall : ∀ p d b st w, ErOut eraseRes (call p d b st w)
      (call' (p.mapAct g) .nil .nil st.erase ⟨w.ds, ()⟩))
    (hcost : ∀ p d b st w, cost p d b st w ≤ cost' (p.mapAct g) .nil .nil st.erase ⟨w.ds, ()⟩)
    (heq : ∀ p d b st w a, call p d b st w = .ok a →
      cost p d b st w = cost' (p.mapAct g) .nil .nil st.erase ⟨w.ds, ()⟩)
    {α : Type} {f : α → α} {x y : Cmd α} (h : Er g f x y) (w : World σ Mem) :
    callSteps call cost x w ≤ callSteps call' cost' y ⟨w.ds, ()⟩ ∧
    (∀ a, exec call x w = .ok a → callSteps call cost x w = callSteps call' cost' y ⟨w.ds, ()⟩) := by
  induction h generalizing w with
  | pure a => exact ⟨Nat.le_refl _, fun _ _ => rfl⟩
  | fault e => exact ⟨Nat.le_refl _, fun _ h => by cases h⟩
  | noCompile y => exact ⟨Nat.zero_le _, fun _ h => by cases h⟩
  | stuck y => exact ⟨Nat.zero_le _, fun _ h => by cases h⟩
  | isEmpty _ ih => exact ih _ w
  | isFinal _ ih => exact ih _ w
  | next _ ih =>
    simp only [exec, callSteps]
    cases DataSource.next w.ds with
    | none => exact ⟨Nat.le_refl _, fun _ _ => rfl⟩
    | some c => exact ih c w
  | advance _ ih =>
    simp only [exec, callSteps]
    cases DataSource.advance w.ds with
    | none => exact ⟨Nat.le_refl _, fun _ _ => rfl⟩
    | some ds => exact ih ⟨ds, w.mem⟩
  | prepare _ ih => exact ih ⟨DataSource.prepare w.ds, w.mem⟩
  | commit _ ih =>
    simp only [exec, callSteps]
    cases DataSource.commit w.ds with
    | none => exact ⟨Nat.le_refl _, fun _ _ => rfl⟩
    | some ds => exact ih ⟨ds, w.mem⟩
  | cancel _ ih =>
    simp only [exec, callSteps]
    cases DataSource.cancel w.ds with
    | none => exact ⟨Nat.le_refl _, fun _ _ => rfl⟩
    | some ds => exact ih ⟨ds, w.mem⟩
  | @mem o o' k k' _ ih =>
    simp only [exec, callSteps]
    have h2 : Store.op o' () = .ok () := rfl
    rw [h2]
    cases h : Store.op o w.mem with
    | error e => exact ⟨Nat.zero_le _, fun _ h => by cases h⟩
    | ok m => exact ih ⟨w.ds, m⟩
  | @alloc t t' k k' _ ih => exact ih _ ⟨w.ds, _⟩
  | @call p d b st k k' _ ih =>
    simp only [exec, callSteps]
    have h1 := hcall p d b st w
    have h2 := hcost p d b st w
    have h3 := heq p d b st w
    generalize call p d b st w = x at h1 h3
    generalize call' (p.mapAct g) .nil .nil st.erase ⟨w.ds, ()⟩ = y at h1
    cases h1 with
    | ok a w1 =>
      rw [h3 _ rfl]
      have := ih a.1 a.2 w1
      refine ⟨Nat.add_le_add_left this.1 _, fun b hb => ?_⟩
      simp only [eraseRes]
      rw [this.2 b hb]
    | same e => exact ⟨by simp only; omega, fun _ h => by cases h⟩
    | mem y he => exact ⟨by simp only; omega, fun _ h => by cases h⟩

theorem steps_er (hg : ∀ a, (g a).void = a.void) (env : Env) (n : Nat) (p dst bnd st)
    (w : World σ Mem) :
    steps env n p dst bnd st w ≤
      steps (env.mapAct g) n (p.mapAct g) .nil .nil st.erase ⟨w.ds, ()⟩ ∧
    (∀ a, run env n p dst bnd st w = .ok a → steps env n p dst bnd st w =
      steps (env.mapAct g) n (p.mapAct g) .nil .nil st.erase ⟨w.ds, ()⟩) := by
  induction n generalizing p dst bnd st w with
  | zero => exact ⟨Nat.le_refl _, fun _ h => by cases h⟩
  | succ n ih =>
    have hc := callSteps_er (g := g) (call := run env n) (call' := run (env.mapAct g) n) (fun p d b st w => run_er hg env n p d b st w)
      (fun p d b st w => (ih p d b st w).1) (fun p d b st w => (ih p d b st w).2)
      (body_er hg env p dst bnd st) w
    have he := exec_er (call := run env n) (fun p d b st w => run_er hg env n p d b st w)
      (body_er hg env p dst bnd st) w
    rw [steps_succ, steps_succ, run_succ_eq]
    generalize exec (run env n) (body env p dst bnd st) w = x at *
    generalize exec (run (env.mapAct g) n) (body (env.mapAct g) (p.mapAct g) .nil .nil st.erase)
      ⟨w.ds, ()⟩ = y at *
    cases he with
    | ok s w1 =>
      have h2 := hc.2 _ rfl
      rw [h2]
      cases s with
      | ret r st' => exact ⟨Nat.le_refl _, fun _ _ => rfl⟩
      | cont st' =>
        simp only [Step.erase]
        exact ⟨Nat.add_le_add_left (ih _ _ _ _ _).1 _,
          fun a ha => by rw [(ih _ _ _ _ _).2 a ha]⟩
    | same e => exact ⟨by have := hc.1; simp only; omega, fun _ h => by cases h⟩
    | mem y he => exact ⟨by have := hc.1; simp only; omega, fun _ h => by cases h⟩

end
end Abu
