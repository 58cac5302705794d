import Verif.Proofs.Checked
/-
The machine with checked counters.
-/
namespace Abu

theorem runCnt_counts {μ : Type} [Store μ] {env : Env} {c : Nat → Bool} {lim : Nat}
    (hμ : QuietOps μ) (henv : env.CountsFit lim c) (n : Nat) (lo : Nat) (p : Prog) :
    CallAt env c true lim (runCnt lim env n : _ → _ → _ → _ → World Cursor μ → _) lo p := by
  induction n generalizing lo p with
  | zero => intro d b st w L S _ _ _ _; exact rfl
  | succ n ih =>
    intro d b st w L S hf ht hs ho
    have h := body_counts hμ henv.counts (fun _ => ih _ _) d b w S hf ht hs ho
    simp only [runCnt]
    cases hx : exec (runCnt lim env n) (body env p d b st) w with
    | error e => rw [hx] at h; exact h
    | ok y =>
      obtain ⟨s, w'⟩ := y
      rw [hx] at h
      cases s with
      | ret r st' =>
        have hn : ¬ lim < (Step.ret r st').state.counter := Nat.not_lt.2 (h.2 rfl)
        simp only [hn, if_false]
        exact h.1
      | cont st' =>
        obtain ⟨h1, L', h2, h3⟩ := h
        have hn : ¬ lim < (Step.cont st').state.counter := Nat.not_lt.2 (h3.counter hf rfl)
        simp only [hn, if_false]
        exact ih _ _ _ _ _ _ L' S hf h1 h2 h3

section
variable {σ μ : Type} [DataSource σ] [Store μ]

/-- Checking the counters makes no difference until one of them overflows. -/
theorem runCnt_watch (lim : Nat) (env : Env) : Watches env (runCnt lim env : Mach σ μ) := by
  intro n p dst bnd st w
  induction n generalizing p dst bnd st w with
  | zero => exact .inl rfl
  | succ n ih =>
    simp only [runCnt, run]
    rcases exec_watch (fun p d b st w => ih p d b st w) (body env p dst bnd st) w with h | ⟨e, h, he⟩
    · rw [h]
      cases exec (run env n) (body env p dst bnd st) w with
      | error e => exact .inl rfl
      | ok y =>
        obtain ⟨s, w'⟩ := y
        simp only
        split
        · exact .inr ⟨_, rfl, rfl⟩
        · cases s with
          | ret r st' => exact .inl rfl
          | cont st' => exact ih _ _ _ _ _
    · rw [h]; exact .inr ⟨e, rfl, he⟩

/-- Parsers with checked counters cannot tell related data sources apart. -/
theorem runCnt_sim {τ : Type} [DataSource τ] {R : σ → τ → Prop} (hR : DsSim R) (lim : Nat) (env : Env)
    (n : Nat) (p dst bnd st) (s c) (m : μ) (hr : R s c) :
    OutRel R (runCnt lim env n p dst bnd st ⟨s, m⟩) (runCnt lim env n p dst bnd st ⟨c, m⟩) := by
  induction n generalizing p dst bnd st s c m with
  | zero => exact .error _
  | succ n ih =>
    have he := exec_sim hR (fun p d b st s c m h => ih p d b st s c m h) (body env p dst bnd st) m hr
    simp only [runCnt]
    generalize exec (runCnt lim env n) (body env p dst bnd st) ⟨s, m⟩ = x at *
    generalize exec (runCnt lim env n) (body env p dst bnd st) ⟨c, m⟩ = y at *
    cases he with
    | error e => exact .error e
    | ok a hr' =>
      simp only
      split
      · exact .error _
      · cases a with
        | ret r st' => exact .ok _ hr'
        | cont st' => exact ih _ _ _ _ _ _ _ hr'

end

theorem runCnt_checked {σ : Type} [DataSource σ] {R : σ → Cursor → Prop} (hR : DsSim R) {env : Env}
    {c : Nat → Bool} {lim : Nat} (henv : env.CountsFit lim c) (lo : Nat) (p : Prog) :
    Checked R env c true lim lo p (runCnt lim env) (runCnt lim env) where
  watch := runCnt_watch lim env
  watch' := runCnt_watch lim env
  sim n p d b st s k m hr := runCnt_sim hR lim env n p d b st s k m hr
  call n := runCnt_counts mem_quietOps henv n lo p

end Abu
