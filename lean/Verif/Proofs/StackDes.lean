import Verif.Proofs.StackRun
/-
Room for destructors.
-/
namespace Abu

/-- No call gets, and nothing returns, an object that is too tall: children fit below `h`, and all
children are `good`. -/
def Cmd.Low (good : Prog → Prop) (h : Nat) {α : Type} (P : α → Prop) : Cmd α → Prop
  | .pure a => P a
  | .fault _ => True
  | .isEmpty k => ∀ b, (k b).Low good h P
  | .isFinal k => ∀ b, (k b).Low good h P
  | .next k => ∀ c, (k c).Low good h P
  | .advance k => k.Low good h P
  | .prepare k => k.Low good h P
  | .commit k => k.Low good h P
  | .cancel k => k.Low good h P
  | .mem _ k => k.Low good h P
  | .alloc _ k => ∀ r, (k r).Low good h P
  | .call q _ _ c k => good q ∧ c.height < h ∧ ∀ r c', c'.height < h → (k r c').Low good h P

section
variable {good : Prog → Prop} {h : Nat}

theorem Cmd.Low.bind {α β : Type} {P : α → Prop} {Q : β → Prop} {x : Cmd α} {g : α → Cmd β}
    (hx : x.Low good h P) (hg : ∀ a, P a → (g a).Low good h Q) : (x.bind g).Low good h Q := by
  induction x with
  | pure a => exact hg a hx
  | fault e => trivial
  | isEmpty k ih => exact fun b => ih b (hx b)
  | isFinal k ih => exact fun b => ih b (hx b)
  | next k ih => exact fun b => ih b (hx b)
  | advance k ih => exact ih hx
  | prepare k ih => exact ih hx
  | commit k ih => exact ih hx
  | cancel k ih => exact ih hx
  | mem o k ih => exact ih hx
  | alloc t k ih => exact fun b => ih b (hx b)
  | call q d b c k ih => exact ⟨hx.1, hx.2.1, fun r c' hc => ih r c' (hx.2.2 r c' hc)⟩

/-- New objects are no taller than their class is large. -/
theorem mk_low (f : Nat → Nat) (p : Prog) (dst bnd : Ref) :
    (mk p dst bnd).Low good h (fun st => st.height < p.weight f) := by
  fun_induction mk p dst bnd
  all_goals first
    | trivial
    | (simp [Cmd.Low, PState.height, Prog.weight]; done)
    | (rename_i ih; exact ih.bind fun c hc => by
        simp only [Cmd.Low, PState.height, Prog.weight, Prog.weightAll] at hc ⊢; omega)
    | (rename_i ih; exact fun b => (ih b).bind fun c hc => by
        simp only [Cmd.Low, PState.height, Prog.weight] at hc ⊢; omega)
    | (rename_i ih2 ih1; exact ih2.bind fun c hc => ih1.bind fun c' hc' => by
        simp only [Cmd.Low, PState.height, Prog.weight] at hc hc' ⊢; omega)

section
variable {env : Env} {c : Nat → Bool} {f : Nat → Nat} {M : Nat}

/-- An iteration leaves no object that is too tall. -/
theorem body_low (hgood : ∀ {lo p b q}, good p → CalledIn env c lo p b q → good q)
    (hw : ∀ p, good p → p.weight f ≤ M) (hM : M < h) {p : Prog} (hp : good p) (dst bnd : Ref)
    (st : PState) (hst : st.height ≤ h) :
    (body env p dst bnd st).Low good h (fun s => s.state.height ≤ h) := by
  have hm : ∀ (q : Prog) (d b : Ref) (k : PState → Cmd Step), good q →
      (∀ c, c.height < h → (k c).Low good h (fun s => s.state.height ≤ h)) →
      ((mk q d b).bind k).Low good h (fun s => s.state.height ≤ h) := fun q d b k hq hk =>
    (mk_low f q d b).bind fun c hc => hk c (by have := hw q hq; omega)
  have hg : ∀ {st atEnd onChar}, st.height ≤ h → atEnd.Low good h (fun s => s.state.height ≤ h) →
      (∀ ch, (onChar ch).Low good h (fun s => s.state.height ≤ h)) →
      (guarded st atEnd onChar).Low good h (fun s => s.state.height ≤ h) := by
    intro st atEnd onChar h1 h2 h3 e
    cases e with
    | false => exact h3
    | true => intro f; cases f with
      | true => exact h2
      | false => exact h1
  cases p with
  | seq slots ps =>
    cases st with
    | seq i ch =>
      simp only [PState.height] at hst
      simp only [body]
      split
      · rename_i hq _
        split
        · trivial
        · refine ⟨hgood (lo := 0) (b := 1) hp (.seq hq (by omega) fun _ _ _ _ _ => by omega),
            by omega, fun r c' hc => ?_⟩
          cases r with
          | SUCCESS =>
            simp only
            split
            · rename_i hq' _
              split
              · trivial
              · refine hm _ _ _ _ (hgood (lo := 0) (b := 1) hp
                  (.seq hq' (by omega) fun _ _ _ _ _ => by omega)) fun c'' hc'' => ?_
                simp only [Cmd.Low, Step.state, PState.height]; omega
            · simp only [Cmd.Low, Step.state, PState.height]; omega
          | _ => simp only [Cmd.Low, Step.state, PState.height]; omega
      · trivial
    | _ => trivial
  | alt ps =>
    cases st with
    | alt i ch =>
      simp only [PState.height] at hst
      simp only [body]
      split
      · rename_i hq
        refine ⟨hgood (lo := 0) (b := 1) hp (.alt hq (by omega)), by omega, fun r c' hc => ?_⟩
        cases r with
        | FAILURE =>
          simp only
          split
          · rename_i hq'
            refine hm _ _ _ _ (hgood (lo := 0) (b := 1) hp (.alt hq' (by omega)))
              fun c'' hc'' => ?_
            simp only [Cmd.Low, Step.state, PState.height]; omega
          · simp only [Cmd.Low, Step.state, PState.height]; omega
        | _ => simp only [Cmd.Low, Step.state, PState.height]; omega
      · trivial
    | _ => trivial
  | rep mn mx q =>
    cases st with
    | rep n ch =>
      simp only [PState.height] at hst
      have hq := hgood (lo := 0) (b := 0) hp (.rep (by omega))
      refine ⟨hq, by omega, fun r c' hc => ?_⟩
      cases r with
      | SUCCESS =>
        simp only
        split
        · simp only [Cmd.Low, Step.state, PState.height]; omega
        · refine hm _ _ _ _ hq fun c'' hc'' => ?_
          simp only [Cmd.Low, Step.state, PState.height]; omega
      | _ => simp only [Cmd.Low, Step.state, PState.height]; omega
    | _ => trivial
  | opt q =>
    cases st with
    | wrap ch =>
      simp only [PState.height] at hst
      refine ⟨hgood (lo := 0) (b := 0) hp (by constructor), by omega, fun r c' hc => ?_⟩
      cases r <;> simp only [Cmd.Low, Step.state, PState.height] <;> omega
    | _ => trivial
  | not q =>
    cases st with
    | wrap ch =>
      simp only [PState.height] at hst
      refine ⟨hgood (lo := 0) (b := 0) hp (by constructor), by omega, fun r c' hc => ?_⟩
      cases r <;> simp only [Cmd.Low, Step.state, PState.height] <;> omega
    | _ => trivial
  | discard q =>
    cases st with
    | wrap ch =>
      simp only [PState.height] at hst
      refine ⟨hgood (lo := 0) (b := 0) hp (by constructor), by omega, fun r c' hc => ?_⟩
      cases r <;> simp only [Cmd.Low, Step.state, PState.height] <;> omega
    | _ => trivial
  | lexeme q =>
    cases st with
    | wrap ch =>
      simp only [PState.height] at hst
      refine ⟨hgood (lo := 0) (b := 0) hp (by constructor), by omega, fun r c' hc => ?_⟩
      cases r <;> simp only [Cmd.Low, Step.state, PState.height] <;> omega
    | _ => trivial
  | bindDst q =>
    cases st with
    | wrap ch =>
      simp only [PState.height] at hst
      refine ⟨hgood (lo := 0) (b := 0) hp (by constructor), by omega, fun r c' hc => ?_⟩
      cases r <;> simp only [Cmd.Low, Step.state, PState.height] <;> omega
    | _ => trivial
  | withSkipper q =>
    cases st with
    | wrap ch =>
      simp only [PState.height] at hst
      refine ⟨hgood (lo := 0) (b := 0) hp (by constructor), by omega, fun r c' hc => ?_⟩
      cases r <;> simp only [Cmd.Low, Step.state, PState.height] <;> omega
    | _ => trivial
  | clean q =>
    cases st with
    | wrap ch =>
      simp only [PState.height] at hst
      refine ⟨hgood (lo := 0) (b := 0) hp (by constructor), by omega, fun r c' hc => ?_⟩
      cases r <;> simp only [Cmd.Low, Step.state, PState.height] <;> omega
    | _ => trivial
  | construct tys q =>
    cases st with
    | buffered bf ch =>
      simp only [PState.height] at hst
      refine ⟨hgood (lo := 0) (b := 0) hp (by constructor), by omega, fun r c' hc => ?_⟩
      cases r <;> simp only [Cmd.Low, Step.state, PState.height] <;> omega
    | _ => trivial
  | action a q =>
    cases st with
    | buffered bf ch =>
      simp only [PState.height] at hst
      refine ⟨hgood (lo := 0) (b := 0) hp (by constructor), by omega, fun r c' hc => ?_⟩
      cases r <;> simp only [Cmd.Low, Step.state, PState.height] <;> omega
    | _ => trivial
  | atomic q =>
    cases st with
    | buffered bf ch =>
      simp only [PState.height] at hst
      refine ⟨hgood (lo := 0) (b := 0) hp (by constructor), by omega, fun r c' hc => ?_⟩
      cases r <;> simp only [Cmd.Low, Step.state, PState.height] <;> omega
    | _ => trivial
  | except op neg =>
    cases st with
    | except b ch =>
      simp only [PState.height] at hst
      cases b with
      | false =>
        refine ⟨hgood (lo := 0) hp .exceptNeg, by omega, fun r c' hc => ?_⟩
        cases r with
        | FAILURE =>
          refine hm _ _ _ _ (hgood (lo := 0) (b := 0) hp (.exceptOp (by omega))) fun c'' hc'' => ?_
          simp only [Cmd.Low, Step.state, PState.height]; omega
        | _ => simp only [Cmd.Low, Step.state, PState.height]; omega
      | true =>
        refine ⟨hgood (lo := 0) (b := 0) hp (.exceptOp (by omega)), by omega, fun r c' hc => ?_⟩
        simp only [Cmd.Low, Step.state, PState.height]; omega
    | _ => trivial
  | list op sep =>
    cases st with
    | list b ch =>
      simp only [PState.height] at hst
      have ho := hgood (lo := 0) (b := 0) hp (.listOp (by omega))
      have hs := hgood (lo := 0) (b := 1) hp (.listSep (by omega) fun _ => by omega)
      cases b with
      | false =>
        refine ⟨ho, by omega, fun r c' hc => ?_⟩
        cases r with
        | SUCCESS =>
          refine hm _ _ _ _ hs fun c'' hc'' => ?_
          simp only [Cmd.Low, Step.state, PState.height]; omega
        | _ => simp only [Cmd.Low, Step.state, PState.height]; omega
      | true =>
        refine ⟨hs, by omega, fun r c' hc => ?_⟩
        cases r with
        | SUCCESS =>
          refine hm _ _ _ _ ho fun c'' hc'' => ?_
          simp only [Cmd.Low, Step.state, PState.height]; omega
        | _ => simp only [Cmd.Low, Step.state, PState.height]; omega
    | _ => trivial
  | recur id sk =>
    cases st with
    | recurNone =>
      simp only [body]
      split
      · trivial
      · rename_i hq
        refine hm _ _ _ _ (hgood (lo := 0) hp (.recur hq)) fun c'' hc'' => ?_
        simp only [Cmd.Low, Step.state, PState.height]; omega
    | recurSome ch =>
      simp only [PState.height] at hst
      simp only [body]
      split
      · trivial
      · rename_i hq
        refine ⟨hgood (lo := 0) hp (.recur hq), by omega, fun r c' hc => ?_⟩
        simp only [Cmd.Low, Step.state, PState.height]; omega
    | _ => trivial
  | skip s q =>
    cases st with
    | skip b sc ch =>
      simp only [PState.height] at hst
      have hs := hgood (lo := 0) (b := 0) hp (.skipper (by omega))
      cases b with
      | false =>
        refine ⟨hs, by omega, fun r c' hc => ?_⟩
        cases r with
        | SUCCESS =>
          refine hm _ _ _ _ hs fun c'' hc'' => ?_
          simp only [Cmd.Low, Step.state, PState.height]; omega
        | _ => simp only [Cmd.Low, Step.state, PState.height]; omega
      | true =>
        refine ⟨hgood (lo := 0) hp .skipped, by omega, fun r c' hc => ?_⟩
        simp only [Cmd.Low, Step.state, PState.height]; omega
    | _ => trivial
  | _ =>
    have h0 : 0 ≤ h := Nat.zero_le h
    cases st <;> first
      | trivial
      | (refine hg (Nat.zero_le _) ?_ ?_ <;> intros <;> (try dsimp only [negIf]) <;> (repeat' split) <;>
          exact h0)
      | (simp only [body]; split <;> first
          | exact h0
          | (refine hg (Nat.zero_le _) ?_ ?_ <;> intros <;> (repeat' split) <;> exact h0))

end
end

section
variable {σ μ : Type} [DataSource σ] [Store μ]

/-- Calls with room for `d` more. -/
def callDes (env : Env) (n : Nat) : Nat → Prog → Ref → Ref → PState → World σ μ →
    Out σ μ (Res × PState)
  | 0 => fun _ _ _ _ _ => .error .ubStack
  | d + 1 => runDes env d n

theorem runDes_succ (env : Env) (d n : Nat) (p dst bnd st) (w : World σ μ) :
    runDes env d (n + 1) p dst bnd st w =
      if d < st.height then .error .ubStack
      else match exec (callDes env n d) (body env p dst bnd st) w with
        | .error e => .error e
        | .ok (.ret r st', w') => if d < st'.height then .error .ubStack else .ok ((r, st'), w')
        | .ok (.cont st', w') => runDes env d n p dst bnd st' w' := by
  cases d with
  | zero => rw [runDes.eq_def]; rfl
  | succ d => rw [runDes.eq_def]; rfl

/-- Room for destructors makes no difference to what is done as long as there is enough. -/
theorem runDes_stk (env : Env) (d n : Nat) (p dst bnd st) (w : World σ μ) :
    runDes env d n p dst bnd st w = runStk env d n p dst bnd st w ∨
      runDes env d n p dst bnd st w = .error .ubStack := by
  induction n generalizing d p dst bnd st w with
  | zero => left; rw [runDes, runStk]
  | succ n ih =>
    have hc : ∀ p e b st (w : World σ μ), callDes env n d p e b st w = callStk env n d p e b st w ∨
        callDes env n d p e b st w = .error .ubStack := by
      cases d with
      | zero => intro p e b st w; exact .inr rfl
      | succ d => intro p e b st w; exact ih _ _ _ _ _ _
    rw [runDes_succ, runStk_succ]
    split
    · exact .inr rfl
    · rcases exec_stk hc (body env p dst bnd st) w with h | h
      · rw [h]
        cases exec (callStk env n d) (body env p dst bnd st) w with
        | error e => exact .inl rfl
        | ok y =>
          obtain ⟨s, w'⟩ := y
          cases s with
          | ret r st' =>
            simp only
            split
            · exact .inr rfl
            · exact .inl rfl
          | cont st' => exact ih _ _ _ _ _ _
      · rw [h]; exact .inr rfl

theorem runDes_watch (env : Env) (d : Nat) : Watches env (runDes env d : Mach σ μ) := by
  intro n p dst bnd st w
  rcases runDes_stk env d n p dst bnd st w with h | h
  · rw [h]; exact runStk_watch env d n p dst bnd st w
  · exact .inr ⟨_, h, rfl⟩

theorem runDes_sim {τ : Type} [DataSource τ] {R : σ → τ → Prop} (hR : DsSim R) (env : Env) (d : Nat)
    (n : Nat) (p dst bnd st) (s c) (m : μ) (hr : R s c) :
    OutRel R (runDes env d n p dst bnd st ⟨s, m⟩) (runDes env d n p dst bnd st ⟨c, m⟩) := by
  induction n generalizing d p dst bnd st s c m with
  | zero => rw [runDes, runDes]; exact .error _
  | succ n ih =>
    have hc : ∀ p d' b st s c (m : μ), R s c →
        OutRel R (callDes env n d p d' b st ⟨s, m⟩) (callDes env n d p d' b st ⟨c, m⟩) := by
      cases d with
      | zero => intro p d' b st s c m _; exact .error _
      | succ d => intro p d' b st s c m h; exact ih _ _ _ _ _ _ _ _ h
    have he := exec_sim hR hc (body env p dst bnd st) m hr
    rw [runDes_succ, runDes_succ]
    split
    · exact .error _
    · generalize exec (callDes env n d) (body env p dst bnd st) ⟨s, m⟩ = x at *
      generalize exec (callDes env n d) (body env p dst bnd st) ⟨c, m⟩ = y at *
      cases he with
      | error e => exact .error e
      | ok a hr' =>
        cases a with
        | ret r st' =>
          simp only
          split
          · exact .error _
          · exact .ok _ hr'
        | cont st' => exact ih _ _ _ _ _ _ _ _ hr'

/-- Commands that handle low objects only. -/
theorem exec_low {good : Prog → Prop} {h : Nat} {α : Type} {P : α → Prop}
    {call call' : Prog → Ref → Ref → PState → World σ μ → Out σ μ (Res × PState)}
    (hc : ∀ q d b st w, good q → st.height < h → call q d b st w ≠ .error .ubStack →
      call' q d b st w = call q d b st w ∧
        ∀ r st' w', call q d b st w = .ok ((r, st'), w') → st'.height < h)
    (x : Cmd α) (hx : x.Low good h P) (w : World σ μ) (hq : exec call x w ≠ .error .ubStack) :
    exec call' x w = exec call x w ∧ ∀ a w', exec call x w = .ok (a, w') → P a := by
  induction x generalizing w with
  | pure a => exact ⟨rfl, fun a' w' he => by cases he; exact hx⟩
  | fault e => exact ⟨rfl, fun a' w' he => by cases he⟩
  | isEmpty k ih => exact ih _ (hx _) w hq
  | isFinal k ih => exact ih _ (hx _) w hq
  | next k ih =>
    simp only [exec] at hq ⊢
    cases hn : DataSource.next w.ds with
    | none => exact ⟨rfl, fun a' w' he => by cases he⟩
    | some ch => rw [hn] at hq; exact ih _ (hx _) w hq
  | advance k ih =>
    simp only [exec] at hq ⊢
    cases hn : DataSource.advance w.ds with
    | none => exact ⟨rfl, fun a' w' he => by cases he⟩
    | some ds => rw [hn] at hq; exact ih hx _ hq
  | prepare k ih => exact ih hx _ hq
  | commit k ih =>
    simp only [exec] at hq ⊢
    cases hn : DataSource.commit w.ds with
    | none => exact ⟨rfl, fun a' w' he => by cases he⟩
    | some ds => rw [hn] at hq; exact ih hx _ hq
  | cancel k ih =>
    simp only [exec] at hq ⊢
    cases hn : DataSource.cancel w.ds with
    | none => exact ⟨rfl, fun a' w' he => by cases he⟩
    | some ds => rw [hn] at hq; exact ih hx _ hq
  | mem o k ih =>
    simp only [exec] at hq ⊢
    cases hn : Store.op o w.mem with
    | error e => exact ⟨rfl, fun a' w' he => by cases he⟩
    | ok m => rw [hn] at hq; exact ih hx _ hq
  | alloc t k ih => exact ih _ (hx _) _ hq
  | call q d b st k ih =>
    simp only [exec] at hq ⊢
    have hn : call q d b st w ≠ .error .ubStack := by
      intro hn; rw [hn] at hq; exact hq rfl
    obtain ⟨h1, h2⟩ := hc q d b st w hx.1 hx.2.1 hn
    rw [h1]
    cases hy : call q d b st w with
    | error e => exact ⟨rfl, fun a' w' he => by cases he⟩
    | ok y =>
      obtain ⟨⟨r, s⟩, w'⟩ := y
      rw [hy] at hq
      exact ih r s (hx.2.2 r s (h2 r s w' hy)) w' hq

variable {env : Env} {c : Nat → Bool} {f : Nat → Nat} {M : Nat} {ok : Prog → Prop}

/-- With room for `d` calls, there is room for all destructors if there is room for the largest
class on top. -/
theorem runDes_eq (hgood : ∀ {lo p b q}, ok p → CalledIn env c lo p b q → ok q)
    (hw : ∀ p, ok p → p.weight f ≤ M) (n d : Nat) (p : Prog) (hp : ok p) (dst bnd : Ref)
    (st : PState) (w : World σ μ) (hst : st.height ≤ d + (M + 1))
    (hq : runStk env d n p dst bnd st w ≠ .error .ubStack) :
    runDes env (d + (M + 1)) n p dst bnd st w = runStk env d n p dst bnd st w ∧
      ∀ r st' w', runStk env d n p dst bnd st w = .ok ((r, st'), w') → st'.height ≤ d + (M + 1) := by
  induction n generalizing d p dst bnd st w with
  | zero =>
    refine ⟨by rw [runDes, runStk], fun r st' w' h => ?_⟩
    rw [runStk] at h; cases h
  | succ n ih =>
    have hc : ∀ q e b st (w : World σ μ), ok q → st.height < d + (M + 1) →
        callStk env n d q e b st w ≠ .error .ubStack →
        callDes env n (d + (M + 1)) q e b st w = callStk env n d q e b st w ∧
          ∀ r st' w', callStk env n d q e b st w = .ok ((r, st'), w') →
            st'.height < d + (M + 1) := by
      intro q e b st w hk hst hn
      cases d with
      | zero => exact absurd rfl hn
      | succ d =>
        have h := ih d q hk e b st w (by omega) hn
        rw [show d + 1 + (M + 1) = (d + (M + 1)) + 1 by omega]
        refine ⟨h.1, fun r st' w' he => ?_⟩
        have := h.2 r st' w' he
        omega
    have hb := body_low hgood hw (h := d + (M + 1)) (by omega) hp dst bnd st hst
    have hx : exec (callStk env n d) (body env p dst bnd st) w ≠ .error .ubStack := by
      intro hx; rw [runStk_succ, hx] at hq; exact hq rfl
    obtain ⟨h1, h2⟩ := exec_low hc _ hb w hx
    rw [runDes_succ, if_neg (by omega), h1]
    rw [runStk_succ] at hq ⊢
    cases hy : exec (callStk env n d) (body env p dst bnd st) w with
    | error e => exact ⟨rfl, fun r st' w' h => by cases h⟩
    | ok y =>
      obtain ⟨s, w'⟩ := y
      rw [hy] at hq
      have h3 := h2 s w' hy
      cases s with
      | ret r st' =>
        simp only [Step.state] at h3
        simp only
        rw [if_neg (by omega)]
        exact ⟨rfl, fun r' st'' w'' h => by cases h; exact h3⟩
      | cont st' => exact ih d p hp dst bnd st' w' h3 hq

end

/-! ### The entry points -/

/-- `mach₂` does what `mach` does, for objects of class `p` with `G`, if the stack is large enough
for `mach`. -/
def AgreesStk {σ : Type} (G : PState → Prop) (p : Prog) (mach mach₂ : Mach σ Mem) : Prop :=
  ∀ n dst bnd st w, G st → mach n p dst bnd st w ≠ .error .ubStack →
    mach₂ n p dst bnd st w = mach n p dst bnd st w ∧
      ∀ r st' w', mach n p dst bnd st w = .ok ((r, st'), w') → G st'

/-- New objects are low. -/
theorem construct_low {σ : Type} [DataSource σ] (f : Nat → Nat) {p : Prog} {dst bnd st}
    {w w' : World σ Mem} (h : construct p dst bnd w = .ok (st, w')) : st.height < p.weight f := by
  unfold construct at h
  refine (exec_low (good := fun _ => True) (h := 0)
    (call := fun _ _ _ _ _ => .error .stuck) (call' := fun _ _ _ _ _ => .error .stuck)
    (fun _ _ _ _ _ _ _ _ => ⟨rfl, fun _ _ _ h => by cases h⟩) _ (mk_low f p dst bnd) w ?_).2 _ _ h
  rw [h]; intro hx; cases hx

section
variable {env : Env} {c : Nat → Bool} {lim lo : Nat} {p : Prog} {G : PState → Prop}

theorem CountedAt.agrees {σ : Type} [DataSource σ] {R : σ → Cursor → Prop} {mach mach₂ : Mach σ Mem}
    {mach' : Mach Cursor Mem} (hM : Checked R env c false lim lo p mach mach')
    (hA : AgreesStk G p mach mach₂) {more dst bnd st} {w : World σ Mem}
    (h : CountedAt R env c false lim lo more p st w) (hG : G st) (n : Nat) :
    mach₂ n p dst bnd st w = run env n p dst bnd st w ∧
      ∀ r st' w', run env n p dst bnd st w = .ok ((r, st'), w') → G st' := by
  rw [← h.run_eq hM]
  refine hA n dst bnd st w hG fun hx => ?_
  exact h.quiet hM (e := .ubStack) rfl ⟨(by simp), n, hx⟩

theorem CountedAt.agrees_evals {σ : Type} [DataSource σ] {R : σ → Cursor → Prop}
    {mach mach₂ : Mach σ Mem} {mach' : Mach Cursor Mem}
    (hM : Checked R env c false lim lo p mach mach')
    (hA : AgreesStk G p mach mach₂) {more dst bnd st} {w : World σ Mem}
    (h : CountedAt R env c false lim lo more p st w) (hG : G st) {o} :
    EvalsBy mach₂ p dst bnd st w o ↔ Evals env p dst bnd st w o := by
  unfold EvalsBy Evals
  simp only [(h.agrees hM hA hG _).1]

theorem CountedAt.agrees_low {σ : Type} [DataSource σ] {R : σ → Cursor → Prop}
    {mach mach₂ : Mach σ Mem} {mach' : Mach Cursor Mem}
    (hM : Checked R env c false lim lo p mach mach')
    (hA : AgreesStk G p mach mach₂) {more dst bnd st} {w : World σ Mem}
    (h : CountedAt R env c false lim lo more p st w) (hG : G st) {r st' w'}
    (he : Evals env p dst bnd st w (.ok ((r, st'), w'))) : G st' := by
  obtain ⟨_, n, hn⟩ := he
  exact (h.agrees hM hA hG n).2 r st' w' hn

variable {mach mach₂ : Mach ContainerSeq Mem} {mach' : Mach Cursor Mem}

theorem SessionBy.plain_low (hM : Checked ContainerSeq.Rel env c false lim lo p mach mach')
    (hA : AgreesStk G p mach mach₂) {dst st} {w : World ContainerSeq Mem} {ops v}
    (h : SessionBy mach₂ ContainerSeq.addBuffer p dst st w ops v)
    (hc : CountedAt ContainerSeq.Rel env c false lim lo (opsText ops).length p st w) (hG : G st) :
    Session ContainerSeq.addBuffer env p dst st w ops v := by
  induction h with
  | nil h => exact .nil h
  | addBad h => exact .addBad h
  | @add st w b f ops ds v h _ ih =>
    rw [opsText, List.length_append] at hc
    exact .add h (ih (hc.add h) hG)
  | error h => exact .error ((hc.agrees_evals hM hA hG).1 h)
  | verdict h hn hrd => exact .verdict ((hc.agrees_evals hM hA hG).1 h) hn hrd
  | more h _ ih =>
    have h' := (hc.agrees_evals hM hA hG).1 h
    exact .more h' (ih (hc.partial hM h') (hc.agrees_low hM hA hG h'))

theorem Session.checked_low (hM : Checked ContainerSeq.Rel env c false lim lo p mach mach')
    (hA : AgreesStk G p mach mach₂) {dst st} {w : World ContainerSeq Mem} {ops v}
    (h : Session ContainerSeq.addBuffer env p dst st w ops v)
    (hc : CountedAt ContainerSeq.Rel env c false lim lo (opsText ops).length p st w) (hG : G st) :
    SessionBy mach₂ ContainerSeq.addBuffer p dst st w ops v := by
  induction h with
  | nil h => exact .nil h
  | addBad h => exact .addBad h
  | @add st w b f ops ds v h _ ih =>
    rw [opsText, List.length_append] at hc
    exact .add h (ih (hc.add h) hG)
  | error h => exact .error ((hc.agrees_evals hM hA hG).2 h)
  | verdict h hn hrd => exact .verdict ((hc.agrees_evals hM hA hG).2 h) hn hrd
  | more h _ ih =>
    exact .more ((hc.agrees_evals hM hA hG).2 h) (ih (hc.partial hM h) (hc.agrees_low hM hA hG h))

end

section
variable {env : Env} {c : Nat → Bool} {lim : Nat} {p : Pat} {mach' : Mach Cursor Mem}
  {G : PState → Prop} {f : Nat → Nat}

theorem ParsesBy.iff_low {mach mach₂ : Mach SingleForward Mem}
    (hM : Checked SingleForward.Rel env c false lim 0 (topParser p) mach mach')
    (hA : AgreesStk G (topParser p) mach mach₂)
    (hG : ∀ st, st.height < (topParser p).weight f → G st)
    (hp : (topParser p).countsFit false lim c = true) {dst m} {t : List Ch} (ht : t.length ≤ lim) {v} :
    ParsesBy mach₂ p dst m t v ↔ Parses env p dst m t v := by
  have hat : ∀ {st w}, Abu.construct (topParser p) dst dst
      (⟨SingleForward.make t, m⟩ : World SingleForward Mem) = .ok (st, w) →
      CountedAt SingleForward.Rel env c false lim 0 0 (topParser p) st w := fun h =>
    construct_counted (k := Cursor.whole t) SingleForward.dsSim hp (SingleForward.rel_make t) rfl
      (Nat.zero_le _) (by simpa [Cursor.whole] using ht) h
  constructor
  · intro h
    cases h with
    | construct h => exact .construct h
    | error h h' =>
      exact .error h (((hat h).agrees_evals hM hA (hG _ (construct_low f h))).1 h')
    | ok h h' hr =>
      exact .ok h (((hat h).agrees_evals hM hA (hG _ (construct_low f h))).1 h') hr
  · intro h
    cases h with
    | construct h => exact .construct h
    | error h h' =>
      exact .error h (((hat h).agrees_evals hM hA (hG _ (construct_low f h))).2 h')
    | ok h h' hr =>
      exact .ok h (((hat h).agrees_evals hM hA (hG _ (construct_low f h))).2 h') hr

theorem MakeParserRunBy.iff_low {mach mach₂ : Mach ContainerSeq Mem}
    (hM : Checked ContainerSeq.Rel env c false lim 0 (topParser p) mach mach')
    (hA : AgreesStk G (topParser p) mach mach₂)
    (hG : ∀ st, st.height < (topParser p).weight f → G st)
    (hp : (topParser p).countsFit false lim c = true) {dst m} {ops : List SOp}
    (ht : (opsText ops).length ≤ lim) {v} :
    MakeParserRunBy mach₂ p dst m ops v ↔ MakeParserRun env p dst m ops v := by
  have hat : ∀ {st w}, Abu.construct (topParser p) dst dst
      (⟨ContainerSeq.make, m⟩ : World ContainerSeq Mem) = .ok (st, w) →
      CountedAt ContainerSeq.Rel env c false lim 0 (opsText ops).length (topParser p) st w :=
    fun h => construct_counted (k := Cursor.start) ContainerSeq.dsSim hp ⟨_, ContainerSeq.sim_make⟩
      rfl (Nat.zero_le _) (by simpa [Cursor.start] using ht) h
  constructor
  · intro h
    cases h with
    | construct h => exact .construct h
    | run h h' => exact .run h (h'.plain_low hM hA (hat h) (hG _ (construct_low f h)))
  · intro h
    cases h with
    | construct h => exact .construct h
    | run h h' => exact .run h (h'.checked_low hM hA (hat h) (hG _ (construct_low f h)))

end

theorem runDes_agrees {σ : Type} [DataSource σ] {env : Env} {c : Nat → Bool} {f : Nat → Nat}
    {M : Nat} {ok : Prog → Prop}
    (hgood : ∀ {lo p b q}, ok p → CalledIn env c lo p b q → ok q)
    (hw : ∀ p, ok p → p.weight f ≤ M) {d : Nat} {p : Prog} (hp : ok p) :
    AgreesStk (σ := σ) (fun st => st.height ≤ d + (M + 1)) p (runStk env d)
      (runDes env (d + (M + 1))) :=
  fun n dst bnd st w hG hq => runDes_eq hgood hw n d p hp dst bnd st w hG hq

end Abu
