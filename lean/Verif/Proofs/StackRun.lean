import Verif.Model.Stack
import Verif.Proofs.StackSize
/-
The machine with a bounded stack.
-/
namespace Abu

section
variable {σ μ : Type} [DataSource σ] [Store μ]

/-- Calls with room for `d` more. -/
def callStk (env : Env) (n : Nat) : Nat → Prog → Ref → Ref → PState → World σ μ →
    Out σ μ (Res × PState)
  | 0 => fun _ _ _ _ _ => .error .ubStack
  | d + 1 => runStk env d n

theorem runStk_succ (env : Env) (d n : Nat) (p dst bnd st) (w : World σ μ) :
    runStk env d (n + 1) p dst bnd st w =
      match exec (callStk env n d) (body env p dst bnd st) w with
      | .error e => .error e
      | .ok (.ret r st', w') => .ok ((r, st'), w')
      | .ok (.cont st', w') => runStk env d n p dst bnd st' w' := by
  cases d with
  | zero => rw [runStk.eq_def]; rfl
  | succ d => rw [runStk.eq_def]; rfl

/-- The bound makes no difference until it is reached. -/
theorem runStk_watch (env : Env) (d : Nat) : Watches env (runStk env d : Mach σ μ) := by
  intro n
  induction n generalizing d with
  | zero => intro p dst bnd st w; left; rw [runStk, run]
  | succ n ih =>
    intro p dst bnd st w
    have hc : ∀ p d' b st (w : World σ μ), callStk env n d p d' b st w = run env n p d' b st w ∨
        ∃ e, callStk env n d p d' b st w = .error e ∧ e.isLimit = true := by
      cases d with
      | zero => intro p d' b st w; exact .inr ⟨_, rfl, rfl⟩
      | succ d => exact ih d
    rw [runStk_succ, run_succ_eq]
    rcases exec_watch hc (body env p dst bnd st) w with h | ⟨e, h, he⟩
    · rw [h]
      cases exec (run env n) (body env p dst bnd st) w with
      | error e => exact .inl rfl
      | ok y =>
        obtain ⟨s, w'⟩ := y
        cases s with
        | ret r st' => exact .inl rfl
        | cont st' => exact ih _ _ _ _ _ _
    · rw [h]; exact .inr ⟨e, rfl, he⟩

/-- Parsers with a bounded stack cannot tell related data sources apart. -/
theorem runStk_sim {τ : Type} [DataSource τ] {R : σ → τ → Prop} (hR : DsSim R) (env : Env) (d : Nat)
    (n : Nat) (p dst bnd st) (s c) (m : μ) (hr : R s c) :
    OutRel R (runStk env d n p dst bnd st ⟨s, m⟩) (runStk env d n p dst bnd st ⟨c, m⟩) := by
  induction n generalizing d p dst bnd st s c m with
  | zero => rw [runStk, runStk]; exact .error _
  | succ n ih =>
    have hc : ∀ p d' b st s c (m : μ), R s c →
        OutRel R (callStk env n d p d' b st ⟨s, m⟩) (callStk env n d p d' b st ⟨c, m⟩) := by
      cases d with
      | zero => intro p d' b st s c m _; exact .error _
      | succ d => intro p d' b st s c m h; exact ih _ _ _ _ _ _ _ _ h
    have he := exec_sim hR hc (body env p dst bnd st) m hr
    rw [runStk_succ, runStk_succ]
    generalize exec (callStk env n d) (body env p dst bnd st) ⟨s, m⟩ = x at *
    generalize exec (callStk env n d) (body env p dst bnd st) ⟨c, m⟩ = y at *
    cases he with
    | error e => exact .error e
    | ok a hr' =>
      cases a with
      | ret r st' => exact .ok _ hr'
      | cont st' => exact ih _ _ _ _ _ _ _ _ hr'

/-- Calls that may overflow. -/
theorem exec_stk {f g : Prog → Ref → Ref → PState → World σ μ → Out σ μ (Res × PState)}
    (h : ∀ p d b st w, f p d b st w = g p d b st w ∨ f p d b st w = .error .ubStack)
    (x : Cmd Step) (w : World σ μ) : exec f x w = exec g x w ∨ exec f x w = .error .ubStack := by
  revert w
  induction x with
  | pure a => intro w; exact .inl rfl
  | fault e => intro w; exact .inl rfl
  | isEmpty k ih => intro w; exact ih _ w
  | isFinal k ih => intro w; exact ih _ w
  | next k ih =>
    intro w
    simp only [exec]
    cases DataSource.next w.ds with
    | none => exact .inl rfl
    | some ch => exact ih _ w
  | advance k ih =>
    intro w
    simp only [exec]
    cases DataSource.advance w.ds with
    | none => exact .inl rfl
    | some ds => exact ih _
  | prepare k ih => intro w; exact ih _
  | commit k ih =>
    intro w
    simp only [exec]
    cases DataSource.commit w.ds with
    | none => exact .inl rfl
    | some ds => exact ih _
  | cancel k ih =>
    intro w
    simp only [exec]
    cases DataSource.cancel w.ds with
    | none => exact .inl rfl
    | some ds => exact ih _
  | mem o k ih =>
    intro w
    simp only [exec]
    cases Store.op o w.mem with
    | error e => exact .inl rfl
    | ok m => exact ih _
  | alloc t k ih => intro w; exact ih _ _
  | call p d b st k ih =>
    intro w
    simp only [exec]
    rcases h p d b st w with hc | hc
    · rw [hc]
      cases g p d b st w with
      | error e => exact .inl rfl
      | ok y => obtain ⟨⟨r, s⟩, w'⟩ := y; exact ih r s w'
    · rw [hc]; exact .inr rfl

/-- What happens with room for fewer calls. -/
theorem runStk_less (env : Env) {d d' : Nat} (hd : d ≤ d') (n : Nat) (p dst bnd st) (w : World σ μ) :
    runStk env d n p dst bnd st w = runStk env d' n p dst bnd st w ∨
      runStk env d n p dst bnd st w = .error .ubStack := by
  induction n generalizing d d' p dst bnd st w with
  | zero => left; rw [runStk, runStk]
  | succ n ih =>
    have hc : ∀ p e b st (w : World σ μ), callStk env n d p e b st w = callStk env n d' p e b st w ∨
        callStk env n d p e b st w = .error .ubStack := by
      cases d with
      | zero => intro p e b st w; exact .inr rfl
      | succ d =>
        cases d' with
        | zero => omega
        | succ d' => intro p e b st w; exact ih (by omega) _ _ _ _ _
    rw [runStk_succ, runStk_succ]
    rcases exec_stk hc (body env p dst bnd st) w with h | h
    · rw [h]
      cases exec (callStk env n d') (body env p dst bnd st) w with
      | error e => exact .inl rfl
      | ok y =>
        obtain ⟨s, w'⟩ := y
        cases s with
        | ret r st' => exact .inl rfl
        | cont st' => exact ih hd _ _ _ _ _
    · rw [h]; exact .inr rfl

theorem runStk_run (env : Env) (d n : Nat) (p dst bnd st) (w : World σ μ) :
    runStk env d n p dst bnd st w = run env n p dst bnd st w ∨
      runStk env d n p dst bnd st w = .error .ubStack := by
  induction n generalizing d p dst bnd st w with
  | zero => left; rw [runStk, run]
  | succ n ih =>
    have hc : ∀ p e b st (w : World σ μ), callStk env n d p e b st w = run env n p e b st w ∨
        callStk env n d p e b st w = .error .ubStack := by
      cases d with
      | zero => intro p e b st w; exact .inr rfl
      | succ d => intro p e b st w; exact ih _ _ _ _ _ _
    rw [runStk_succ, run_succ_eq]
    rcases exec_stk hc (body env p dst bnd st) w with h | h
    · rw [h]
      cases exec (run env n) (body env p dst bnd st) w with
      | error e => exact .inl rfl
      | ok y =>
        obtain ⟨s, w'⟩ := y
        cases s with
        | ret r st' => exact .inl rfl
        | cont st' => exact ih _ _ _ _ _ _
    · rw [h]; exact .inr rfl

/-- An iteration, if there is no overflow. -/
theorem quiet_step {env : Env} {d n : Nat} {p dst bnd st} {w : World σ μ}
    (h : runStk env d (n + 1) p dst bnd st w ≠ .error .ubStack) :
    exec (callStk env n d) (body env p dst bnd st) w = exec (run env n) (body env p dst bnd st) w := by
  have hc : ∀ p e b st (w : World σ μ), callStk env n d p e b st w = run env n p e b st w ∨
      callStk env n d p e b st w = .error .ubStack := by
    cases d with
    | zero => intro p e b st w; exact .inr rfl
    | succ d => intro p e b st w; exact runStk_run _ _ _ _ _ _ _ _
  rcases exec_stk hc (body env p dst bnd st) w with h1 | h1
  · exact h1
  · rw [runStk_succ, h1] at h; exact absurd rfl h

theorem quiet_cont {env : Env} {d n : Nat} {p dst bnd st st1} {w w' : World σ μ}
    (h : runStk env d (n + 1) p dst bnd st w ≠ .error .ubStack)
    (he : exec (run env n) (body env p dst bnd st) w = .ok (.cont st1, w')) :
    runStk env d n p dst bnd st1 w' ≠ .error .ubStack := by
  rw [runStk_succ, quiet_step h, he] at h
  exact h

theorem quiet_child {env : Env} {d n : Nat} {p dst bnd st cp cd cb cs k} {w : World σ μ}
    (h : runStk env d (n + 1) p dst bnd st w ≠ .error .ubStack)
    (hb : body env p dst bnd st = .call cp cd cb cs k) :
    ∃ e, d = e + 1 ∧ runStk env e n cp cd cb cs w ≠ .error .ubStack := by
  rw [runStk_succ, hb] at h
  cases d with
  | zero => exact absurd rfl h
  | succ e =>
    refine ⟨e, rfl, fun hx => h ?_⟩
    simp only [exec]
    rw [show callStk env n (e + 1) cp cd cb cs w = _ from hx]

end

section
variable {env : Env} {c : Nat → Bool} {lim : Nat}

/-- Enough room: `need lo p` calls for an object of class `p` constructed at or after `lo`. -/
theorem runStk_counts {μ : Type} [Store μ] (hμ : QuietOps μ) (henv : env.Counts false lim c)
    {ok : Prog → Prop} {need : Nat → Prog → Nat}
    (hin : ∀ {lo p b q}, ok p → CalledIn env c lo p b q → b ≤ lim → ok q ∧ need b q < need lo p)
    (n d lo : Nat) (p : Prog) (hp : ok p) (hd : need lo p ≤ d) :
    CallAt env c false lim (runStk env d n : _ → _ → _ → _ → World Cursor μ → _) lo p := by
  induction n generalizing d lo p with
  | zero => intro dst b st w L S _ _ _ _; rw [runStk]; exact rfl
  | succ n ih =>
    intro dst b st w L S hf ht hs ho
    have hc : ∀ {b q}, CalledIn env c lo p b q →
        CallAt env c false lim (callStk env n d : _ → _ → _ → _ → World Cursor μ → _) b q := by
      intro b q hi dst' b' st' w' L' S' hf' ht' hs' ho'
      have hb : b ≤ lim := Nat.le_trans ho'.room.low ho'.room.high
      obtain ⟨h1, h2⟩ := hin hp hi hb
      cases d with
      | zero => omega
      | succ d => exact ih d b q h1 (by omega) dst' b' st' w' L' S' hf' ht' hs' ho'
    have h := body_counts hμ henv hc dst b w S hf ht hs ho
    rw [runStk_succ]
    cases hx : exec (callStk env n d) (body env p dst b st) w with
    | error e => rw [hx] at h; exact h
    | ok y =>
      obtain ⟨s, w'⟩ := y
      rw [hx] at h
      cases s with
      | ret r st' => exact h.1
      | cont st' =>
        obtain ⟨h1, L', h2, h3⟩ := h
        exact ih _ _ _ hp hd _ _ _ _ L' S hf h1 h2 h3

theorem runStk_checked {σ : Type} [DataSource σ] {R : σ → Cursor → Prop} (hR : DsSim R)
    (henv : env.Counts false lim c) {ok : Prog → Prop} {need : Nat → Prog → Nat}
    (hin : ∀ {lo p b q}, ok p → CalledIn env c lo p b q → b ≤ lim → ok q ∧ need b q < need lo p)
    {lo d : Nat} {p : Prog} (hp : ok p) (hd : need lo p ≤ d) :
    Checked R env c false lim lo p (runStk env d) (runStk env d) where
  watch := runStk_watch env d
  watch' := runStk_watch env d
  sim n p d' b st s k m hr := runStk_sim hR env d n p d' b st s k m hr
  call n := runStk_counts mem_quietOps henv hin n d lo p hp hd

end

/-! ### How much room is enough -/

section
variable {env : Env} {c : Nat → Bool} {lim : Nat} {f : Nat → Nat}

/-- Children are lighter. -/
theorem CalledIn.weight {lo p b q} (h : CalledIn env c lo p b q) :
    q.weight f < p.weight f ∨ ∃ id sk r, p = .recur id sk ∧ env id = some r ∧
      q = elabP sk RecurChildReqs r ∧ b = lo := by
  cases h with
  | seq hp _ _ => left; rw [Prog.weight]; have := Prog.weightAll_get (f := f) hp; omega
  | alt hp _ => left; rw [Prog.weight]; have := Prog.weightAll_get (f := f) hp; omega
  | recur h => exact .inr ⟨_, _, _, rfl, h, rfl, rfl⟩
  | _ => left; rw [Prog.weight]; omega

theorem CalledIn.skipsIn {K lo p b q} (h : CalledIn env c lo p b q) (hp : p.skipsIn K) :
    q.skipsIn K ∨ ∃ id sk r, p = .recur id sk ∧ env id = some r ∧ q = elabP sk RecurChildReqs r := by
  cases h with
  | seq hk _ _ => exact .inl (Prog.allSkipIn_get hp hk)
  | alt hk _ => exact .inl (Prog.allSkipIn_get hp hk)
  | recur h => exact .inr ⟨_, _, _, rfl, h, rfl⟩
  | exceptNeg => exact .inl hp.2
  | exceptOp _ => exact .inl hp.1
  | listOp _ => exact .inl hp.1
  | listSep _ _ => exact .inl hp.2
  | skipper _ => exact .inl hp.1
  | skipped => exact .inl hp.2
  | _ => exact .inl hp

/-- A child that starts where its parent did has no more `Recur` objects in front. -/
theorem CalledIn.lead {lo p b q} (h : CalledIn env c lo p b q)
    (hn : ∀ id sk, p ≠ .recur id sk) : (b = lo ∧ q.lead f c ≤ p.lead f c) ∨ lo < b := by
  have split : ∀ {b : Nat} {Q : Prop}, lo ≤ b → (b = lo → Q) → (b = lo ∧ Q) ∨ lo < b := by
    intro b Q h1 h2
    rcases Nat.lt_or_ge lo b with h | h
    · exact .inr h
    · have : b = lo := by omega
      exact .inl ⟨this, h2 this⟩
  cases h with
  | seq hp hb hk =>
    refine split hb fun he => ?_
    rw [Prog.lead]
    refine Prog.leadSeq_get hp fun j q hj hq => ?_
    cases hqe : q.eats c with
    | false => rfl
    | true => have := hk j q hj hq hqe; omega
  | alt hp hb => exact split hb fun _ => by rw [Prog.lead]; exact Prog.leadAll_get hp
  | rep hb => exact split hb fun _ => by rw [Prog.lead]; omega
  | exceptOp hb => exact split hb fun _ => by rw [Prog.lead]; omega
  | listOp hb => exact split hb fun _ => by rw [Prog.lead]; omega
  | @listSep op sep _ hb he =>
    refine split hb fun h => ?_
    rw [Prog.lead]
    cases ho : op.eats c with
    | false => simp only [Bool.false_eq_true, if_false]; omega
    | true => have := he ho; omega
  | skipper hb => exact split hb fun _ => by rw [Prog.lead]; omega
  | recur h => exact absurd rfl (hn _ _)
  | _ => exact .inl ⟨rfl, by rw [Prog.lead]; omega⟩

/-- Patterns used through `Recur` add one to what may be called in front. -/
def Potential (env : Env) (c : Nat → Bool) (f : Nat → Nat) : Prop :=
  ∀ id q, env id = some q → total f (q.heads c) < f id

/-- The calls needed, for classes of size at most `M`, in a text of `lim` characters. -/
def needs (f : Nat → Nat) (c : Nat → Bool) (M lim lo : Nat) (p : Prog) : Nat :=
  p.weight f + (M + 1) * p.lead f c + (M + 1) * (M + 1) * (lim - lo)

/-- Classes of size at most `M`, with skippers in `K`. -/
def Sized (f : Nat → Nat) (K : Prog → Prop) (M : Nat) (p : Prog) : Prop :=
  p.weight f ≤ M ∧ p.skipsIn K

theorem needs_lt {K : Prog → Prop} {M : Nat} (hf : Potential env c f)
    (hM : ∀ id q sk, env id = some q → K sk → sk.skipsIn K →
      Sized f K M (elabP sk RecurChildReqs q))
    {lo p b q} (hp : Sized f K M p) (hi : CalledIn env c lo p b q) (hb : b ≤ lim) :
    Sized f K M q ∧ needs f c M lim b q < needs f c M lim lo p := by
  by_cases hn : ∃ id sk, p = .recur id sk
  · obtain ⟨id, sk, rfl⟩ := hn
    cases hi with
    | @recur _ _ r hr =>
      have hs := hM id r sk hr hp.2.1 hp.2.2
      refine ⟨hs, ?_⟩
      have h1 := elabP_lead (f := f) (c := c) r sk RecurChildReqs
      have h2 := hf id r hr
      have h3 := hs.1
      unfold needs
      rw [show (Prog.recur id sk).lead f c = f id + sk.lead f c from by rw [Prog.lead],
        show (Prog.recur id sk).weight f = f id + sk.weight f + 1 from by rw [Prog.weight]]
      have h4 : (elabP sk RecurChildReqs r).lead f c + 1 ≤ f id + sk.lead f c := by omega
      have h5 := Nat.mul_le_mul_left (M + 1) h4
      rw [Nat.mul_add] at h5
      omega
  · have hn' : ∀ id sk, p ≠ .recur id sk := fun id sk h => hn ⟨id, sk, h⟩
    have hw : q.weight f < p.weight f := by
      rcases hi.weight (f := f) with h | ⟨id, sk, _, h, _⟩
      · exact h
      · exact absurd h (hn' id sk)
    have hk : q.skipsIn K := by
      rcases hi.skipsIn hp.2 with h | ⟨id, sk, _, h, _⟩
      · exact h
      · exact absurd h (hn' id sk)
    have hpM := hp.1
    refine ⟨⟨by omega, hk⟩, ?_⟩
    unfold needs
    rcases hi.lead (f := f) hn' with ⟨rfl, h⟩ | h
    · have := Nat.mul_le_mul_left (M + 1) h
      omega
    · have h1 := Prog.lead_le (f := f) (c := c) q
      have h2 : q.lead f c ≤ M := by omega
      have h3 := Nat.mul_le_mul_left (M + 1) h2
      have h4 : (lim - b) + 1 ≤ lim - lo := by omega
      have h5 := Nat.mul_le_mul_left ((M + 1) * (M + 1)) h4
      rw [Nat.mul_add, Nat.mul_one] at h5
      have h6 : (M + 1) * (M + 1) = (M + 1) * M + (M + 1) := by rw [Nat.mul_add, Nat.mul_one]
      omega

/-- Without `Recur` the size is enough. -/
theorem weight_lt {lo p b q} (hp : p.skipsIn fun _ => False) (hi : CalledIn env c lo p b q) :
    q.skipsIn (fun _ => False) ∧ q.weight f < p.weight f := by
  constructor
  · rcases hi.skipsIn hp with h | ⟨id, sk, _, rfl, _⟩
    · exact h
    · exact absurd hp.1 (fun h => h)
  · rcases hi.weight (f := f) with h | ⟨id, sk, _, rfl, _⟩
    · exact h
    · exact absurd hp.1 (fun h => h)

/-- What the `Recur` object `b` adds, given what those in front add. -/
def potential (env : Env) (c : Nat → Bool) (b : Nat) (ih : ∀ a, LeftCalls env c a b → Nat) : Nat :=
  match hb : env b with
  | none => 0
  | some q => ((q.heads c).attach.map fun a => ih a.1 ⟨q, hb, a.2⟩).sum + 1

theorem potential_some {F : Nat → Nat} {id q} (hq : env id = some q) :
    potential env c id (fun a _ => F a) = total F (q.heads c) + 1 := by
  unfold potential
  split
  · rename_i h; rw [hq] at h; cases h
  · rename_i q' h
    rw [hq] at h; cases h
    rw [List.attach_map_val (l := q.heads c) (f := F)]; rfl

/-- Without left recursion there is a potential. -/
theorem exists_potential (hwf : WellFounded (LeftCalls env c)) : ∃ f, Potential env c f := by
  refine ⟨hwf.fix (potential env c), ?_⟩
  intro id q hq
  rw [hwf.fix_eq (potential env c) id, potential_some (F := hwf.fix (potential env c)) hq]
  exact Nat.lt_succ_self _

/-- A bound for finitely many classes. -/
theorem exists_weight (f : Nat → Nat) (l : List Prog) : ∃ M, ∀ p ∈ l, p.weight f ≤ M := by
  induction l with
  | nil => exact ⟨0, fun p hp => by cases hp⟩
  | cons q l ih =>
    obtain ⟨M, hM⟩ := ih
    refine ⟨M + q.weight f, fun p hp => ?_⟩
    rcases List.mem_cons.1 hp with rfl | hp
    · omega
    · have := hM p hp; omega

/-- With finitely many `Recur` objects, all classes that are used have a bounded size. -/
theorem exists_sized (f : Nat → Nat) {ids : List Nat} (hids : ∀ id, env id ≠ none → id ∈ ids)
    (p : Pat) : ∃ K M, Sized f K M (topParser p) ∧ ∀ id q sk, env id = some q → K sk →
      sk.skipsIn K → Sized f K M (elabP sk RecurChildReqs q) := by
  let pats : List Pat := ids.filterMap env
  let ks : List Prog := .fail :: (p.skippers ++ pats.flatMap Pat.skippers)
  obtain ⟨M, hM⟩ := exists_weight f
    (topParser p :: pats.flatMap fun q => ks.map fun sk => elabP sk RecurChildReqs q)
  have hpat : ∀ id q, env id = some q → q ∈ pats := by
    intro id q hq
    exact List.mem_filterMap.2 ⟨id, hids id (by rw [hq]; simp), hq⟩
  refine ⟨fun sk => sk ∈ ks, M, ⟨hM _ (by simp), ?_⟩, ?_⟩
  · refine elabP_skipsIn p _ _ trivial fun _ => ⟨by simp [ks], by simp [ks], fun s hs => ?_⟩
    simp [ks, hs]
  · intro id q sk hq hsk hks
    refine ⟨hM _ ?_, ?_⟩
    · refine List.mem_cons_of_mem _ (List.mem_flatMap.2 ⟨q, hpat id q hq, ?_⟩)
      exact List.mem_map.2 ⟨sk, hsk, rfl⟩
    · refine elabP_skipsIn q _ _ hks fun _ => ⟨hsk, by simp [ks], fun s hs => ?_⟩
      refine List.mem_cons_of_mem _ (List.mem_append_right _ ?_)
      exact List.mem_flatMap.2 ⟨q, hpat id q hq, hs⟩

end

/-- The room that is enough, for one text. -/
theorem needs_le {env : Env} {c : Nat → Bool} {f K M} {p : Pat} (hs : Sized f K M (topParser p))
    {len d : Nat} (hd : (M + 1) * (M + 1) * (len + 1) ≤ d) :
    needs f c M len 0 (topParser p) ≤ d := by
  have h1 := hs.1
  have h2 := Prog.lead_le (f := f) (c := c) (topParser p)
  have h3 : (topParser p).lead f c ≤ M := by omega
  have h4 := Nat.mul_le_mul_left (M + 1) h3
  have h5 : (M + 1) * (M + 1) = (M + 1) * M + (M + 1) := by rw [Nat.mul_add, Nat.mul_one]
  rw [Nat.mul_add, Nat.mul_one] at hd
  unfold needs
  rw [Nat.sub_zero]
  omega

end Abu
