import Verif.Proofs.TimeResume
import Verif.Proofs.PointsApi
import Verif.Spec.Time
/-
The iterations of a parser object, over all calls of `consume`.
-/
namespace Abu

/-- The text up to the final buffer. -/
def opsGiven : List SOp → List Ch
  | [] => []
  | .consume :: ops => opsGiven ops
  | .add b true :: _ => b
  | .add b false :: ops => b ++ opsGiven ops

theorem opsGiven_le : ∀ ops, (opsGiven ops).length ≤ (opsText ops).length
  | [] => Nat.le_refl _
  | .consume :: ops => opsGiven_le ops
  | .add b true :: ops => by simp [opsGiven, opsText]
  | .add b false :: ops => by simp [opsGiven, opsText]; exact opsGiven_le ops

theorem opsGiven_complete : ∀ {ops}, Complete ops → opsGiven ops = opsText ops
  | [], h => absurd h id
  | .consume :: ops, h => opsGiven_complete (ops := ops) h
  | .add b true :: ops, h => by simp [opsGiven, opsText, h.2]
  | .add b false :: ops, h => by
    rw [opsGiven, opsText, opsGiven_complete (ops := ops) h]

variable {env : Env}

theorem sessionSteps_sim {σ τ : Type} [DataSource σ] [DataSource τ] {R : σ → τ → Prop}
    {add : σ → List Ch → Bool → Option σ} {add' : τ → List Ch → Bool → Option τ} (hR : DsSim R)
    (hadd : ∀ {s c} b f, R s c → Option.Rel R (add s b f) (add' c b f))
    (n : Nat) (p : Prog) (dst : Ref) (ops : List SOp) :
    ∀ {st s c} {m : Mem}, R s c →
      sessionSteps add env n p dst st ⟨s, m⟩ ops = sessionSteps add' env n p dst st ⟨c, m⟩ ops := by
  induction ops with
  | nil => intros; rfl
  | cons op ops ih =>
    intro st s c m hr
    cases op with
    | add b f =>
      have := hadd b f hr
      simp only [sessionSteps]
      generalize add s b f = x at *
      generalize add' c b f = y at *
      cases this with
      | none => rfl
      | some h => exact ih h
    | consume =>
      simp only [sessionSteps]
      have h1 := run_sim hR env n p dst dst st m hr
      rw [steps_sim hR env n p dst dst st m hr]
      generalize run env n p dst dst st ⟨s, m⟩ = x at *
      generalize run env n p dst dst st ⟨c, m⟩ = y at *
      cases h1 with
      | error e => rfl
      | ok a hr' =>
        obtain ⟨r, st'⟩ := a
        cases r with
        | PARTIAL => simp only; rw [ih hr']
        | SUCCESS => rfl
        | FAILURE => rfl

theorem sessionSteps_final {n N p dst st} {w : World Cursor Mem} (hf : w.ds.final = true)
    (hN : run env N p dst dst st w ≠ .error .fuel) (ops) :
    sessionSteps Cursor.addBuffer env n p dst st w ops ≤ steps env N p dst dst st w := by
  cases ops with
  | nil => exact Nat.zero_le _
  | cons op ops =>
    cases op with
    | add b f => simp [sessionSteps, Cursor.addBuffer, hf]
    | consume =>
      have h := steps_le env (n := n) hN
      simp only [sessionSteps]
      cases hr : run env n p dst dst st w with
      | error e => exact h
      | ok y =>
        obtain ⟨⟨r, st'⟩, w'⟩ := y
        cases r with
        | SUCCESS => exact h
        | FAILURE => exact h
        | PARTIAL =>
          have h1 := starved env n p dst dst st w
          rw [hr] at h1
          have h2 := run_final env n p dst dst st w hr
          have h3 : w'.ds.final = false := h1.2
          rw [h2, hf] at h3
          cases h3

/-- The calls of an object of class `p`, on texts of up to `lim` characters, nest no deeper than `d`. -/
def Shallow (env : Env) (lim d : Nat) (p : Prog) : Prop :=
  ∃ c, p.countsFit false lim c = true ∧ Checked (fun (s : Cursor) k => s = k) env c false lim 0 p
    (runStk env d) (runStk env d)

/-- Without `Recur`. -/
theorem topParser_shallow {p : Pat} (hp : p.refs = []) (lim : Nat) :
    Shallow env lim (topParser p).size (topParser p) :=
  ⟨fun _ => false, elabP_countsFit p _ _ rfl fun h => (by cases h),
    runStk_checked .eq ⟨fun h => (by cases h), fun _ _ _ h => (by cases h)⟩
      (ok := Prog.flat) (need := fun _ p => p.size) (fun h1 h2 _ => weight_lt h1 h2)
      (elabP_skipsIn p _ _ trivial fun h => absurd hp h) (Nat.le_refl _)⟩

/-- Without left recursion. -/
theorem exists_shallow {consumes : Nat → Bool} {ids : List Nat}
    (hids : ∀ id, env id ≠ none → id ∈ ids)
    (heats : ∀ id q, env id = some q → consumes id = true → q.eats consumes = true)
    (hleft : WellFounded (LeftCalls env consumes)) (p : Pat) :
    ∃ D, ∀ lim, Shallow env lim (D * (lim + 1)) (topParser p) := by
  obtain ⟨f, hf⟩ := exists_potential hleft
  obtain ⟨K, M, hp, hM⟩ := exists_sized f hids p
  exact ⟨(M + 1) * (M + 1), fun lim => ⟨consumes, elabP_countsFit p _ _ rfl fun h => (by cases h),
    runStk_checked .eq ⟨fun h => (by cases h), heats⟩ (fun h1 h2 h3 => needs_lt hf hM h1 h2 h3) hp
      (needs_le (env := env) hp (Nat.le_refl _))⟩⟩

theorem CountedAt.feed {c chk lim lo n p st} {w : World Cursor Mem} {b f ds}
    (h : CountedAt (fun (s : Cursor) k => s = k) env c chk lim lo (b.length + n) p st w)
    (ha : w.ds.addBuffer b f = some ds) :
    CountedAt (fun (s : Cursor) k => s = k) env c chk lim lo n p st ⟨ds, w.mem⟩ := by
  obtain ⟨hf, k, rfl, ht, hc⟩ := h
  simp only [Cursor.addBuffer] at ha
  split at ha
  · cases ha
  · cases ha
    refine ⟨hf, _, rfl, ?_, hc⟩
    simp only [Cursor.feed, List.length_append]
    omega

/-- However the text is delivered, the parser object takes little more than when it is there from
the start. -/
theorem sessionSteps_le {n p dst c lim d} (hp : Checked (fun (s : Cursor) k => s = k) env c false lim 0 p
    (runStk env d) (runStk env d)) (ops : List SOp) :
    ∀ {st} {w : World Cursor Mem}, w.ds.final = false →
    CountedAt (fun (s : Cursor) k => s = k) env c false lim 0 (opsText ops).length p st w → ∀ {N},
    run env N p dst dst st (w.feed (opsGiven ops) true) ≠ .error .fuel →
    sessionSteps Cursor.addBuffer env n p dst st w ops ≤
      steps env N p dst dst st (w.feed (opsGiven ops) true) + (d + 1) * consumeCalls ops := by
  induction ops with
  | nil => intros; exact Nat.zero_le _
  | cons op ops ih =>
    intro st w hf hat N hN
    cases op with
    | add b f =>
      have hadd : w.ds.addBuffer b f = some (w.ds.feed b f) := by simp [Cursor.addBuffer, hf]
      simp only [sessionSteps, hadd]
      rw [opsText, List.length_append] at hat
      cases f with
      | true =>
        exact Nat.le_trans (sessionSteps_final (w := w.feed b true) rfl hN ops) (Nat.le_add_right _ _)
      | false =>
        rw [opsGiven, ← World.feed_feed w b (opsGiven ops) false true] at hN ⊢
        exact ih (w := w.feed b false) rfl (hat.feed hadd) hN
    | consume =>
      have hq : runStk env d n p dst dst st w ≠ .error .ubStack := fun h =>
        hat.quiet hp (e := .ubStack) rfl ⟨by simp, n, h⟩
      have hc := cheap env n d p dst dst st w hf hq (opsGiven ops) true
      have hle := steps_le env (n := n) hN
      simp only [sessionSteps]
      have hx : (d + 1) * consumeCalls (.consume :: ops) = (d + 1) * consumeCalls ops + (d + 1) := by
        rw [consumeCalls, Nat.mul_add, Nat.mul_one]
      rw [hx]
      have hgiven : opsGiven (.consume :: ops) = opsGiven ops := rfl
      rw [hgiven] at hN hle ⊢
      cases hr : run env n p dst dst st w with
      | error e =>
        rw [hr] at hc
        have hc : steps env n p dst dst st w = _ := hc
        simp only
        omega
      | ok y =>
        obtain ⟨⟨r, st'⟩, w'⟩ := y
        rw [hr] at hc
        cases r with
        | SUCCESS => have hc : steps env n p dst dst st w = _ := hc; simp only; omega
        | FAILURE => have hc : steps env n p dst dst st w = _ := hc; simp only; omega
        | PARTIAL =>
          obtain ⟨N', hN', hsum⟩ := hc.2 N hN
          have hf' : w'.ds.final = false := by rw [run_final env n p dst dst st w hr, hf]
          have := ih hf' (hat.partial hp ⟨by simp, n, hr⟩) hN'
          simp only
          omega

/-- A parser object against the parser that has the text from the start. -/
theorem objectSteps_le {n : Nat} {p : Pat} {dst : Ref} {m : Mem} {ops : List SOp}
    {d : Nat} (hp : Shallow env (opsText ops).length d (topParser p)) {B : Nat}
    (h : ∀ st w, construct (topParser p) dst dst (⟨Cursor.whole (opsGiven ops), m⟩ : World Cursor Mem) =
        .ok (st, w) → ∃ N, run env N (topParser p) dst dst st w ≠ .error .fuel ∧
          steps env N (topParser p) dst dst st w ≤ B) :
    objectSteps env n p dst m ops ≤ B + (d + 1) * consumeCalls ops := by
  unfold objectSteps
  have hsim := construct_sim ContainerSeq.dsSim (topParser p) dst dst m
    (⟨_, ContainerSeq.sim_make⟩ : ContainerSeq.Rel ContainerSeq.make Cursor.start)
  have hmk := exec_plain_feed (call := fun _ _ _ _ _ => .error .stuck)
    (mk_plain (topParser p) dst dst) (⟨Cursor.start, m⟩ : World Cursor Mem) rfl (opsGiven ops) true
  have hstart : (⟨Cursor.start, m⟩ : World Cursor Mem).feed (opsGiven ops) true =
      ⟨Cursor.whole (opsGiven ops), m⟩ := by
    simp [World.feed, Cursor.feed, Cursor.start, Cursor.whole]
  rw [hstart] at hmk
  generalize construct (topParser p) dst dst (⟨ContainerSeq.make, m⟩ : World ContainerSeq Mem) = x at *
  generalize hy : construct (topParser p) dst dst (⟨Cursor.start, m⟩ : World Cursor Mem) = y at *
  cases hsim with
  | error e => exact Nat.zero_le _
  | @ok st s c m' hr =>
    simp only
    rw [construct] at hy
    rw [hy] at hmk
    obtain ⟨N, hN, hle⟩ := h st _ hmk.1
    rw [sessionSteps_sim ContainerSeq.dsSim (fun b f h => ContainerSeq.addBuffer_rel h b f) n
      (topParser p) dst ops hr]
    obtain ⟨c', hfit, hM⟩ := hp
    exact Nat.le_trans (sessionSteps_le hM ops hmk.2 (construct_counted .eq hfit (k := Cursor.start) rfl rfl
      (Nat.zero_le _) (by simp [Cursor.start]) hy) hN) (Nat.add_le_add_right hle _)

/-- The same, with a bound for the ghost machine. -/
theorem objectSteps_ghost {env0 : Env} {p : Pat} {ops B} (hp : Comp (topParser p)) {d : Nat} (hflat : Shallow env (opsText ops).length d (topParser p))
    (h : EndsBy env0 (opsGiven ops) (topParser p) (fresh (topParser p)) 0
      (List.replicate (marks (topParser p)) 0) B)
    (hsub : ∀ id q, env0 id = some q → env id = some q)
    (henv : ∀ id q sk, env0 id = some q → Comp sk → Comp (elabP sk RecurChildReqs q))
    (n dst m) : objectSteps env n p dst m ops ≤ B + (d + 1) * consumeCalls ops := by
  obtain ⟨r, i', S', k, hb, hk⟩ := h
  obtain ⟨N, st', hr, hs⟩ := run_of_bigIn_env hb hsub (fun hl n st w => run_leaf_env hl n st w) henv hp
    (.refl _)
  refine objectSteps_le hflat fun st w hc => ⟨N, ?_⟩
  have hce := construct_er (g := id) (topParser p) dst dst
    (⟨Cursor.whole (opsGiven ops), m⟩ : World Cursor Mem)
  rw [hc, Prog.mapAct_id] at hce
  have hgc : construct (topParser p) .nil .nil (⟨Cursor.whole (opsGiven ops), ()⟩ : World Cursor Unit) =
      .ok (fresh (topParser p), gw (opsGiven ops) 0 (List.replicate (marks (topParser p)) 0)) := by
    have := exec_mk (call := fun _ _ _ _ _ => .error .stuck) hp
      (⟨Cursor.whole (opsGiven ops), ()⟩ : World Cursor Unit)
    rw [construct, this, push]
    simp [gw, Cursor.whole]
  simp only at hce
  rw [hgc] at hce
  generalize hx : (Except.ok (fresh (topParser p), gw (opsGiven ops) 0
    (List.replicate (marks (topParser p)) 0)) : Out Cursor Unit PState) = x at hce
  cases hce with
  | ok =>
    simp only [Except.ok.injEq, Prod.mk.injEq] at hx
    obtain ⟨hx1, hx2⟩ := hx
    have he := steps_er (g := id) (fun _ => rfl) env N (topParser p) dst dst st w
    have hre := run_er (g := id) (fun _ => rfl) env N (topParser p) dst dst st w
    rw [Prog.mapAct_id, Env.mapAct_id, ← hx1] at he hre
    rw [← hx2] at he hre
    refine ⟨fun hfuel => ?_, Nat.le_trans he.1 (hs ▸ hk)⟩
    rw [hfuel, hr] at hre
    cases hre with
    | mem _ h => exact absurd h (by decide)

/-- The same, against `parse`. -/
theorem objectSteps_parse {p : Pat} {dst m ops r k} {d : Nat} (hflat : Shallow env (opsText ops).length d (topParser p)) (hc : Complete ops)
    (h : ParsesIn env p dst m (opsText ops) r k) (n) :
    objectSteps env n p dst m ops ≤ k + (d + 1) * consumeCalls ops := by
  obtain ⟨N, st, w, a, w', h1, h2, h3⟩ := h
  have hsim := construct_sim SingleForward.dsSim (topParser p) dst dst m
    (SingleForward.rel_make (opsText ops))
  rw [h1] at hsim
  rw [← opsGiven_complete hc] at hsim
  refine objectSteps_le hflat fun st1 w1 hc1 => ⟨N, ?_⟩
  rw [hc1] at hsim
  generalize hy : (Except.ok (st1, w1) : Out Cursor Mem PState) = y at hsim
  cases hsim with
  | @ok _ s c m' hr =>
    simp only [Except.ok.injEq, Prod.mk.injEq] at hy
    obtain ⟨rfl, rfl⟩ := hy
    have hs := steps_sim SingleForward.dsSim env N (topParser p) dst dst st1 m' hr
    have hrun := run_sim SingleForward.dsSim env N (topParser p) dst dst st1 m' hr
    rw [h2] at hrun
    refine ⟨fun hfuel => ?_, by rw [← hs, h3]; exact Nat.le_refl _⟩
    rw [hfuel] at hrun
    cases hrun

end Abu
