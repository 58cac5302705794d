import Verif.Proofs.TimeReal
import Verif.Proofs.Session
import Verif.Proofs.StackRun
/-
Suspending and resuming takes no more than one iteration of every parser that is suspended. There
are no more of them than calls on the stack (C68).
-/
namespace Abu

/-- No `Recur` anywhere. -/
abbrev Prog.flat (p : Prog) : Prop := p.skipsIn fun _ => False

/-- The size of a class. -/
abbrev Prog.size (p : Prog) : Nat := p.weight fun _ => 0

/-! ### What an iteration takes -/

section
variable {σ μ : Type} [DataSource σ] [Store μ]

theorem callSteps_plain (call : Prog → Ref → Ref → PState → World σ μ → Out σ μ (Res × PState)) (cost)
    {α : Type} {P : α → Prop} {x : Cmd α} (h : Plain P x) (w : World σ μ) :
    callSteps call cost x w = 0 := by
  induction h generalizing w with
  | pure ha => rfl
  | fault e => rfl
  | prepare _ ih => exact ih _
  | commit _ ih => simp only [callSteps]; split <;> first | rfl | exact ih _
  | cancel _ ih => simp only [callSteps]; split <;> first | rfl | exact ih _
  | mem o _ ih => simp only [callSteps]; split <;> first | rfl | exact ih _
  | alloc t _ ih => exact ih _ _

theorem callSteps_plainAdv (call : Prog → Ref → Ref → PState → World σ μ → Out σ μ (Res × PState)) (cost)
    {x : Cmd Step} (h : PlainAdv x) (w : World σ μ) : callSteps call cost x w = 0 := by
  induction h generalizing w with
  | plain h => exact callSteps_plain call cost h w
  | mem o _ ih => simp only [callSteps]; split <;> first | rfl | exact ih _
  | advance h => simp only [callSteps]; split <;> first | rfl | exact callSteps_plain call cost h _

/-- A plain command makes no calls. -/
theorem exec_plain_call {call call' : Prog → Ref → Ref → PState → World σ μ → Out σ μ (Res × PState)}
    {α : Type} {P : α → Prop} {x : Cmd α} (h : Plain P x) (w : World σ μ) :
    exec call x w = exec call' x w := by
  induction h generalizing w with
  | pure ha => rfl
  | fault e => rfl
  | prepare _ ih => exact ih _
  | commit _ ih => simp only [exec]; split <;> first | rfl | exact ih _
  | cancel _ ih => simp only [exec]; split <;> first | rfl | exact ih _
  | mem o _ ih => simp only [exec]; split <;> first | rfl | exact ih _
  | alloc t _ ih => exact ih _ _

theorem exec_plainAdv_call {call call' : Prog → Ref → Ref → PState → World σ μ → Out σ μ (Res × PState)}
    {x : Cmd Step} (h : PlainAdv x) (w : World σ μ) : exec call x w = exec call' x w := by
  induction h generalizing w with
  | plain h => exact exec_plain_call h w
  | mem o _ ih => simp only [exec]; split <;> first | rfl | exact ih _
  | advance h => simp only [exec]; split <;> first | rfl | exact exec_plain_call h _

/-- The iterations after the first. -/
def restSteps (env : Env) (n : Nat) (p : Prog) (dst bnd : Ref) : Out σ μ Step → Nat
  | .ok (.cont st', w') => steps env n p dst bnd st' w'
  | _ => 0

theorem steps_succ_rest (env : Env) (n : Nat) (p dst bnd st) (w : World σ μ) :
    steps env (n + 1) p dst bnd st w =
      1 + callSteps (run env n) (steps env n) (body env p dst bnd st) w +
        restSteps env n p dst bnd (exec (run env n) (body env p dst bnd st) w) := by
  rw [steps_succ]
  cases exec (run env n) (body env p dst bnd st) w with
  | error e => rfl
  | ok y => obtain ⟨s, w'⟩ := y; cases s <;> rfl

theorem steps_child {env : Env} {n : Nat} {p dst bnd st cp cd cb cs} {rebuild : PState → PState}
    {k : Res → PState → Cmd Step} (hb : body env p dst bnd st = .call cp cd cb cs k)
    (hpk : ∀ c, k .PARTIAL c = retS .PARTIAL (rebuild c))
    (hk : ∀ r c, r ≠ .PARTIAL → Plain NoPartial (k r c)) (w : World σ μ) :
    steps env (n + 1) p dst bnd st w = 1 + steps env n cp cd cb cs w +
      restSteps env n p dst bnd (exec (run env n) (body env p dst bnd st) w) := by
  rw [steps_succ_rest]
  have : callSteps (run env n) (steps env n) (body env p dst bnd st) w = steps env n cp cd cb cs w := by
    rw [hb, callSteps]
    cases run env n cp cd cb cs w with
    | error e => rfl
    | ok y =>
      obtain ⟨⟨r, c'⟩, w'⟩ := y
      simp only
      by_cases hr : r = .PARTIAL
      · subst hr; rw [hpk]; rfl
      · rw [callSteps_plain _ _ (hk r c' hr)]; rfl
  rw [this]

end

section
variable {μ : Type} [Store μ]

/-- Suspending was cheap: what was done before and what is left is together little more than what
it takes when the text is there from the start. -/
def Cheap (env : Env) (n : Nat) (p : Prog) (dst bnd : Ref) (st : PState) (w : World Cursor μ)
    (t : List Ch) (f : Bool) (D : Nat) : Out Cursor μ (Res × PState) → Prop
  | .ok ((.PARTIAL, st'), w') =>
      steps env n p dst bnd st w ≤ steps env n p dst bnd st (w.feed t f) ∧
      ∀ N, run env N p dst bnd st (w.feed t f) ≠ .error .fuel →
        ∃ N', run env N' p dst bnd st' (w'.feed t f) ≠ .error .fuel ∧
          steps env n p dst bnd st w + steps env N' p dst bnd st' (w'.feed t f) ≤
            steps env N p dst bnd st (w.feed t f) + D
  | _ => steps env n p dst bnd st w = steps env n p dst bnd st (w.feed t f)

theorem cheap (env : Env) (n d : Nat) (p dst bnd st) (w : World Cursor μ)
    (hf : w.ds.final = false) (hd : runStk env d n p dst bnd st w ≠ .error .ubStack) (t f) :
    Cheap env n p dst bnd st w t f (d + 1) (run env n p dst bnd st w) := by
  induction n generalizing d p dst bnd st w with
  | zero => rfl
  | succ n ih =>
    -- an iteration that is the same with more text
    have fin : ∀ (x : Nat → Cmd Step) (w0 : World Cursor μ) (a : Nat),
        exec (run env n) (body env p dst bnd st) w = exec (run env n) (x n) w0 →
        (∀ N, n ≤ N → exec (run env N) (body env p dst bnd st) (w.feed t f) =
          Out.feed t f (exec (run env n) (x n) w0)) →
        Out.Open (exec (run env n) (x n) w0) →
        (∀ {a w'}, exec (run env n) (x n) w0 = .ok (a, w') → NoPartial a) →
        steps env (n + 1) p dst bnd st w =
          a + restSteps env n p dst bnd (exec (run env n) (body env p dst bnd st) w) →
        (∀ N, n ≤ N → steps env (N + 1) p dst bnd st (w.feed t f) =
          a + restSteps env N p dst bnd (exec (run env N) (body env p dst bnd st) (w.feed t f))) →
        Cheap env (n + 1) p dst bnd st w t f (d + 1)
          (andThen env n p dst bnd (exec (run env n) (body env p dst bnd st) w)) := by
      intro x w0 a hw hwf h2 h3 hs hsf
      rw [hw]
      have hs' := hsf n (Nat.le_refl _)
      rw [hw] at hs
      rw [hwf n (Nat.le_refl _)] at hs'
      cases he : exec (run env n) (x n) w0 with
      | error e =>
        rw [he] at hs hs'
        exact hs.trans hs'.symm
      | ok y =>
        obtain ⟨s, w'⟩ := y
        rw [he] at h2 hs hs'
        cases s with
        | ret r st' =>
          have hr : r ≠ .PARTIAL := (h3 he).of_ret
          simp only [andThen]
          have : steps env (n + 1) p dst bnd st w = steps env (n + 1) p dst bnd st (w.feed t f) :=
            hs.trans hs'.symm
          cases r with
          | PARTIAL => exact absurd rfl hr
          | SUCCESS => exact this
          | FAILURE => exact this
        | cont st1 =>
          have hc := ih d p dst bnd st1 w' h2 (quiet_cont hd (hw.trans he))
          simp only [andThen]
          simp only [restSteps, Out.feed] at hs hs'
          generalize hrun : run env n p dst bnd st1 w' = o at hc
          have eqs : steps env n p dst bnd st1 w' = steps env n p dst bnd st1 (w'.feed t f) →
              steps env (n + 1) p dst bnd st w = steps env (n + 1) p dst bnd st (w.feed t f) := by
            intro h; rw [hs, hs', h]
          cases o with
          | error e => exact eqs hc
          | ok z =>
            obtain ⟨⟨r, st'⟩, w2⟩ := z
            cases r with
            | SUCCESS => exact eqs hc
            | FAILURE => exact eqs hc
            | PARTIAL =>
              refine ⟨by have := hc.1; omega, fun N hN => ?_⟩
              have hN2 := run_mono env (Nat.le_max_left N (n + 1)) p dst bnd st (w.feed t f) hN
              rw [← hN2] at hN
              have hcost := (steps_mono env (Nat.le_max_left N (n + 1))).eq p dst bnd st (w.feed t f)
                (by rw [← hN2]; exact hN)
              rw [← hcost]
              obtain ⟨M, hM⟩ : ∃ M, max N (n + 1) = M + 1 := ⟨max N (n + 1) - 1, by omega⟩
              have hnM : n ≤ M := by omega
              rw [hM] at hN ⊢
              have hx := hwf M hnM
              rw [he] at hx
              rw [run_succ_andThen, hx] at hN
              obtain ⟨N', hN', hle⟩ := hc.2 M hN
              refine ⟨N', hN', ?_⟩
              rw [hsf M hnM, hx, hs]
              simp only [restSteps, Out.feed]
              omega
    rw [run_succ_andThen]
    cases shape env p dst bnd st with
    | plain h =>
      have hx := fun N => exec_plain_feed (run env N) h w hf t f
      have hN : ∀ N, n ≤ N → exec (run env N) (body env p dst bnd st) w =
          exec (run env n) (body env p dst bnd st) w := fun N _ => exec_plain_call h w
      refine fin (fun _ => body env p dst bnd st) w 1 rfl (fun N h => by rw [(hx N).1, hN N h]) (hx n).2
        (exec_plain_post _ h w) ?_ fun N _ => ?_
      · rw [steps_succ_rest, callSteps_plain _ _ h]
      · rw [steps_succ_rest, callSteps_plain _ _ h]
    | leaf A B hb hA hB =>
      by_cases hpos : w.ds.pos < w.ds.text.length
      · have he : DataSource.empty w.ds = false := by
          show decide _ = false; simp; omega
        have he' : DataSource.empty (w.feed t f).ds = false := by
          show decide _ = false; simp [World.feed, Cursor.feed]; omega
        have hn : DataSource.next w.ds = some w.ds.text[w.ds.pos] := List.getElem?_eq_getElem hpos
        have hn' : DataSource.next (w.feed t f).ds = some w.ds.text[w.ds.pos] := by
          show (w.ds.text ++ t)[w.ds.pos]? = _
          rw [List.getElem?_append_left hpos]; exact hn
        have hx : ∀ N (w0 : World Cursor μ) c, DataSource.empty w0.ds = false →
            DataSource.next w0.ds = some c →
            exec (run env N) (guarded st A B) w0 = exec (run env N) (B c) w0 := by
          intro N w0 c h1 h2
          simp [guarded, exec, h1, h2]
        have hcs : ∀ N (w0 : World Cursor μ) c, DataSource.empty w0.ds = false →
            DataSource.next w0.ds = some c →
            callSteps (run env N) (steps env N) (guarded st A B) w0 = 0 := by
          intro N w0 c h1 h2
          have : callSteps (run env N) (steps env N) (guarded st A B) w0 =
            callSteps (run env N) (steps env N) (B c) w0 := by simp [guarded, callSteps, h1, h2]
          rw [this, callSteps_plainAdv _ _ (hB c)]
        refine fin (fun _ => B w.ds.text[w.ds.pos]) w 1 ?_ (fun N hN => ?_)
          (exec_plainAdv_feed _ (hB _) w hf hpos t f).2 (exec_plainAdv_post _ (hB _) w) ?_ fun N _ => ?_
        · rw [hb]; exact hx n w _ he hn
        · rw [hb, hx N _ _ he' hn', (exec_plainAdv_feed _ (hB _) w hf hpos t f).1,
            exec_plainAdv_call (hB _) w]
        · rw [steps_succ_rest, hb, hcs n w _ he hn]
        · rw [steps_succ_rest, hb, hcs N _ _ he' hn']
      · have he : DataSource.empty w.ds = true := by show decide _ = true; simp; omega
        have hfin : DataSource.final w.ds = false := hf
        have hx : exec (run env n) (guarded st A B) w = .ok (.ret .PARTIAL st, w) := by
          simp [guarded, exec, he, hfin]
        have hone : steps env (n + 1) p dst bnd st w = 1 := by
          rw [steps_succ_rest, hb, hx]
          simp [guarded, callSteps, he, hfin, restSteps]
        rw [hb, hx]
        refine ⟨?_, fun N hN => ⟨N, hN, ?_⟩⟩
        · rw [hone, steps_succ_rest]; omega
        · rw [hone]; omega
    | child cp cd cb cs rebuild k hst hb hpk hk =>
      subst hst
      obtain ⟨e, rfl, hcd⟩ := quiet_child hd (hb cs)
      have hc := ih e cp cd cb cs w hf hcd
      have hres := resumable env n cp cd cb cs w hf t f
      have hsc := fun N cs (w : World Cursor μ) =>
        steps_child (n := N) (p := p) (dst := dst) (bnd := bnd) (hb cs) hpk hk w
      cases hr : run env n cp cd cb cs w with
      | error e =>
        rw [hr] at hc hres
        generalize hr2 : run env n cp cd cb cs (w.feed t f) = y2 at hres
        cases hres
        have hx : exec (run env n) (body env p dst bnd (rebuild cs)) w = .error e := by
          simp only [hb, exec, hr]
        have hx2 : exec (run env n) (body env p dst bnd (rebuild cs)) (w.feed t f) = .error e := by
          simp only [hb, exec, hr2]
        rw [hx]
        show steps env (n + 1) p dst bnd (rebuild cs) w = steps env (n + 1) p dst bnd (rebuild cs) (w.feed t f)
        rw [hsc, hsc, hx, hx2, show steps env n cp cd cb cs w = _ from hc]
      | ok y =>
        obtain ⟨⟨r, c'⟩, w'⟩ := y
        rw [hr] at hc hres
        by_cases hrp : r = .PARTIAL
        · subst hrp
          have hx : exec (run env n) (body env p dst bnd (rebuild cs)) w
              = .ok (.ret .PARTIAL (rebuild c'), w') := by
            simp only [hb, exec, hr, hpk]
          rw [hx]
          have hsame : Same env cp cd cb cs (w.feed t f) c' (w'.feed t f) := by
            generalize run env n cp cd cb cs (w.feed t f) = y2 at hres
            cases hres with
            | done h => exact absurd rfl h
            | more _ _ h => exact h
          have hw : steps env (n + 1) p dst bnd (rebuild cs) w = 1 + steps env n cp cd cb cs w := by
            rw [hsc, hx]; rfl
          refine ⟨?_, fun N hN => ?_⟩
          · rw [hw, hsc]; have := hc.1; omega
          · cases N with
            | zero => exact absurd rfl hN
            | succ M =>
              have hcM : run env M cp cd cb cs (w.feed t f) ≠ .error .fuel := by
                intro h
                rw [run_succ_andThen, hb] at hN
                simp only [exec, h, andThen] at hN
                exact hN rfl
              obtain ⟨N', hN', hle⟩ := hc.2 M hcM
              have e1 := run_mono env (Nat.le_max_left M N') cp cd cb cs (w.feed t f) hcM
              have e2 := run_mono env (Nat.le_max_right M N') cp cd cb c' (w'.feed t f) hN'
              have s1 := (steps_mono env (Nat.le_max_left M N')).eq cp cd cb cs (w.feed t f) hcM
              have s2 := (steps_mono env (Nat.le_max_right M N')).eq cp cd cb c' (w'.feed t f) hN'
              have hP := run_mono env (show M + 1 ≤ max M N' + 1 by omega) p dst bnd (rebuild cs)
                (w.feed t f) hN
              have sP := (steps_mono env (show M + 1 ≤ max M N' + 1 by omega)).eq p dst bnd (rebuild cs)
                (w.feed t f) hN
              have eqc : run env (max M N') cp cd cb cs (w.feed t f) =
                  run env (max M N') cp cd cb c' (w'.feed t f) := by
                have h1 : Evals env cp cd cb cs (w.feed t f) (run env (max M N') cp cd cb cs (w.feed t f)) :=
                  ⟨by rw [e1]; exact hcM, _, rfl⟩
                have h2 : Evals env cp cd cb c' (w'.feed t f) (run env (max M N') cp cd cb c' (w'.feed t f)) :=
                  ⟨by rw [e2]; exact hN', _, rfl⟩
                exact ((hsame _).1 h1).unique h2
              have eqx : exec (run env (max M N')) (body env p dst bnd (rebuild cs)) (w.feed t f) =
                  exec (run env (max M N')) (body env p dst bnd (rebuild c')) (w'.feed t f) := by
                simp only [hb, exec, eqc]
              refine ⟨max M N' + 1, ?_, ?_⟩
              · rw [run_succ_andThen, ← eqx, ← run_succ_andThen, hP]; exact hN
              · rw [hsc] at sP
                rw [hw, hsc, ← eqx, ← sP]
                omega
        · generalize hr2 : run env n cp cd cb cs (w.feed t f) = y2 at hres
          cases hres with
          | more => exact absurd rfl hrp
          | done _ hf' =>
            have hce : steps env n cp cd cb cs w = steps env n cp cd cb cs (w.feed t f) := by
              cases r with
              | PARTIAL => exact absurd rfl hrp
              | SUCCESS => exact hc
              | FAILURE => exact hc
            have hr3 : ∀ N, n ≤ N → run env N cp cd cb cs (w.feed t f) = .ok ((r, c'), w'.feed t f) := by
              intro N hN
              rw [run_mono env hN cp cd cb cs (w.feed t f) (by rw [hr2]; simp), hr2]
            refine fin (fun _ => k r c') w' (1 + steps env n cp cd cb cs w) ?_ (fun N hN => ?_)
              (exec_plain_feed _ (hk r c' hrp) w' hf' t f).2 (exec_plain_post _ (hk r c' hrp) w')
              (hsc n cs w) fun N hN => ?_
            · simp only [hb, exec, hr]
            · simp only [hb, exec, hr3 N hN]
              rw [(exec_plain_feed _ (hk r c' hrp) w' hf' t f).1, exec_plain_call (hk r c' hrp) w']
            · rw [hsc, hce, (steps_mono env hN).eq cp cd cb cs (w.feed t f) (by rw [hr2]; simp)]

end

end Abu
