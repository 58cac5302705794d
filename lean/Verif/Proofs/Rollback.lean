import Verif.Proofs.Post
import Verif.Proofs.Overwrite
/-
Rollback points: parsers never remove more rollback points than they created.
-/
namespace Abu

/-- `Owns env p st n`: `st` is a possible state of a parser object of class `p`, which has created
`n` rollback points it still has to remove. -/
inductive Owns (env : Env) : Prog → PState → Nat → Prop
  | char {s} : Owns env (.char s) .unit 0
  | charSymbol {m} : Owns env (.charSymbol m) .unit 0
  | strLit {s k} : Owns env (.strLit s) (.strLit k) 0
  | symbolNone {r n} : Owns env (.symbol r) (.symbol n none) 0
  | symbolSome {r n v} : Owns env (.symbol r) (.symbol n (some v)) 1
  | int {b mn mx n l g} : Owns env (.int b mn mx) (.int n l g) 0
  | uint {b mn mx n} : Owns env (.uint b mn mx) (.uint n) 0
  | eoi : Owns env .eoi .unit 0
  | pass : Owns env .pass .unit 0
  | fail : Owns env .fail .unit 0
  | seq {slots ps i p s c n} : ps[i]? = some p → slots[i]? = some s → Owns env p c n →
      Owns env (.seq slots ps) (.seq i c) n
  | alt {ps i p c n} : ps[i]? = some p → Owns env p c n → Owns env (.alt ps) (.alt i c) n
  | rep {mn mx p k c n} : Owns env p c n → Owns env (.rep mn mx p) (.rep k c) n
  | opt {p c n} : Owns env p c n → Owns env (.opt p) (.wrap c) (n + 1)
  | not {p c n} : Owns env p c n → Owns env (.not p) (.wrap c) (n + 1)
  | discard {p c n} : Owns env p c n → Owns env (.discard p) (.wrap c) n
  | lexeme {p c n} : Owns env p c n → Owns env (.lexeme p) (.wrap c) n
  | bindDst {p c n} : Owns env p c n → Owns env (.bindDst p) (.wrap c) n
  | construct {tys p b c n} : Owns env p c n → Owns env (.construct tys p) (.buffered b c) n
  | action {a p b c n} : Owns env p c n → Owns env (.action a p) (.buffered b c) n
  | exceptNeg {op neg c n} : Owns env neg c n → Owns env (.except op neg) (.except false c) n
  | exceptOp {op neg c n} : Owns env op c n → Owns env (.except op neg) (.except true c) n
  | listOp {op sep c n} : Owns env op c n → Owns env (.list op sep) (.list false c) (n + 1)
  | listSep {op sep c n} : Owns env sep c n → Owns env (.list op sep) (.list true c) (n + 1)
  | withSkipper {p c n} : Owns env p c n → Owns env (.withSkipper p) (.wrap c) n
  | recurNone {id sk} : Owns env (.recur id sk) .recurNone 0
  | recurSome {id sk q c n} : env id = some q → Owns env (elabP sk RecurChildReqs q) c n →
      Owns env (.recur id sk) (.recurSome c) n
  | atomic {p b c n} : Owns env p c n → Owns env (.atomic p) (.buffered b c) n
  | clean {p c n} : Owns env p c n → Owns env (.clean p) (.wrap c) (n + 1)
  | skipping {s p sc c n k} : Owns env s sc n → Owns env p c k →
      Owns env (.skip s p) (.skip false sc c) (n + k)
  | skipped {s p sc c k} : Owns env p c k → Owns env (.skip s p) (.skip true sc c) k

/-- Errors that have nothing to do with the data source or the control flow of parsers. -/
def Err.Foreign (e : Err) : Prop := e ≠ .ubData ∧ e ≠ .stuck

/-- A memory whose operations only fail with errors of their own. -/
def ForeignOps (μ : Type) [Store μ] : Prop :=
  ∀ (o : MemOp) (m : μ) e, Store.op o m = .error e → e.Foreign

section
variable {μ : Type} [Store μ]
  {call : Prog → Ref → Ref → PState → World Cursor μ → Out Cursor μ (Res × PState)}

theorem mk_owns (hμ : ForeignOps μ) (env : Env) (p : Prog) : ∀ dst bnd (w : World Cursor μ),
    Post Err.Foreign (fun st w' => ∃ n, Owns env p st n ∧
      w'.ds.saved = List.replicate n w.ds.pos ++ w.ds.saved ∧ w'.ds.pos = w.ds.pos)
      (exec call (mk p dst bnd) w) := by
  have one : ∀ {p dst bnd} {f : PState → PState} {q} {w : World Cursor μ},
      (∀ (w : World Cursor μ), Post Err.Foreign (fun st w' => ∃ n, Owns env p st n ∧
        w'.ds.saved = List.replicate n w.ds.pos ++ w.ds.saved ∧ w'.ds.pos = w.ds.pos)
        (exec call (mk p dst bnd) w)) →
      (∀ {c n}, Owns env p c n → Owns env q (f c) n) →
      Post Err.Foreign (fun st w' => ∃ n, Owns env q st n ∧
        w'.ds.saved = List.replicate n w.ds.pos ++ w.ds.saved ∧ w'.ds.pos = w.ds.pos)
        (exec call ((mk p dst bnd).bind fun c => .pure (f c)) w) := by
    intro p dst bnd f q w h hf
    refine post_bind ((h w).imp (fun _ h => h) fun c w' ⟨n, h1, h2⟩ => ⟨n, hf h1, h2⟩)
  have two : ∀ {p dst bnd} {f : PState → PState} {q} {w : World Cursor μ},
      (∀ (w : World Cursor μ), Post Err.Foreign (fun st w' => ∃ n, Owns env p st n ∧
        w'.ds.saved = List.replicate n w.ds.pos ++ w.ds.saved ∧ w'.ds.pos = w.ds.pos)
        (exec call (mk p dst bnd) w)) →
      (∀ {c n}, Owns env p c n → Owns env q (f c) (n + 1)) →
      Post Err.Foreign (fun st w' => ∃ n, Owns env q st n ∧
        w'.ds.saved = List.replicate n w.ds.pos ++ w.ds.saved ∧ w'.ds.pos = w.ds.pos)
        (exec call ((mk p dst bnd).bind fun c => .prepare (.pure (f c))) w) := by
    intro p dst bnd f q w h hf
    refine post_bind ((h w).imp (fun _ h => h) fun c w' ⟨n, h1, h2, h3⟩ =>
      ⟨n + 1, hf h1, ?_, h3⟩)
    show w'.ds.pos :: w'.ds.saved = _
    rw [h2, h3, List.replicate_succ]; rfl
  have nofault : ∀ {w : World Cursor μ} {Q : PState → World Cursor μ → Prop},
      Post Err.Foreign Q (exec call (.fault .noCompile) w) := by
    intro w Q; exact ⟨by simp, by simp⟩
  intro dst bnd
  fun_induction mk p dst bnd with
  | case1 => intro w; exact ⟨0, .char, rfl, rfl⟩
  | case2 => intro w; exact ⟨0, .charSymbol, rfl, rfl⟩
  | case3 => intro w; exact ⟨0, .strLit, rfl, rfl⟩
  | case4 => intro w; exact ⟨0, .symbolNone, rfl, rfl⟩
  | case5 => intro w; exact post_mem (fun e he => hμ _ _ e he) fun m _ => ⟨0, .int, rfl, rfl⟩
  | case6 => intro w; exact post_mem (fun e he => hμ _ _ e he) fun m _ => ⟨0, .uint, rfl, rfl⟩
  | case7 => intro w; exact ⟨0, .eoi, rfl, rfl⟩
  | case8 => intro w; exact ⟨0, .pass, rfl, rfl⟩
  | case9 => intro w; exact ⟨0, .fail, rfl, rfl⟩
  | case10 => intro w; exact nofault
  | case11 s ss p ps dst bnd d hd ih =>
    intro w; exact one ih fun h => .seq (i := 0) (p := p) (s := s) rfl rfl h
  | case12 => intro w; exact nofault
  | case13 p ps dst bnd ih => intro w; exact one ih fun h => .alt (i := 0) (p := p) rfl h
  | case14 => intro w; exact nofault
  | case15 _ _ _ _ _ ih => intro w; exact one ih .rep
  | case16 _ _ _ ih => intro w; exact two ih .opt
  | case17 _ _ _ ih => intro w; exact two ih .not
  | case18 _ _ _ ih => intro w; exact one ih .discard
  | case19 _ _ _ ih => intro w; exact one ih .lexeme
  | case20 _ _ _ ih => intro w; exact one ih .bindDst
  | case21 tys p dst bnd ih =>
    intro w
    exact one (f := fun c => PState.buffered _ c) (w := ⟨w.ds, _⟩) (ih _) .construct
  | case22 a p dst bnd ih =>
    intro w
    exact one (f := fun c => PState.buffered _ c) (w := ⟨w.ds, _⟩) (ih _) .action
  | case23 _ _ _ _ ih => intro w; exact one ih .exceptNeg
  | case24 _ _ _ _ ih => intro w; exact two ih .listOp
  | case25 _ _ _ ih => intro w; exact one ih .withSkipper
  | case26 => intro w; exact ⟨0, .recurNone, rfl, rfl⟩
  | case27 p dst bnd ih =>
    intro w
    exact one (f := fun c => PState.buffered _ c) (w := ⟨w.ds, _⟩) (ih _) .atomic
  | case28 _ _ _ ih => intro w; exact two ih .clean
  | case29 s p dst bnd ih1 ih2 =>
    intro w
    refine post_bind ((ih1 w).imp (fun _ h => h) fun c w' ⟨n, h1, h2, h3⟩ => ?_)
    refine post_bind ((ih2 w').imp (fun _ h => h) fun c' w'' ⟨n', h1', h2', h3'⟩ => ?_)
    refine ⟨n + n', .skipping h1 h1', ?_, by rw [h3', h3]⟩
    rw [h2', h2, h3, ← List.append_assoc, List.replicate_append_replicate, Nat.add_comm]

/-- What a parser may do to the number of rollback points, keeping `k` of them: when it finishes
the `k` are still there, when it suspends it is in a possible state and what it still has to
remove is there too. -/
def Kept (env : Env) (p : Prog) (k : Nat) (r : Res) (st : PState) (w : World Cursor μ) : Prop :=
  k ≤ w.ds.saved.length ∧ (r = .PARTIAL → ∃ n, Owns env p st n ∧ n + k ≤ w.ds.saved.length)

/-- The same for one iteration. -/
def KeptStep (env : Env) (p : Prog) (k : Nat) : Step → World Cursor μ → Prop
  | .ret r st, w => Kept env p k r st w
  | .cont st, w => ∃ n, Owns env p st n ∧ n + k ≤ w.ds.saved.length

/-- Children keep rollback points. -/
def CallKeeps (env : Env)
    (call : Prog → Ref → Ref → PState → World Cursor μ → Out Cursor μ (Res × PState)) : Prop :=
  ∀ p d b st w n k, Owns env p st n → n + k ≤ w.ds.saved.length →
    Post Err.Foreign (fun x w' => Kept env p k x.1 x.2 w') (call p d b st w)

theorem Kept.done {env p k r st} {w : World Cursor μ} (hr : r ≠ .PARTIAL)
    (h : k ≤ w.ds.saved.length) : Kept env p k r st w := ⟨h, fun h => absurd h hr⟩

theorem keep_commit {env p k r st} {w : World Cursor μ} (hr : r ≠ .PARTIAL)
    (h : k + 1 ≤ w.ds.saved.length) :
    Post Err.Foreign (KeptStep env p k) (exec call (.commit (retS r st)) w) := by
  cases hs : w.ds.saved with
  | nil => rw [hs] at h; simp at h
  | cons x xs =>
    rw [exec_commit hs]
    rw [hs] at h
    exact Kept.done hr (by simpa using h)

theorem keep_cancel {env p k r st} {w : World Cursor μ} (hr : r ≠ .PARTIAL)
    (h : k + 1 ≤ w.ds.saved.length) :
    Post Err.Foreign (KeptStep env p k) (exec call (.cancel (retS r st)) w) := by
  cases hs : w.ds.saved with
  | nil => rw [hs] at h; simp at h
  | cons x xs =>
    rw [exec_cancel hs]
    rw [hs] at h
    exact Kept.done hr (by simpa using h)

theorem keep_mk (hμ : ForeignOps μ) {env p k q dst bnd} {f : PState → PState}
    {w : World Cursor μ} (e : Nat) (h : k + e ≤ w.ds.saved.length)
    (hf : ∀ {c n}, Owns env q c n → Owns env p (f c) (n + e)) :
    Post Err.Foreign (KeptStep env p k)
      (exec call ((mk q dst bnd).bind fun c => contS (f c)) w) := by
  refine post_bind ((mk_owns hμ env q dst bnd w).imp (fun _ h => h) fun c w' ⟨n, h1, h2, _⟩ => ?_)
  refine ⟨n + e, hf h1, ?_⟩
  rw [h2]; simp; omega

/-- Calling a child. -/
theorem keep_call {env p cp d b c n k e kk} {w : World Cursor μ} (hc : CallKeeps env call)
    (ho : Owns env cp c n) (hle : n + e + k ≤ w.ds.saved.length)
    (hk : ∀ r c' (w' : World Cursor μ), Kept env cp (k + e) r c' w' →
      Post Err.Foreign (KeptStep env p k) (exec call (kk r c') w')) :
    Post Err.Foreign (KeptStep env p k) (exec call (.call cp d b c kk) w) := by
  refine post_call ((hc cp d b c w n (k + e) ho (by omega)).imp (fun _ h => h) ?_)
  intro x w' h
  exact hk _ _ _ h

theorem Kept.part {env p cp k e c} {st : PState} {w : World Cursor μ}
    (h : Kept env cp (k + e) .PARTIAL c w)
    (hf : ∀ {n}, Owns env cp c n → Owns env p st (n + e)) :
    Kept env p k .PARTIAL st w := by
  obtain ⟨n, h1, h2⟩ := h.2 rfl
  exact ⟨by have := h.1; omega, fun _ => ⟨n + e, hf h1, by omega⟩⟩

/-- A child with nothing to do afterwards. -/
theorem keep_fwd {env p cp d b c n k} {f : PState → PState} {w : World Cursor μ}
    (hc : CallKeeps env call) (ho : Owns env cp c n) (hle : n + k ≤ w.ds.saved.length)
    (hf : ∀ {c n}, Owns env cp c n → Owns env p (f c) n) :
    Post Err.Foreign (KeptStep env p k)
      (exec call (.call cp d b c fun r c' => retS r (f c')) w) := by
  refine keep_call (e := 0) hc ho hle fun r c' w' h => ?_
  exact ⟨h.1, fun hr => by subst hr; exact (h.part (e := 0) (st := f c') hf).2 rfl⟩

theorem body_keeps (hμ : ForeignOps μ) (env : Env) (hc : CallKeeps env call) {p st n}
    (ho : Owns env p st n) (dst bnd : Ref) (w : World Cursor μ) (k : Nat)
    (hle : n + k ≤ w.ds.saved.length) :
    Post Err.Foreign (KeptStep env p k) (exec call (body env p dst bnd st) w) := by
  have hk : k ≤ w.ds.saved.length := by omega
  have hmem : ∀ {o : MemOp} {m : μ} {e}, Store.op o m = .error e → e.Foreign := hμ _ _ _
  cases ho with
  | char =>
    refine post_guarded (fun _ _ => ⟨hk, by simp⟩) (fun _ _ => ⟨hk, fun _ => ⟨0, .char, by omega⟩⟩) ?_
    intro c hc'
    split
    · refine post_mem (fun _ => hmem) fun m _ => ?_
      rw [exec_advance (w := ⟨w.ds, m⟩) hc']
      exact ⟨hk, by simp⟩
    · exact ⟨hk, by simp⟩
  | charSymbol =>
    refine post_guarded (fun _ _ => ⟨hk, by simp⟩)
      (fun _ _ => ⟨hk, fun _ => ⟨0, .charSymbol, by omega⟩⟩) ?_
    intro c hc'
    split
    · exact ⟨hk, by simp⟩
    · exact post_mem (fun _ => hmem) fun m _ => ⟨hk, by simp⟩
  | @strLit s j =>
    simp only [body]
    split
    · exact ⟨hk, by simp⟩
    · refine post_guarded (fun _ _ => ⟨hk, by simp⟩)
        (fun _ _ => ⟨hk, fun _ => ⟨0, .strLit, by omega⟩⟩) ?_
      intro c hc'
      split
      · rw [exec_advance hc']; exact ⟨0, .strLit, by simpa using hk⟩
      · exact ⟨hk, by simp⟩
  | @symbolNone r nd =>
    simp only [body]
    refine post_guarded (fun _ _ => ⟨hk, by simp⟩)
        (fun _ _ => ⟨hk, fun _ => ⟨0, .symbolNone, by omega⟩⟩) ?_
    intro c hc'
    split
    · exact ⟨hk, by simp⟩
    · rw [exec_advance hc']
      split
      · exact ⟨0, .symbolNone, by simpa using hk⟩
      · simp only [Option.isSome_none, Bool.false_eq_true, if_false]
        split
        · exact post_mem (fun _ => hmem) fun m _ => ⟨hk, by simp⟩
        · rw [exec_prepare]; exact ⟨1, .symbolSome, by simp; omega⟩
  | @symbolSome r nd v =>
    have hstop : Post Err.Foreign (KeptStep env (.symbol r) k) (exec call
        (.mem (.assign dst v) (.commit (retS .SUCCESS (.symbol nd (some v))))) w) :=
      post_mem (fun _ => hmem) fun m _ => keep_commit (w := ⟨w.ds, m⟩) (by simp)
        (by simp only; omega)
    simp only [body]
    refine post_guarded (fun _ _ => hstop)
        (fun _ _ => ⟨hk, fun _ => ⟨1, .symbolSome, by omega⟩⟩) ?_
    intro c hc'
    split
    · exact hstop
    · rw [exec_advance hc']
      split
      · exact ⟨1, .symbolSome, by simpa using hle⟩
      · simp only [Option.isSome_some, if_true]
        cases hs : w.ds.saved with
        | nil => rw [hs] at hle; simp at hle
        | cons x xs =>
          rw [hs] at hle; simp at hle
          rw [exec_cancel (p := x) (ps := xs) (by simpa using hs)]
          split
          · exact post_mem (fun _ => hmem) fun m _ => ⟨by simp; omega, by simp⟩
          · rw [exec_prepare]; exact ⟨1, .symbolSome, by simp; omega⟩
  | @int b mn mx j l g =>
    simp only [body]
    have hneg : ∀ {st : PState} {r : Res} (w' : World Cursor μ), w'.ds.saved = w.ds.saved →
        r ≠ .PARTIAL →
        Post Err.Foreign (KeptStep env (.int b mn mx) k) (exec call (negIf g dst (retS r st)) w') := by
      intro st r w' hw hr
      unfold negIf
      split
      · exact post_mem (fun _ => hmem) fun m _ => Kept.done hr (by rw [hw]; exact hk)
      · exact Kept.done hr (by rw [hw]; exact hk)
    refine post_guarded (fun _ _ => hneg w rfl (enough_ne _ _))
        (fun _ _ => ⟨hk, fun _ => ⟨0, .int, by omega⟩⟩) ?_
    intro c hc'
    split
    · rw [exec_advance hc']; exact ⟨0, .int, by simpa using hk⟩
    · split
      · rw [exec_advance hc']; exact ⟨0, .int, by simpa using hk⟩
      · split
        · refine post_mem (fun _ => hmem) fun m _ => ?_
          rw [exec_advance (w := ⟨w.ds, m⟩) hc']
          split
          · exact hneg _ rfl (by simp)
          · exact ⟨0, .int, by simpa using hk⟩
        · exact hneg w rfl (enough_ne _ _)
  | @uint b mn mx j =>
    simp only [body]
    refine post_guarded (fun _ _ => Kept.done (enough_ne _ _) hk)
        (fun _ _ => ⟨hk, fun _ => ⟨0, .uint, by omega⟩⟩) ?_
    intro c hc'
    split
    · refine post_mem (fun _ => hmem) fun m _ => ?_
      rw [exec_advance (w := ⟨w.ds, m⟩) hc']
      split
      · exact Kept.done (by simp) hk
      · exact ⟨0, .uint, by simp; omega⟩
    · exact Kept.done (enough_ne _ _) hk
  | eoi =>
    exact post_guarded (fun _ _ => ⟨hk, by simp⟩) (fun _ _ => ⟨hk, fun _ => ⟨0, .eoi, by omega⟩⟩)
      fun _ _ => ⟨hk, by simp⟩
  | pass => exact ⟨hk, by simp⟩
  | fail => exact ⟨hk, by simp⟩
  | @seq slots ps i p s c _ hp hs ho =>
    simp only [body, hp, hs]
    split
    · exact ⟨by simp, by simp⟩
    · refine keep_call (e := 0) hc ho (by omega) fun r c' w' h => ?_
      cases r with
      | SUCCESS =>
        simp only
        split
        · rename_i p' s' hp' hs'
          split
          · exact ⟨by simp, by simp⟩
          · exact keep_mk hμ 0 h.1 fun h => .seq hp' hs' h
        · exact Kept.done (by simp) h.1
      | FAILURE => exact Kept.done (by simp) h.1
      | PARTIAL => exact h.part (e := 0) fun h => .seq hp hs h
  | @alt ps i p c _ hp ho =>
    simp only [body, hp]
    refine keep_call (e := 0) hc ho (by omega) fun r c' w' h => ?_
    cases r with
    | FAILURE =>
      simp only
      split
      · rename_i p' hp'; exact keep_mk hμ 0 h.1 fun h => .alt hp' h
      · exact Kept.done (by simp) h.1
    | SUCCESS => exact Kept.done (by simp) h.1
    | PARTIAL => exact h.part (e := 0) fun h => .alt hp h
  | rep ho =>
    simp only [body]
    refine keep_call (e := 0) hc ho (by omega) fun r c' w' h => ?_
    cases r with
    | SUCCESS =>
      simp only
      split
      · exact Kept.done (by simp) h.1
      · exact keep_mk hμ 0 h.1 fun h => .rep h
    | FAILURE => exact Kept.done (enough_ne _ _) h.1
    | PARTIAL => exact h.part (e := 0) .rep
  | opt ho =>
    simp only [body]
    refine keep_call (e := 1) hc ho (by omega) fun r c' w' h => ?_
    cases r with
    | SUCCESS => exact Kept.done (by simp) (by have := h.1; omega)
    | FAILURE => exact keep_commit (by simp) h.1
    | PARTIAL => exact h.part (e := 1) .opt
  | not ho =>
    simp only [body]
    refine keep_call (e := 1) hc ho (by omega) fun r c' w' h => ?_
    cases r with
    | SUCCESS => exact keep_commit (by simp) h.1
    | FAILURE => exact keep_commit (by simp) h.1
    | PARTIAL => exact h.part (e := 1) .not
  | discard ho => exact keep_fwd hc ho hle .discard
  | lexeme ho => exact keep_fwd hc ho hle .lexeme
  | bindDst ho => exact keep_fwd hc ho hle .bindDst
  | construct ho =>
    simp only [body]
    refine keep_call (e := 0) hc ho (by omega) fun r c' w' h => ?_
    cases r with
    | SUCCESS => exact post_mem (fun _ => hmem) fun m _ => Kept.done (by simp) h.1
    | FAILURE => exact Kept.done (by simp) h.1
    | PARTIAL => exact h.part (e := 0) .construct
  | action ho =>
    simp only [body]
    refine keep_call (e := 0) hc ho (by omega) fun r c' w' h => ?_
    cases r with
    | SUCCESS => exact post_mem (fun _ => hmem) fun m _ => Kept.done (by simp) h.1
    | FAILURE => exact Kept.done (by simp) h.1
    | PARTIAL => exact h.part (e := 0) .action
  | exceptNeg ho =>
    simp only [body]
    refine keep_call (e := 0) hc ho (by omega) fun r c' w' h => ?_
    cases r with
    | SUCCESS => exact Kept.done (by simp) h.1
    | FAILURE => exact keep_mk hμ 0 h.1 fun h => .exceptOp h
    | PARTIAL => exact h.part (e := 0) .exceptNeg
  | exceptOp ho => exact keep_fwd hc ho hle .exceptOp
  | listOp ho =>
    simp only [body]
    refine keep_call (e := 1) hc ho (by omega) fun r c' w' h => ?_
    cases r with
    | SUCCESS =>
      have h1 := h.1
      cases hs : w'.ds.saved with
      | nil => rw [hs] at h1; simp at h1
      | cons x xs =>
        rw [hs] at h1
        simp only
        rw [exec_cancel hs, exec_prepare]
        exact keep_mk hμ 1 (by simpa using h1) fun h => .listSep h
    | FAILURE => exact keep_commit (by simp) h.1
    | PARTIAL => exact h.part (e := 1) .listOp
  | listSep ho =>
    simp only [body]
    refine keep_call (e := 1) hc ho (by omega) fun r c' w' h => ?_
    cases r with
    | SUCCESS => exact keep_mk hμ 1 h.1 fun h => .listOp h
    | FAILURE => exact keep_commit (by simp) h.1
    | PARTIAL => exact h.part (e := 1) .listSep
  | withSkipper ho => exact keep_fwd hc ho hle .withSkipper
  | @recurNone id sk =>
    simp only [body]
    split
    · exact ⟨by simp, by simp⟩
    · rename_i q hq
      exact keep_mk hμ 0 (by omega) fun h => .recurSome hq h
  | recurSome hq ho =>
    simp only [body, hq]
    exact keep_fwd hc ho hle fun h => .recurSome hq h
  | atomic ho =>
    simp only [body]
    refine keep_call (e := 0) hc ho (by omega) fun r c' w' h => ?_
    cases r with
    | SUCCESS => exact post_mem (fun _ => hmem) fun m _ => Kept.done (by simp) h.1
    | FAILURE => exact Kept.done (by simp) h.1
    | PARTIAL => exact h.part (e := 0) .atomic
  | clean ho =>
    simp only [body]
    refine keep_call (e := 1) hc ho (by omega) fun r c' w' h => ?_
    cases r with
    | SUCCESS => exact keep_cancel (by simp) h.1
    | FAILURE => exact keep_commit (by simp) h.1
    | PARTIAL => exact h.part (e := 1) .clean
  | @skipping s p sc c n1 n2 ho1 ho2 =>
    simp only [body]
    refine keep_call (e := n2) hc ho1 (by omega) fun r c' w' h => ?_
    cases r with
    | SUCCESS => exact keep_mk hμ n2 h.1 fun h => .skipping h ho2
    | FAILURE => exact ⟨n2, .skipped ho2, by have := h.1; omega⟩
    | PARTIAL => exact h.part (e := n2) fun h => .skipping h ho2
  | skipped ho => exact keep_fwd hc ho hle .skipped

theorem run_keeps (hμ : ForeignOps μ) (env : Env) (n : Nat) :
    CallKeeps env (run env n : _ → _ → _ → _ → World Cursor μ → _) := by
  induction n with
  | zero => intro p d b st w n k _ _; exact ⟨by simp, by simp⟩
  | succ n ih =>
    intro p d b st w m k ho hle
    refine post_run_succ ((body_keeps hμ env ih ho d b w k hle).imp (fun _ h => h) ?_)
    intro s w' h
    cases s with
    | ret r st' => exact h
    | cont st' =>
      obtain ⟨m', h1, h2⟩ := h
      exact ih _ _ _ _ _ m' k h1 h2

end

/-- Errors of destination memories. -/
def Err.ofMem : Err → Bool
  | .ubOverflow | .ubUninit | .ubDangling | .noCompile => true
  | _ => false

theorem Val.update_error {f : Val → Except Err Val} (hf : ∀ v e, f v = .error e → e.ofMem = true) :
    ∀ {path v e}, Val.update f path v = .error e → e.ofMem = true := by
  intro path
  induction path with
  | nil => intro v e h; exact hf v e h
  | cons i path ih =>
    intro v e h
    cases v with
    | tup vs =>
      simp only [Val.update] at h
      split at h
      · cases h; rfl
      · split at h
        · rename_i he; cases h; exact ih he
        · cases h
    | _ => cases h; rfl

theorem Val.get_error : ∀ {path v e}, Val.get path v = .error e → e.ofMem = true := by
  intro path
  induction path with
  | nil => intro v e h; cases h
  | cons i path ih =>
    intro v e h
    cases v with
    | tup vs =>
      simp only [Val.get] at h
      split at h
      · cases h; rfl
      · exact ih h
    | _ => cases h; rfl

theorem Mem.modify_error {m : Mem} {obj path f e}
    (hf : ∀ v e, f v = .error e → e.ofMem = true) (h : m.modify obj path f = .error e) : e.ofMem = true := by
  simp only [Mem.modify] at h
  split at h
  · cases h; rfl
  · split at h
    · rename_i he; cases h; exact Val.update_error hf he
    · cases h

theorem Mem.read_error {m : Mem} {r e} (h : m.read r = .error e) : e.ofMem = true := by
  cases r with
  | nil => cases h
  | «at» obj path ty =>
    simp only [Mem.read] at h
    split at h
    · cases h; rfl
    · exact Val.get_error h

theorem Ty.convert_error {t : Ty} {v e} (h : t.convert v = .error e) : e.ofMem = true := by
  cases t <;> cases v <;> simp only [Ty.convert] at h <;>
    first
    | (cases h; done)
    | (cases h; rfl)
    | (split at h <;> cases h; rfl)

theorem Mem.assign_error {m : Mem} {r v e} (h : m.assign r v = .error e) : e.ofMem = true := by
  unfold Mem.assign at h
  split at h
  · cases h
  · split at h
    · rename_i he; cases h; exact Ty.convert_error he
    · refine Mem.modify_error ?_ h
      intro v e h
      split at h
      · cases h
      · cases h; rfl
  · split at h
    · rename_i he; cases h; exact Ty.convert_error he
    · exact Mem.modify_error (by intro v e h; cases h) h

theorem NumKind.store_error {k : NumKind} {i e} (h : k.store i = .error e) : e.ofMem = true := by
  unfold NumKind.store at h
  split at h
  · cases h
  · cases h
  · split at h
    · cases h
    · split at h
      · cases h
      · cases h; rfl

theorem Mem.onNum_error {m : Mem} {r f e} (hf : ∀ k v e, f k v = .error e → e.ofMem = true)
    (h : m.onNum r f = .error e) : e.ofMem = true := by
  unfold Mem.onNum at h
  split at h
  · cases h
  · exact Mem.modify_error (hf _) h
  · cases h; rfl

theorem Mem.mul_error {m : Mem} {r b e} (h : m.mul b r = .error e) : e.ofMem = true := by
  refine Mem.onNum_error ?_ h
  intro k v e h
  split at h
  · split at h
    · rename_i he; cases h; exact NumKind.store_error he
    · cases h
  · cases h; rfl
  · cases h; rfl

theorem Mem.add_error {m : Mem} {r b e} (h : m.add b r = .error e) : e.ofMem = true := by
  refine Mem.onNum_error ?_ h
  intro k v e h
  split at h
  · split at h
    · rename_i he; cases h; exact NumKind.store_error he
    · cases h
  · cases h; rfl
  · cases h; rfl

theorem Ty.makeFrom_error {t : Ty} {vs e} (h : t.makeFrom vs = .error e) : e.ofMem = true := by
  unfold Ty.makeFrom at h
  split at h <;> cases h
  rfl

/-- Operations on the memory of the library fail with errors of their own. -/
theorem mem_ofMem {o : MemOp} {m : Mem} {e} (h : m.run o = .error e) : e.ofMem = true := by
  cases o with
  | zero dst => exact Mem.onNum_error (by intro k v e h; cases h) h
  | mulAdd b d dst =>
    simp only [Mem.run, Mem.mulAdd] at h
    split at h
    · rename_i he; cases h; exact Mem.mul_error he
    · exact Mem.add_error h
  | neg dst => exact Mem.mul_error h
  | assign dst v => exact Mem.assign_error h
  | move dst buf =>
    simp only [Mem.run, Mem.assignFrom] at h
    split at h
    · rename_i he; cases h; exact Mem.read_error he
    · cases h; rfl
    · exact Mem.assign_error h
  | construct dst buf =>
    simp only [Mem.run, Mem.construct] at h
    split at h
    · rename_i he; cases h; exact Mem.read_error he
    · split at h
      · split at h
        · rename_i he; cases h; exact Ty.makeFrom_error he
        · cases h
      · split at h
        · rename_i he; cases h; exact Ty.makeFrom_error he
        · exact Mem.assign_error h
    · cases h; rfl
  | act a land dst bnd =>
    simp only [Mem.run, Mem.act] at h
    split at h
    · rename_i he; cases h; exact Mem.read_error he
    · cases h; rfl
    · split at h
      · rename_i he
        cases h
        split at he
        · exact Mem.read_error he
        · cases he
      · split at h
        · rename_i he
          cases h
          split at he
          · exact Mem.modify_error (by intro v e h; cases overwrite_error h; rfl) he
          · cases he
        · split at h
          · cases h
          · exact Mem.assign_error h

theorem mem_foreignOps : ForeignOps Mem := by
  intro o m e h
  have := mem_ofMem h
  cases e <;> simp_all [Err.ofMem, Err.Foreign]

theorem unit_foreignOps : ForeignOps Unit := by intro o m e h; cases h

/-- Parser objects driven within the contract of `add_buffer` only meet foreign errors. -/
theorem Session.foreign {env p dst ops} {st n} {w : World Cursor Mem} {v : Verdict}
    (h : Session Cursor.addBuffer env p dst st w ops v)
    (ho : Owns env p st n) (hle : n ≤ w.ds.saved.length)
    (hl : Legal ops ∧ w.ds.final = false ∨ ∀ b f, SOp.add b f ∉ ops) {e} (hv : v = .error e) :
    e.Foreign := by
  induction h generalizing n with
  | nil => cases hv
  | @addBad st w b f ops h =>
    rcases hl with ⟨_, hf⟩ | hl
    · simp [Cursor.addBuffer, hf] at h
    · exact absurd (by simp) (hl b f)
  | @add st w b f ops ds v h _ ih =>
    have hds : ds = w.ds.feed b f := by
      simp only [Cursor.addBuffer] at h
      split at h
      · cases h
      · cases h; rfl
    refine ih ho (by rw [hds]; exact hle) ?_ hv
    rcases hl with ⟨hl, hf⟩ | hl
    · cases f with
      | true => exact .inr hl
      | false => exact .inl ⟨hl, by rw [hds]; rfl⟩
    · exact absurd (by simp) (hl b f)
  | error h =>
    cases hv
    obtain ⟨_, k, hk⟩ := h
    have := run_keeps mem_foreignOps env k p dst dst _ _ n 0 ho (by omega)
    rw [hk] at this
    exact this
  | verdict => cases hv
  | @more st w ops st' w' v h _ ih =>
    have hfin := h.final_eq
    obtain ⟨_, k, hk⟩ := h
    have := run_keeps mem_foreignOps env k p dst dst _ _ n 0 ho (by omega)
    rw [hk] at this
    obtain ⟨n', h1, h2⟩ := this.2 rfl
    refine ih h1 (by omega) ?_ hv
    rcases hl with ⟨hl, hf⟩ | hl
    · exact .inl ⟨hl, by rw [hfin]; exact hf⟩
    · exact .inr fun b f hb => hl b f (by simp [hb])

end Abu
