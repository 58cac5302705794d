import Verif.Spec.Moves
import Verif.Proofs.Buffers
import Verif.Proofs.Objects
/-
Moved parser objects against those that stay.
-/
namespace Abu

/-- `s0` with another number of `empty_rollbacks_`, and what a move leaves of it. -/
def HollowOf (s0 : ContainerSeq) (h : Hollow) (s : ContainerSeq) : Prop :=
  ∃ k, s = { s0 with emptyRollbacks := k } ∧ h = ⟨s0.final_, k⟩

theorem HollowOf.self (s : ContainerSeq) : HollowOf s s.hollow s := ⟨_, rfl, rfl⟩

/-- The same outcome, or undefined behaviour. -/
inductive HollowRel {μ α : Type} (s0 : ContainerSeq) : Out Hollow μ α → Out ContainerSeq μ α → Prop
  | undef (y) : HollowRel s0 (.error .ubData) y
  | error (e) : HollowRel s0 (.error e) (.error e)
  | ok (a) {h s m} : HollowOf s0 h s → HollowRel s0 (.ok (a, ⟨h, m⟩)) (.ok (a, ⟨s, m⟩))

theorem HollowOf.close {s0 h s} (hr : HollowOf s0 h s) :
    h.close = none ∨ ∃ h' s', h.close = some h' ∧ DataSource.commit s = some s' ∧
      DataSource.cancel s = some s' ∧ HollowOf s0 h' s' := by
  obtain ⟨k, rfl, rfl⟩ := hr
  by_cases hk : k = 0
  · left; simp [Hollow.close, hk]
  · right
    refine ⟨⟨s0.final_, k - 1⟩, { s0 with emptyRollbacks := k - 1 }, by simp [Hollow.close, hk], ?_, ?_,
      k - 1, rfl, rfl⟩
    · show ContainerSeq.commit _ = _
      simp [ContainerSeq.commit, hk]
    · show ContainerSeq.cancel _ = _
      simp [ContainerSeq.cancel, hk]

section
variable {μ : Type} [Store μ]

theorem exec_hollow {s0 : ContainerSeq}
    {f : Prog → Ref → Ref → PState → World Hollow μ → Out Hollow μ (Res × PState)}
    {g : Prog → Ref → Ref → PState → World ContainerSeq μ → Out ContainerSeq μ (Res × PState)}
    (hfg : ∀ p d b st h s m, HollowOf s0 h s → HollowRel s0 (f p d b st ⟨h, m⟩) (g p d b st ⟨s, m⟩))
    {α : Type} (x : Cmd α) {h s} (m : μ) (hr : HollowOf s0 h s) :
    HollowRel s0 (execHollow f x ⟨h, m⟩) (exec g x ⟨s, m⟩) := by
  induction x generalizing h s m with
  | pure a => exact .ok a hr
  | fault e => exact .error e
  | isEmpty k ih => exact .undef _
  | isFinal k ih =>
    have : DataSource.final s = h.final_ := by obtain ⟨k, rfl, rfl⟩ := hr; rfl
    simp only [exec, execHollow, this]
    exact ih _ m hr
  | next k ih => exact .undef _
  | advance k ih => exact .undef _
  | prepare k ih => exact .undef _
  | commit k ih =>
    simp only [exec, execHollow]
    rcases hr.close with hc | ⟨h', s', hc, h1, h2, hr'⟩
    · rw [hc]; exact .undef _
    · rw [hc, h1]; exact ih m hr'
  | cancel k ih =>
    simp only [exec, execHollow]
    rcases hr.close with hc | ⟨h', s', hc, h1, h2, hr'⟩
    · rw [hc]; exact .undef _
    · rw [hc, h2]; exact ih m hr'
  | mem o k ih =>
    simp only [exec, execHollow]
    cases Store.op o m with
    | error e => exact .error e
    | ok m' => exact ih m' hr
  | alloc t k ih => exact ih _ _ hr
  | call p d b st k ih =>
    have hc := hfg p d b st h s m hr
    simp only [exec, execHollow]
    generalize f p d b st ⟨h, m⟩ = x at *
    generalize g p d b st ⟨s, m⟩ = y at *
    cases hc with
    | undef y => exact .undef _
    | error e => exact .error e
    | ok a hr' => exact ih _ _ _ hr'

theorem run_hollow {s0 : ContainerSeq} (env : Env) (n : Nat) (p dst bnd st) {h s} (m : μ)
    (hr : HollowOf s0 h s) :
    HollowRel s0 (runHollow env n p dst bnd st ⟨h, m⟩) (run env n p dst bnd st ⟨s, m⟩) := by
  induction n generalizing p dst bnd st h s m with
  | zero => exact .error _
  | succ n ih =>
    have he := exec_hollow (fun p d b st h s m hh => ih p d b st m hh) (body env p dst bnd st) m hr
    rw [run_succ_andThen]
    simp only [runHollow]
    generalize execHollow (runHollow env n) (body env p dst bnd st) ⟨h, m⟩ = x at *
    generalize exec (run env n) (body env p dst bnd st) ⟨s, m⟩ = y at *
    cases he with
    | undef y => exact .undef _
    | error e => exact .error e
    | ok a hr' =>
      cases a with
      | ret r st' => exact .ok _ hr'
      | cont st' => exact ih _ _ _ _ _ hr'

/-- `consume` that is defined on what a move leaves does the same as without the move. -/
theorem EvalsBy.unhollow {env : Env} {p dst bnd st} {h : Hollow} {m : μ} {x w'}
    (he : EvalsBy (runHollow env) p dst bnd st ⟨h, m⟩ (.ok (x, w'))) {s0 s} (hr : HollowOf s0 h s) :
    ∃ s', Evals env p dst bnd st ⟨s, m⟩ (.ok (x, ⟨s', w'.mem⟩)) ∧ HollowOf s0 w'.ds s' := by
  obtain ⟨_, n, hn⟩ := he
  have hc := run_hollow env n p dst bnd st m hr
  rw [hn] at hc
  generalize hy : run env n p dst bnd st ⟨s, m⟩ = y at hc
  cases hc with
  | ok a hr' => exact ⟨_, ⟨nofun, n, hy⟩, hr'⟩

/-- It does not ask for more text. -/
theorem EvalsBy.hollow_answers {env : Env} {p dst bnd st} {h : Hollow} {m : μ} {r st' w'}
    (he : EvalsBy (runHollow env) p dst bnd st ⟨h, m⟩ (.ok ((r, st'), w'))) : r ≠ .PARTIAL := by
  rintro rfl
  have hr : HollowOf ⟨[], h.final_, none, some 0, [], h.emptyRollbacks, 0⟩ h
    ⟨[], h.final_, none, some 0, [], h.emptyRollbacks, 0⟩ := ⟨_, rfl, rfl⟩
  obtain ⟨s', ⟨_, n, hn⟩, k, rfl, _⟩ := he.unhollow hr
  have hs := hn ▸ starved env n p dst bnd st _
  cases hs.1

end

/-! ### Unread text -/

/-- The same text in the same buffers, read up to the same place. -/
def ContainerSeq.mark (s : ContainerSeq) (f : Bool) (k : Nat) : ContainerSeq :=
  { s with final_ := f, emptyRollbacks := k }

theorem ContainerSeq.advance_mark (s : ContainerSeq) (f : Bool) (k : Nat) :
    DataSource.advance (s.mark f k) = (DataSource.advance s).map (·.mark f k) := by
  show (s.mark f k).advance = s.advance.map _
  obtain ⟨bufs, fin, cur, cb, rb, er, id⟩ := s
  simp only [ContainerSeq.mark, ContainerSeq.advance, ContainerSeq.derefChar, ContainerSeq.deref,
    ContainerSeq.nextIt, ContainerSeq.beginIt]
  split
  · split
    · rfl
    · split
      · rfl
      · split
        · split <;> rfl
        · rfl
  · rfl

theorem Reads.mark {s : ContainerSeq} {u : List Ch} (h : Reads s u) (f : Bool) (k : Nat) :
    Reads (s.mark f k) u := by
  induction h with
  | done he => exact .done he
  | read he hn ha _ ih =>
    exact .read (s' := _) he hn (by rw [ContainerSeq.advance_mark, ha]; rfl) ih

/-! ### A waiting parser object -/

theorem Driven.reads {env p dst m ops r st} {w : World ContainerSeq Mem}
    (h : Driven ContainerSeq.addBuffer ContainerSeq.make env p dst m ops r st w) : ∃ u, Reads w.ds u := by
  obtain ⟨c, hc, _⟩ := h.cursor
  exact ⟨_, (ContainerSeq.dsSimOf _).reads hc c.reads_drop⟩

/-- What is done with a waiting object continues the session. -/
theorem Driven.session {env p dst m ops r st} {w : World ContainerSeq Mem}
    (h : Driven ContainerSeq.addBuffer ContainerSeq.make env (topParser p) dst m ops r st w)
    (hw : r = none ∨ r = some .PARTIAL) (more : List SOp) (v : Verdict) :
    MakeParserRun env p dst m (ops ++ more) v ↔
      Session ContainerSeq.addBuffer env (topParser p) dst st w more v := by
  induction h generalizing more v with
  | made hc =>
    constructor
    · intro h
      cases h with
      | construct h => rw [hc] at h; cases h
      | run h h' => rw [hc] at h; cases h; exact h'
    · exact fun h => .run hc h
  | add b f _ ha ih =>
    rw [List.append_assoc, ih hw]
    constructor
    · intro h
      cases h with
      | addBad h => rw [ha] at h; cases h
      | add h h' => rw [ha] at h; cases h; exact h'
    · exact fun h => .add ha h
  | consume _ hr he ih =>
    obtain rfl : _ = Res.PARTIAL := by
      rcases hw with hw | hw
      · cases hw
      · exact Option.some.inj hw
    rw [List.append_assoc, ih hr]
    constructor
    · intro h
      cases h with
      | error h => cases h.unique he
      | verdict h hp => cases h.unique he; exact absurd rfl hp
      | more h h' => cases h.unique he; exact h'
    · exact fun h => .more he h

/-! ### Programs with a move -/

theorem AfterMove.gone {env p dst st old new m ops v}
    (h : AfterMove env p dst st old new m ops v) (ho : old = none) {r m'} (hv : v = .ok (r, m')) :
    r = .PARTIAL ∧ m' = m ∧ MoveOp.unmoved ops = [] := by
  induction h with
  | nil => cases hv; exact ⟨rfl, rfl, rfl⟩
  | addNew _ _ ih => exact ih ho hv
  | addNewBad => cases hv
  | dangling => cases hv
  | _ => cases ho

/-- An end that is defined is the end without the move, and no text is read after the move. -/
theorem AfterMove.session {env p dst st old new m ops v}
    (h : AfterMove env p dst st old new m ops v) {r m'} (hv : v = .ok (r, m')) :
    ∀ {s : ContainerSeq} {u}, old = some s.hollow → Reads s u →
      Session ContainerSeq.addBuffer env p dst st ⟨s, m⟩ (MoveOp.unmoved ops)
        (.ok (r, m', u ++ opsText (MoveOp.unmoved ops))) := by
  induction h with
  | nil =>
    intro s u _ hu
    cases hv
    simpa [MoveOp.unmoved, opsText] using Session.nil (w := ⟨s, _⟩) hu
  | addOldBad => cases hv
  | @addOld st h h' new m b f ops v ha _ ih =>
    intro s u ho hu
    cases ho
    unfold Hollow.add at ha
    by_cases hf : s.final_ = true
    · rw [if_pos (show s.hollow.final_ = true from hf)] at ha; cases ha
    · rw [if_neg (show ¬ s.hollow.final_ = true from hf)] at ha
      by_cases hb : b.isEmpty = true
      · rw [if_pos hb] at ha
        cases ha
        obtain rfl : b = [] := by simpa using hb
        refine .add (ds := s.mark f s.emptyRollbacks) ?_ (ih hv rfl (hu.mark _ _))
        simp only [ContainerSeq.addBuffer, if_neg hf]
        rfl
      · rw [if_neg hb] at ha; cases ha
  | addNewBad => cases hv
  | addNew _ _ ih => intro s u ho hu; exact ih hv ho hu
  | dropOld h _ =>
    intro s u _ hu
    obtain ⟨rfl, rfl, he⟩ := h.gone rfl hv
    simp only [MoveOp.unmoved, he, opsText, List.append_nil]
    exact .nil (w := ⟨s, _⟩) hu
  | dangling => cases hv
  | error => cases hv
  | answer he hr =>
    intro s u ho hu
    cases hv
    cases ho
    obtain ⟨s', he', k, rfl, _⟩ := he.unhollow (HollowOf.self s)
    exact .verdict he' hr (hu.mark s.final_ k)
  | more he _ _ => exact absurd rfl he.hollow_answers

/-- There is no answer only if nothing was asked, and no text was added to the data source that is read. -/
theorem AfterMove.idle {env p dst st old new m ops v}
    (h : AfterMove env p dst st old new m ops v) {m'} (hv : v = .ok (.PARTIAL, m')) :
    MoveOp.consume ∉ ops ∧ ∀ b f, MoveOp.addOld b f ∈ ops → b = [] := by
  induction h with
  | nil => exact ⟨by simp, by simp⟩
  | addOldBad => cases hv
  | @addOld st h h' new m b f ops v ha _ ih =>
    obtain ⟨i1, i2⟩ := ih hv
    refine ⟨by simpa using i1, fun b' f' hm => ?_⟩
    rcases List.mem_cons.1 hm with hm | hm
    · cases hm
      unfold Hollow.add at ha
      split at ha
      · cases ha
      · split at ha
        · rename_i hb; simpa using hb
        · cases ha
    · exact i2 b' f' hm
  | addNewBad => cases hv
  | addNew _ _ ih => simpa using ih hv
  | dropOld _ ih => simpa using ih hv
  | dangling => cases hv
  | error => cases hv
  | answer _ hr => cases hv; exact absurd rfl hr
  | more he _ _ => exact absurd rfl he.hollow_answers

theorem MoveOp.unmoved_consume {ops : List MoveOp} (h : MoveOp.consume ∈ ops) : MoveOp.unmoved ops ≠ [] := by
  induction ops with
  | nil => cases h
  | cons op ops ih =>
    cases op with
    | consume => simp [MoveOp.unmoved]
    | addOld b f => simp [MoveOp.unmoved]
    | addNew b f => exact ih (by simpa using h)
    | dropOld => exact ih (by simpa using h)

/-- An answer comes before the end of the object that was moved from. -/
theorem AfterMove.before {env p dst ops1 ops2 ops3 r m'} : ∀ {st old new m},
    AfterMove env p dst st old new m (ops1 ++ .dropOld :: (ops2 ++ .consume :: ops3)) (.ok (r, m')) →
    r ≠ .PARTIAL ∧ AfterMove env p dst st old new m ops1 (.ok (r, m')) := by
  induction ops1 with
  | nil =>
    intro st old new m h
    cases h with
    | dropOld h => exact absurd (h.gone rfl rfl).2.2 (MoveOp.unmoved_consume (by simp))
  | cons op ops1 ih =>
    intro st old new m h
    cases h with
    | addOld ha h => exact ⟨(ih h).1, .addOld ha (ih h).2⟩
    | addNew ha h => exact ⟨(ih h).1, .addNew ha (ih h).2⟩
    | dropOld h => exact ⟨(ih h).1, .dropOld (ih h).2⟩
    | answer he hr => exact ⟨hr, .answer he hr⟩
    | more he h => exact ⟨(ih h).1, .more he (ih h).2⟩

/-- When the object that stays would read text or ask for more, the moved one has undefined
behaviour. -/
theorem AfterMove.undefined {env p dst st} {s : ContainerSeq} {new m ops v u r st' w' rest}
    (hu : Reads s u) (he : Evals env p dst dst st ⟨s, m⟩ (.ok ((r, st'), w'))) (hw : Reads w'.ds rest)
    (hr : r = .PARTIAL ∨ rest ≠ u) :
    AfterMove env p dst st (some s.hollow) new m (.consume :: ops) v ↔ v = .error .ubData := by
  have key : ∀ x w1, ¬ EvalsBy (runHollow env) p dst dst st ⟨s.hollow, m⟩ (.ok (x, w1)) := by
    intro x w1 h
    obtain ⟨r1, st1⟩ := x
    obtain ⟨s', he', k, rfl, _⟩ := h.unhollow (HollowOf.self s)
    have hp := h.hollow_answers
    cases he'.unique he
    rcases hr with hr | hr
    · exact hp hr
    · exact hr (hw.unique (hu.mark s.final_ k))
  constructor
  · intro h
    cases h with
    | error h =>
      obtain ⟨hne, n, hn⟩ := h
      have hc := run_hollow env n p dst dst st m (HollowOf.self s)
      rw [hn] at hc
      generalize hy : run env n p dst dst st ⟨s, m⟩ = y at hc
      cases hc with
      | undef => rfl
      | error e =>
        have := he.unique ⟨fun h => hne (by cases h; rfl), n, hy⟩
        cases this
    | answer h => exact absurd h (key _ _)
    | more h => exact absurd h (key _ _)
  · rintro rfl
    refine .error ?_
    obtain ⟨_, n, hn⟩ := he
    have hc := run_hollow env n p dst dst st m (HollowOf.self s)
    rw [hn] at hc
    generalize hy : runHollow env n p dst dst st ⟨s.hollow, m⟩ = y at hc
    cases hc with
    | undef => exact ⟨nofun, n, hy⟩
    | ok a h => exact absurd ⟨nofun, n, hy⟩ (key _ _)

/-- For examples. -/
theorem AfterMove.answerN (n : Nat) {env p dst st s new m ops r st' w' m'}
    (h : runHollow env n p dst dst st ⟨s, m⟩ = .ok ((r, st'), w')) (hr : r ≠ .PARTIAL) (hm : w'.mem = m') :
    AfterMove env p dst st (some s) new m (.consume :: ops) (.ok (r, m')) := by
  subst hm
  exact .answer ⟨nofun, n, h⟩ hr

/-! ### One end -/

section
variable {μ : Type} [Store μ]

theorem execHollow_mono {f g : Prog → Ref → Ref → PState → World Hollow μ → Out Hollow μ (Res × PState)}
    (h : ∀ p d b s w, f p d b s w ≠ .error .fuel → g p d b s w = f p d b s w) {α : Type} (c : Cmd α)
    (w : World Hollow μ) : execHollow f c w ≠ .error .fuel → execHollow g c w = execHollow f c w := by
  induction c generalizing w with
  | pure a => intro _; rfl
  | fault e => intro _; rfl
  | isEmpty k ih => intro _; rfl
  | isFinal k ih => simp only [execHollow]; exact ih _ _
  | next k ih => intro _; rfl
  | advance k ih => intro _; rfl
  | prepare k ih => intro _; rfl
  | commit k ih => simp only [execHollow]; cases w.ds.close <;> simp <;> exact ih _
  | cancel k ih => simp only [execHollow]; cases w.ds.close <;> simp <;> exact ih _
  | mem o k ih => simp only [execHollow]; cases Store.op o w.mem <;> simp <;> exact ih _
  | alloc t k ih => simp only [execHollow]; exact ih _ _
  | call p d b s k ih =>
    simp only [execHollow]
    intro hne
    have hc : f p d b s w ≠ .error .fuel := by
      intro hc; rw [hc] at hne; exact hne rfl
    rw [h p d b s w hc]
    cases hf : f p d b s w with
    | error e => rfl
    | ok x => obtain ⟨⟨r, s'⟩, w'⟩ := x; rw [hf] at hne; exact ih _ _ _ hne

theorem runHollow_succ (env : Env) (n : Nat) : ∀ p d b s (w : World Hollow μ),
    runHollow env n p d b s w ≠ .error .fuel → runHollow env (n + 1) p d b s w = runHollow env n p d b s w := by
  induction n with
  | zero => intro p d b s w h; exact absurd rfl h
  | succ n ih =>
    intro p d b s w h
    unfold runHollow at h ⊢
    have hx : execHollow (runHollow env n) (body env p d b s) w ≠ .error .fuel := by
      intro hx; rw [hx] at h; exact h rfl
    rw [execHollow_mono ih _ _ hx]
    cases he : execHollow (runHollow env n) (body env p d b s) w with
    | error e => rfl
    | ok x =>
      obtain ⟨s', w'⟩ := x
      cases s' with
      | ret r st' => rfl
      | cont st' => rw [he] at h; exact ih _ _ _ _ _ h

theorem runHollow_mono (env : Env) {n m : Nat} (hnm : n ≤ m) : ∀ p d b s (w : World Hollow μ),
    runHollow env n p d b s w ≠ .error .fuel → runHollow env m p d b s w = runHollow env n p d b s w := by
  induction hnm with
  | refl => intro _ _ _ _ _ _; rfl
  | step _ ih =>
    intro p d b s w h
    rw [runHollow_succ env _ p d b s w (by rw [ih p d b s w h]; exact h), ih p d b s w h]

theorem EvalsBy.hollow_unique {env : Env} {p dst bnd st} {w : World Hollow μ} {o o'}
    (h : EvalsBy (runHollow env) p dst bnd st w o) (h' : EvalsBy (runHollow env) p dst bnd st w o') :
    o = o' := by
  obtain ⟨hn, n, rfl⟩ := h
  obtain ⟨hm, m, rfl⟩ := h'
  rcases Nat.le_total n m with h | h
  · exact (runHollow_mono env h _ _ _ _ _ hn).symm
  · exact runHollow_mono env h _ _ _ _ _ hm

end

/-! ### After `PARTIAL` -/

/-- `consume` begins with a look at the data source. -/
def Looks (μ : Type) [Store μ] (env : Env) (p : Prog) (dst bnd : Ref) (st : PState) : Prop :=
  ∃ n, ∀ h (m : μ), runHollow env n p dst bnd st ⟨h, m⟩ = .error .ubData

/-- A parser that returned `PARTIAL` begins with a look at the data source when it is asked again. -/
theorem run_partial_looks {σ μ : Type} [DataSource σ] [Store μ] (env : Env) (n : Nat) (p dst bnd st)
    (w : World σ μ) {st' w'} (h : run env n p dst bnd st w = .ok ((.PARTIAL, st'), w')) :
    Looks μ env p dst bnd st' := by
  induction n generalizing p dst bnd st w st' w' with
  | zero => cases h
  | succ n ih =>
    rw [run_succ_andThen] at h
    have fin : ∀ (x : Out σ μ Step), (∀ {a w'}, x = .ok (a, w') → NoPartial a) →
        andThen env n p dst bnd x = .ok ((.PARTIAL, st'), w') → Looks μ env p dst bnd st' := by
      intro x hx h
      cases x with
      | error e => cases h
      | ok y =>
        obtain ⟨s, w1⟩ := y
        cases s with
        | cont st1 => exact ih _ _ _ _ _ h
        | ret r st1 =>
          have := hx rfl
          cases h
          exact absurd rfl this
    cases shape env p dst bnd st with
    | plain hp => exact fin _ (exec_plain_post _ hp w) h
    | leaf A B hb hA hB =>
      rw [hb] at h
      cases he : DataSource.empty w.ds with
      | false =>
        cases hn : DataSource.next w.ds with
        | none => simp [guarded, exec, he, hn, andThen] at h
        | some c =>
          have hx : exec (run env n) (guarded st A B) w = exec (run env n) (B c) w := by
            simp [guarded, exec, he, hn]
          rw [hx] at h
          exact fin _ (exec_plainAdv_post _ (hB c) w) h
      | true =>
        cases hfin : DataSource.final w.ds with
        | true =>
          have hx : exec (run env n) (guarded st A B) w = exec (run env n) A w := by
            simp [guarded, exec, he, hfin]
          rw [hx] at h
          exact fin _ (exec_plain_post _ hA w) h
        | false =>
          simp [guarded, exec, he, hfin, andThen] at h
          obtain ⟨rfl, _⟩ := h
          exact ⟨1, fun h m => by simp only [runHollow, hb, guarded, execHollow]⟩
    | child cp cd cb cs rebuild k hst hb hpk hk =>
      subst hst
      rw [hb] at h
      simp only [exec] at h
      cases hr : run env n cp cd cb cs w with
      | error e => rw [hr] at h; cases h
      | ok y =>
        obtain ⟨⟨r, c'⟩, w1⟩ := y
        rw [hr] at h
        by_cases hp : r = .PARTIAL
        · subst hp
          simp only [hpk, exec, andThen] at h
          cases h
          obtain ⟨k1, hk1⟩ := ih _ _ _ _ _ hr
          exact ⟨k1 + 1, fun h m => by simp only [runHollow, hb, execHollow, hk1]⟩
        · exact fin _ (exec_plain_post _ (hk r c' hp) w1) h

theorem Driven.looks {σ : Type} [DataSource σ] {add : σ → List Ch → Bool → Option σ} {start : σ}
    {env p dst m ops r st} {w : World σ Mem} (h : Driven add start env p dst m ops r st w)
    (hr : r = some .PARTIAL) : Looks Mem env p dst dst st := by
  induction h with
  | made => cases hr
  | add b f _ _ ih => exact ih hr
  | consume _ _ he _ =>
    cases hr
    obtain ⟨_, n, hn⟩ := he
    exact run_partial_looks env n _ _ _ _ _ hn

/-- Any `consume` is undefined. -/
theorem AfterMove.looks {env p dst st old new m ops v} (h : AfterMove env p dst st old new m ops v)
    (hl : Looks Mem env p dst dst st) (hc : .consume ∈ ops) : v = .error .ubData ∨ v = .error .ubDangling := by
  obtain ⟨n, hn⟩ := hl
  have key : ∀ {s m o}, EvalsBy (runHollow env) p dst dst st ⟨s, m⟩ o → o = .error .ubData :=
    fun h => h.hollow_unique ⟨nofun, n, hn _ _⟩
  induction h with
  | nil => cases hc
  | addOldBad => exact .inl rfl
  | addOld _ _ ih => exact ih (by simpa using hc) hn key
  | addNewBad => exact .inl rfl
  | addNew _ _ ih => exact ih (by simpa using hc) hn key
  | dropOld _ ih => exact ih (by simpa using hc) hn key
  | dangling => exact .inr rfl
  | error he => cases key he; exact .inl rfl
  | answer he => cases key he
  | more he => cases key he

theorem AfterMove.unasked {env p dst st old new m ops v} (h : AfterMove env p dst st old new m ops v)
    {r m'} (hv : v = .ok (r, m')) (hc : .consume ∉ ops) : r = .PARTIAL ∧ m' = m := by
  induction h with
  | nil => cases hv; exact ⟨rfl, rfl⟩
  | addOldBad => cases hv
  | addOld _ _ ih => exact ih hv (by simpa using hc)
  | addNewBad => cases hv
  | addNew _ _ ih => exact ih hv (by simpa using hc)
  | dropOld _ ih => exact ih hv (by simpa using hc)
  | _ => simp at hc

theorem Driven.unique {σ : Type} [DataSource σ] {add : σ → List Ch → Bool → Option σ} {start : σ}
    {env p dst m ops r st w} (h : Driven add start env p dst m ops r st w) :
    ∀ {r' st' w'}, Driven add start env p dst m ops r' st' w' → r = r' ∧ st = st' ∧ w = w' := by
  induction h with
  | made h =>
    intro r' st' w' h'
    generalize ho : ([] : List SOp) = o at h'
    cases h' with
    | made h' => rw [h] at h'; cases h'; exact ⟨rfl, rfl, rfl⟩
    | add => simp at ho
    | consume => simp at ho
  | @add ops r st w ds b f _ ha ih =>
    intro r' st' w' h'
    generalize ho : ops ++ [SOp.add b f] = o at h'
    cases h' with
    | made => simp at ho
    | add b' f' h' ha' =>
      obtain ⟨rfl, hx⟩ := List.append_inj' ho rfl
      cases hx
      obtain ⟨rfl, rfl, rfl⟩ := ih h'
      rw [ha] at ha'; cases ha'
      exact ⟨rfl, rfl, rfl⟩
    | consume =>
      have := (List.append_inj' ho rfl).2
      cases this
  | @consume ops r st w r1 st1 w1 _ _ he ih =>
    intro r' st' w' h'
    generalize ho : ops ++ [SOp.consume] = o at h'
    cases h' with
    | made => simp at ho
    | add =>
      have := (List.append_inj' ho rfl).2
      cases this
    | consume h' _ he' =>
      obtain ⟨rfl, -⟩ := List.append_inj' ho rfl
      obtain ⟨rfl, rfl, rfl⟩ := ih h'
      cases he.unique he'
      exact ⟨rfl, rfl, rfl⟩

theorem AfterMove.unique {env p dst st old new m ops v} (h : AfterMove env p dst st old new m ops v) :
    ∀ {v'}, AfterMove env p dst st old new m ops v' → v = v' := by
  induction h with
  | nil => intro v' h'; cases h'; rfl
  | addOldBad h =>
    intro v' h'
    cases h' with
    | addOldBad => rfl
    | addOld h2 => rw [h] at h2; cases h2
  | addOld h _ ih =>
    intro v' h'
    cases h' with
    | addOldBad h2 => rw [h] at h2; cases h2
    | addOld h2 h' => rw [h] at h2; cases h2; exact ih h'
  | addNewBad h =>
    intro v' h'
    cases h' with
    | addNewBad => rfl
    | addNew h2 => rw [h] at h2; cases h2
  | addNew h _ ih =>
    intro v' h'
    cases h' with
    | addNewBad h2 => rw [h] at h2; cases h2
    | addNew h2 h' => rw [h] at h2; cases h2; exact ih h'
  | dropOld _ ih => intro v' h'; cases h' with | dropOld h' => exact ih h'
  | dangling => intro v' h'; cases h'; rfl
  | error h =>
    intro v' h'
    cases h' with
    | error h2 => cases h.hollow_unique h2; rfl
    | answer h2 => cases h.hollow_unique h2
    | more h2 => cases h.hollow_unique h2
  | answer h hr =>
    intro v' h'
    cases h' with
    | error h2 => cases h.hollow_unique h2
    | answer h2 => cases h.hollow_unique h2; rfl
    | more h2 => cases h.hollow_unique h2; exact absurd rfl hr
  | more h _ ih =>
    intro v' h'
    cases h' with
    | error h2 => cases h.hollow_unique h2
    | answer h2 hr => cases h.hollow_unique h2; exact absurd rfl hr
    | more h2 h' => cases h.hollow_unique h2; exact ih h'

end Abu
