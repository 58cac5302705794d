import Verif.Proofs.Resume
import Verif.Spec.Schedule
/-
Driving a parser object buffer by buffer against parsing the whole text at once.
-/
namespace Abu

/-- `add_buffer` of the specification cursor. -/
def Cursor.addBuffer (c : Cursor) (b : List Ch) (f : Bool) : Option Cursor :=
  if c.final then none else some (c.feed b f)

theorem ContainerSeq.addBuffer_rel {s c} (h : ContainerSeq.Rel s c) (b : List Ch) (f : Bool) :
    Option.Rel ContainerSeq.Rel (s.addBuffer b f) (c.addBuffer b f) := by
  obtain ⟨hs, h⟩ := h
  have := ContainerSeq.Sim.step h (.add b f)
  exact this.imp fun _ _ h => ⟨_, h⟩

theorem DsSim.reads' {σ τ} [DataSource σ] [DataSource τ] {R : σ → τ → Prop} (hR : DsSim R)
    {s : σ} {c : τ} (h : R s c) {t : List Ch} (hr : Reads s t) : Reads c t := by
  induction hr generalizing c with
  | done he => exact .done (by rw [← hR.empty h]; exact he)
  | read he hn ha _ ih =>
    have := hR.advance h
    rw [ha] at this
    generalize hc : DataSource.advance c = c' at this
    cases this with
    | some h' =>
      exact .read (by rw [← hR.empty h]; exact he) (by rw [← hR.next h]; exact hn) hc (ih h')

section
variable {σ τ : Type} [DataSource σ] [DataSource τ] {R : σ → τ → Prop}
  {add : σ → List Ch → Bool → Option σ} {add' : τ → List Ch → Bool → Option τ}

theorem Session.sim (hR : DsSim R)
    (hadd : ∀ {s c} b f, R s c → Option.Rel R (add s b f) (add' c b f))
    {env p dst st w ops v} (h : Session add env p dst st w ops v) {c : τ} (hr : R w.ds c) :
    Session add' env p dst st ⟨c, w.mem⟩ ops v := by
  induction h generalizing c with
  | nil h => exact .nil (hR.reads' hr h)
  | @addBad st w b f ops h =>
    have := hadd b f hr
    rw [h] at this
    generalize hc : add' c b f = x at this
    cases this
    exact .addBad hc
  | @add st w b f ops ds v h _ ih =>
    have := hadd b f hr
    rw [h] at this
    generalize hc : add' c b f = x at this
    cases this with
    | some hr' => exact .add hc (ih hr')
  | @error st w ops e h =>
    obtain ⟨o', h', hrel⟩ := Evals.sim (s := w.ds) (m := w.mem) hR h hr
    cases hrel
    exact .error h'
  | @verdict st w ops r st' w' rest h hn hrd =>
    obtain ⟨o', h', hrel⟩ := Evals.sim (s := w.ds) (m := w.mem) hR h hr
    cases hrel with
    | ok a hr' => exact .verdict h' hn (hR.reads' hr' hrd)
  | @more st w ops st' w' v h _ ih =>
    obtain ⟨o', h', hrel⟩ := Evals.sim (s := w.ds) (m := w.mem) hR h hr
    cases hrel with
    | ok a hr' => exact .more h' (ih hr')

theorem _root_.Option.Rel.flip {α β : Type} {R : α → β → Prop} {x : Option α} {y : Option β}
    (h : Option.Rel R x y) : Option.Rel (fun b a => R a b) y x := by
  cases h with
  | none => exact .none
  | some h => exact .some h

theorem DsSim.flip (hR : DsSim R) : DsSim (fun c s => R s c) where
  empty h := (hR.empty h).symm
  final h := (hR.final h).symm
  next h := (hR.next h).symm
  advance h := (hR.advance h).flip
  prepare h := hR.prepare h
  commit h := (hR.commit h).flip
  cancel h := (hR.cancel h).flip

end

/-- The verdict of a run of `consume` that ends. -/
inductive EndsIn {σ : Type} [DataSource σ] : Out σ Mem (Res × PState) → List Ch → Verdict → Prop
  | error (e rest) : EndsIn (.error e) rest (.error e)
  | ok {r st w rest} (more) : Reads w.ds rest →
      EndsIn (.ok ((r, st), w)) more (.ok (r, w.mem, rest ++ more))

theorem Cursor.feed_feed (c : Cursor) (a b f g) : (c.feed a f).feed b g = c.feed (a ++ b) g := by
  simp [Cursor.feed]

theorem World.feed_feed {μ} (w : World Cursor μ) (a b f g) :
    (w.feed a f).feed b g = w.feed (a ++ b) g := by
  simp [World.feed, Cursor.feed]

theorem Reads.feed {c : Cursor} {rest t f} (h : Reads c rest)
    (hp : c.pos ≤ c.text.length) : Reads (c.feed t f) (rest ++ t) := by
  have h1 := h.unique c.reads_drop
  have h2 := (c.feed t f).reads_drop
  subst h1
  have : (c.feed t f).text.drop (c.feed t f).pos = c.text.drop c.pos ++ t := by
    simp only [Cursor.feed]
    rw [List.drop_append_of_le_length hp]
  rw [this] at h2
  exact h2

/-- The cursor is inside its text, and so is every saved position. -/
def Cursor.Inside (c : Cursor) : Prop :=
  c.pos ≤ c.text.length ∧ ∀ q ∈ c.saved, q ≤ c.text.length

theorem Cursor.Inside.feed {c : Cursor} (h : c.Inside) (t f) : (c.feed t f).Inside := by
  refine ⟨?_, fun q hq => ?_⟩
  · have := h.1; simp [Cursor.feed]; omega
  · have := h.2 q hq; simp [Cursor.feed]; omega

section
variable {μ : Type} [Store μ]

/-- Outcomes keep the cursor inside its text. -/
def Out.Inside {α : Type} : Out Cursor μ α → Prop
  | .error _ => True
  | .ok (_, w) => w.ds.Inside

theorem exec_inside {call} (h : ∀ p d b st (w : World Cursor μ), w.ds.Inside →
      Out.Inside (call p d b st w)) {α : Type} (x : Cmd α) (w : World Cursor μ)
    (hw : w.ds.Inside) : Out.Inside (exec call x w) := by
  induction x generalizing w with
  | pure a => exact hw
  | fault e => trivial
  | isEmpty k ih => exact ih _ w hw
  | isFinal k ih => exact ih _ w hw
  | next k ih =>
    simp only [exec]; split
    · trivial
    · exact ih _ w hw
  | advance k ih =>
    simp only [exec]; split
    · trivial
    · rename_i ds hds
      refine ih _ ?_
      have : (if w.ds.pos < w.ds.text.length then some { w.ds with pos := w.ds.pos + 1 }
        else none) = some ds := hds
      split at this
      · cases this; exact ⟨by assumption, hw.2⟩
      · cases this
  | prepare k ih =>
    refine ih _ ⟨hw.1, fun q hq => ?_⟩
    rcases List.mem_cons.1 hq with rfl | hq
    · exact hw.1
    · exact hw.2 q hq
  | commit k ih =>
    obtain ⟨⟨tx, pos, saved, fin⟩, m⟩ := w
    cases saved with
    | nil => trivial
    | cons s ss =>
      exact ih ⟨⟨tx, s, ss, fin⟩, m⟩ ⟨hw.2 s (by simp), fun q hq => hw.2 q (by simp [hq])⟩
  | cancel k ih =>
    obtain ⟨⟨tx, pos, saved, fin⟩, m⟩ := w
    cases saved with
    | nil => trivial
    | cons s ss => exact ih ⟨⟨tx, pos, ss, fin⟩, m⟩ ⟨hw.1, fun q hq => hw.2 q (by simp [hq])⟩
  | mem o k ih =>
    simp only [exec]; split
    · trivial
    · exact ih _ hw
  | alloc t k ih => exact ih _ _ hw
  | call p d b st k ih =>
    have := h p d b st w hw
    simp only [exec]
    cases hc : call p d b st w with
    | error e => trivial
    | ok y => obtain ⟨⟨r, s⟩, w'⟩ := y; rw [hc] at this; exact ih _ _ _ this

theorem run_inside (env : Env) (n : Nat) (p dst bnd st) (w : World Cursor μ)
    (hw : w.ds.Inside) : Out.Inside (run env n p dst bnd st w) := by
  induction n generalizing p dst bnd st w with
  | zero => trivial
  | succ n ih =>
    have := exec_inside (fun p d b st w h => ih p d b st w h) (body env p dst bnd st) w hw
    rw [run_succ_andThen]
    generalize exec (run env n) (body env p dst bnd st) w = x at *
    cases x with
    | error e => trivial
    | ok y =>
      obtain ⟨s, w'⟩ := y
      cases s with
      | ret r st' => exact this
      | cont st' => exact ih _ _ _ _ _ this

theorem construct_inside (p dst bnd) (w : World Cursor μ) (hw : w.ds.Inside) :
    Out.Inside (construct p dst bnd w) :=
  exec_inside (call := fun _ _ _ _ _ => .error .stuck) (fun _ _ _ _ _ _ => trivial) _ w hw

end

theorem Evals.not_partial {σ : Type} [DataSource σ] {env p dst bnd st} {w : World σ Mem} {st' w'}
    (h : Evals env p dst bnd st w (.ok ((.PARTIAL, st'), w'))) :
    DataSource.empty w'.ds = true ∧ DataSource.final w'.ds = false := by
  obtain ⟨_, n, hn⟩ := h
  have := starved env n p dst bnd st w
  rw [hn] at this
  exact this

/-- The final flag is not changed by parsers. -/
theorem exec_final {μ : Type} [Store μ] {call} (h : ∀ p d b st (w : World Cursor μ) a w',
      call p d b st w = .ok (a, w') → w'.ds.final = w.ds.final) {α : Type} (x : Cmd α)
    (w : World Cursor μ) {a w'} (he : exec call x w = .ok (a, w')) : w'.ds.final = w.ds.final := by
  induction x generalizing w with
  | pure a => simp only [exec, Except.ok.injEq, Prod.mk.injEq] at he; rw [he.2]
  | fault e => cases he
  | isEmpty k ih => exact ih _ w he
  | isFinal k ih => exact ih _ w he
  | next k ih =>
    simp only [exec] at he; split at he
    · cases he
    · exact ih _ w he
  | advance k ih =>
    simp only [exec] at he; split at he
    · cases he
    · rename_i ds hds
      have : (if w.ds.pos < w.ds.text.length then some { w.ds with pos := w.ds.pos + 1 }
        else none) = some ds := hds
      split at this
      · cases this; have h2 := ih _ he; exact h2
      · cases this
  | prepare k ih => simp only [exec] at he; have h2 := ih _ he; exact h2
  | commit k ih =>
    obtain ⟨⟨tx, pos, saved, fin⟩, m⟩ := w
    cases saved with
    | nil => cases he
    | cons s ss => exact ih ⟨⟨tx, s, ss, fin⟩, m⟩ he
  | cancel k ih =>
    obtain ⟨⟨tx, pos, saved, fin⟩, m⟩ := w
    cases saved with
    | nil => cases he
    | cons s ss => exact ih ⟨⟨tx, pos, ss, fin⟩, m⟩ he
  | mem o k ih =>
    simp only [exec] at he; split at he
    · cases he
    · have h2 := ih _ he; exact h2
  | alloc t k ih => simp only [exec] at he; have h2 := ih _ _ he; exact h2
  | call p d b st k ih =>
    simp only [exec] at he
    cases hc : call p d b st w with
    | error e => rw [hc] at he; cases he
    | ok y =>
      obtain ⟨⟨r, s⟩, w1⟩ := y
      rw [hc] at he
      rw [← h _ _ _ _ _ _ _ hc]
      exact ih _ _ _ he

theorem run_final {μ : Type} [Store μ] (env : Env) (n : Nat) (p dst bnd st) (w : World Cursor μ)
    {a w'} (h : run env n p dst bnd st w = .ok (a, w')) : w'.ds.final = w.ds.final := by
  induction n generalizing p dst bnd st w a w' with
  | zero => cases h
  | succ n ih =>
    rw [run_succ_andThen] at h
    cases hx : exec (run env n) (body env p dst bnd st) w with
    | error e => rw [hx] at h; cases h
    | ok y =>
      obtain ⟨s, w1⟩ := y
      have h1 := exec_final (fun p d b st w a w' h => ih p d b st w h) _ w hx
      rw [hx] at h
      cases s with
      | ret r st' => simp only [andThen, Except.ok.injEq, Prod.mk.injEq] at h; rw [← h.2, h1]
      | cont st' => rw [← h1]; exact ih _ _ _ _ _ h

theorem Evals.final_eq {env p dst bnd st} {w : World Cursor Mem} {a w'}
    (h : Evals env p dst bnd st w (.ok (a, w'))) : w'.ds.final = w.ds.final := by
  obtain ⟨_, n, hn⟩ := h
  exact run_final env n p dst bnd st w hn

theorem Evals.inside {env p dst bnd st} {w : World Cursor Mem} {a w'}
    (h : Evals env p dst bnd st w (.ok (a, w'))) (hw : w.ds.Inside) : w'.ds.Inside := by
  obtain ⟨_, n, hn⟩ := h
  have := run_inside env n p dst bnd st w hw
  rw [hn] at this
  exact this

/-- `EndsIn` for `consume` from a state. -/
def ConsumeEnds (env : Env) (p : Prog) (dst : Ref) (st : PState) (w : World Cursor Mem)
    (v : Verdict) : Prop :=
  ∃ o, Evals env p dst dst st w o ∧ EndsIn o [] v

theorem session_final {env p dst st} {w : World Cursor Mem} (hf : w.ds.final = true) {ops}
    (ha : AfterFinal ops) (ht : opsText ops = []) (v : Verdict) :
    Session Cursor.addBuffer env p dst st w ops v ↔ ConsumeEnds env p dst st w v := by
  cases ops with
  | nil => exact absurd ha id
  | cons op ops =>
    cases op with
    | add b f => exact absurd ha id
    | consume =>
      have ht' : opsText ops = [] := ht
      constructor
      · intro h
        cases h with
        | error h => exact ⟨_, h, .error _ _⟩
        | verdict h hr hrd =>
          rw [ht']
          exact ⟨_, h, .ok _ hrd⟩
        | more h _ =>
          have := h.not_partial.2
          rw [show DataSource.final _ = Cursor.final _ from rfl, h.final_eq, hf] at this
          cases this
      · rintro ⟨o, ho, he⟩
        cases he with
        | error e => exact .error ho
        | @ok r st' w' rest _ hrd =>
          rw [← ht']
          refine .verdict ho ?_ hrd
          rintro rfl
          have := ho.not_partial.2
          rw [show DataSource.final _ = Cursor.final _ from rfl, ho.final_eq, hf] at this
          cases this

theorem session_complete {env p dst} {ops} (hc : Complete ops) :
    ∀ {st} {w : World Cursor Mem}, w.ds.final = false → w.ds.Inside → ∀ (v : Verdict),
    (Session Cursor.addBuffer env p dst st w ops v ↔
      ConsumeEnds env p dst st (w.feed (opsText ops) true) v) := by
  induction ops with
  | nil => exact absurd hc id
  | cons op ops ih =>
    intro st w hf hin v
    cases op with
    | add b f =>
      have hadd : w.ds.addBuffer b f = some (w.ds.feed b f) := by simp [Cursor.addBuffer, hf]
      have step : Session Cursor.addBuffer env p dst st w (.add b f :: ops) v ↔
          Session Cursor.addBuffer env p dst st (w.feed b f) ops v := by
        constructor
        · intro h
          cases h with
          | addBad h => rw [hadd] at h; cases h
          | add h h' => rw [hadd] at h; cases h; exact h'
        · intro h; exact .add hadd h
      rw [step]
      cases f with
      | true =>
        rw [session_final rfl hc.1 hc.2]
        simp only [opsText, hc.2, List.append_nil]
      | false =>
        rw [ih hc (w := w.feed b false) rfl (hin.feed b false), World.feed_feed]
        rfl
    | consume =>
      have hc' : Complete ops := hc
      show _ ↔ ConsumeEnds env p dst st (w.feed (opsText ops) true) v
      rcases evals_or_diverges env p dst dst st w with ⟨o, ho⟩ | hd
      · obtain ⟨hne, n, hn⟩ := ho
        have hres := resumable env n p dst dst st w hf (opsText ops) true
        rw [hn] at hres
        have ho : Evals env p dst dst st w o := ⟨hne, n, hn⟩
        generalize hy : run env n p dst dst st (w.feed (opsText ops) true) = y at hres
        cases hres with
        | error e =>
          have hev : Evals env p dst dst st (w.feed (opsText ops) true) (.error e) :=
            ⟨fun h => hne (by cases h; rfl), n, hy⟩
          constructor
          · intro h
            cases h with
            | error h => cases h.unique ho; exact ⟨_, hev, .error _ _⟩
            | verdict h => cases h.unique ho
            | more h => cases h.unique ho
          · rintro ⟨o', ho', he⟩
            cases ho'.unique hev
            cases he
            exact .error ho
        | @done r st' w' hr hf' =>
          have hev : Evals env p dst dst st (w.feed (opsText ops) true)
              (.ok ((r, st'), w'.feed (opsText ops) true)) := ⟨by simp, n, hy⟩
          have hin' := ho.inside hin
          constructor
          · intro h
            cases h with
            | error h => cases h.unique ho
            | more h => cases h.unique ho; exact absurd rfl hr
            | verdict h _ hrd =>
              cases h.unique ho
              refine ⟨_, hev, ?_⟩
              have := EndsIn.ok (st := st') (r := r) (w := w'.feed (opsText ops) true) []
                (hrd.feed (t := opsText ops) (f := true) hin'.1)
              rw [List.append_nil] at this
              exact this
          · rintro ⟨o', ho', he⟩
            cases ho'.unique hev
            cases he with
            | ok _ hrd =>
              have h1 := w'.ds.reads_drop
              have h2 := hrd.unique (h1.feed (t := opsText ops) (f := true) hin'.1)
              subst h2
              rw [List.append_nil]
              exact Session.verdict (w' := w') (ops := ops) ho hr h1
        | @more st' w' _ hf' hp hsame =>
          have hin' := ho.inside hin
          have hiff : ConsumeEnds env p dst st (w.feed (opsText ops) true) v ↔
              ConsumeEnds env p dst st' (w'.feed (opsText ops) true) v :=
            ⟨fun ⟨o, h, he⟩ => ⟨o, (hsame o).1 h, he⟩, fun ⟨o, h, he⟩ => ⟨o, (hsame o).2 h, he⟩⟩
          rw [hiff, ← ih hc' hf' hin' v]
          constructor
          · intro h
            cases h with
            | error h => cases h.unique ho
            | verdict h hr => cases h.unique ho; exact absurd rfl hr
            | more h h' => cases h.unique ho; exact h'
          · intro h; exact .more ho h
      · -- diverges
        constructor
        · intro h
          cases h with
          | error h => exact absurd hd h.not_diverges
          | verdict h => exact absurd hd h.not_diverges
          | more h => exact absurd hd h.not_diverges
        · rintro ⟨o, ho, he⟩
          have hd' : Diverges env p dst dst st (w.feed (opsText ops) true) := by
            intro n
            have hres := resumable env n p dst dst st w hf (opsText ops) true
            rw [hd n] at hres
            generalize run env n p dst dst st (w.feed (opsText ops) true) = y at hres
            cases hres
            rfl
          exact absurd hd' ho.not_diverges

/-- `parse` on a text, seen through the plain cursor. -/
def CursorParses (env : Env) (p : Pat) (dst : Ref) (m : Mem) (t : List Ch) (v : Verdict) : Prop :=
  match construct (topParser p) dst dst (⟨Cursor.whole t, m⟩ : World Cursor Mem) with
  | .error e => v = .error e
  | .ok (st, w) => ConsumeEnds env (topParser p) dst st w v

theorem EndsIn.sim {σ τ : Type} [DataSource σ] [DataSource τ] {R : σ → τ → Prop} (hR : DsSim R)
    {o : Out σ Mem (Res × PState)} {o' : Out τ Mem (Res × PState)} (h : OutRel R o o') {more v}
    (he : EndsIn o more v) : EndsIn o' more v := by
  cases h with
  | error e => cases he; exact .error _ _
  | @ok a s c m hr =>
    cases he with
    | ok _ hrd => exact .ok (w := ⟨c, m⟩) _ (hR.reads' hr hrd)

theorem parses_iff_cursor (env : Env) (p dst m t v) :
    Parses env p dst m t v ↔ CursorParses env p dst m t v := by
  have hsim := construct_sim SingleForward.dsSim (topParser p) dst dst m
    (SingleForward.rel_make t)
  unfold CursorParses
  generalize hc : construct (topParser p) dst dst
    (⟨Cursor.whole t, m⟩ : World Cursor Mem) = y at hsim ⊢
  generalize hs : construct (topParser p) dst dst
    (⟨SingleForward.make t, m⟩ : World SingleForward Mem) = x at hsim
  cases hsim with
  | error e =>
    constructor
    · intro h
      cases h with
      | construct h => rw [hs] at h; cases h; rfl
      | error h => rw [hs] at h; cases h
      | ok h => rw [hs] at h; cases h
    · rintro rfl; exact .construct hs
  | @ok st s c m' hr =>
    constructor
    · intro h
      cases h with
      | construct h => rw [hs] at h; cases h
      | error h h' =>
        rw [hs] at h; cases h
        obtain ⟨o', ho', hrel⟩ := Evals.sim SingleForward.dsSim h' hr
        exact ⟨o', ho', (EndsIn.error _ _).sim SingleForward.dsSim hrel⟩
      | @ok st1 w1 r st' w' rest h h' hrd =>
        rw [hs] at h; cases h
        obtain ⟨o', ho', hrel⟩ := Evals.sim SingleForward.dsSim h' hr
        have := (EndsIn.ok (r := r) (st := st') [] hrd).sim SingleForward.dsSim hrel
        rw [List.append_nil] at this
        exact ⟨o', ho', this⟩
    · rintro ⟨o, ho, he⟩
      obtain ⟨o', ho', hrel⟩ := Evals.sim' SingleForward.dsSim ho hr
      cases hrel with
      | error e => cases he; exact .error hs ho'
      | @ok a s c m hr =>
        cases he with
        | @ok r st' w' rest _ hrd =>
          rw [List.append_nil]
          exact .ok hs ho' (SingleForward.dsSim.reads hr hrd)

theorem construct_feed {μ : Type} [Store μ] (p : Prog) (dst bnd : Ref) (w : World Cursor μ)
    (hf : w.ds.final = false) (t f) :
    construct p dst bnd (w.feed t f) = Out.feed t f (construct p dst bnd w) ∧
      Out.Open (construct p dst bnd w) :=
  exec_plain_feed _ (mk_plain p dst bnd) w hf t f

theorem makeParser_iff_cursor (env : Env) (p dst m) {ops} (hc : Complete ops) (v) :
    MakeParserRun env p dst m ops v ↔ CursorParses env p dst m (opsText ops) v := by
  have hrel0 : ContainerSeq.Rel ContainerSeq.make Cursor.start := ⟨_, ContainerSeq.sim_make⟩
  have hsim := construct_sim ContainerSeq.dsSim (topParser p) dst dst m hrel0
  have hlift := construct_feed (topParser p) dst dst (⟨Cursor.start, m⟩ : World Cursor Mem) rfl
    (opsText ops) true
  have hin := construct_inside (topParser p) dst dst (⟨Cursor.start, m⟩ : World Cursor Mem)
    ⟨by simp [Cursor.start], by simp [Cursor.start]⟩
  unfold CursorParses
  have hw : (⟨Cursor.start, m⟩ : World Cursor Mem).feed (opsText ops) true
      = ⟨Cursor.whole (opsText ops), m⟩ := by
    simp [World.feed, Cursor.feed, Cursor.start, Cursor.whole]
  rw [hw] at hlift
  rw [hlift.1]
  have hopen := hlift.2
  generalize hcc : construct (topParser p) dst dst
    (⟨Cursor.start, m⟩ : World Cursor Mem) = y at *
  generalize hs : construct (topParser p) dst dst
    (⟨ContainerSeq.make, m⟩ : World ContainerSeq Mem) = x at *
  cases hsim with
  | error e =>
    constructor
    · intro h
      cases h with
      | construct h => rw [hs] at h; cases h; rfl
      | run h => rw [hs] at h; cases h
    · intro h; cases h; exact .construct hs
  | @ok st s c m' hr =>
    have key := session_complete (env := env) (p := topParser p) (dst := dst) hc (st := st)
      (w := ⟨c, m'⟩) hopen hin v
    show _ ↔ ConsumeEnds env (topParser p) dst st (World.feed ⟨c, m'⟩ (opsText ops) true) v
    rw [← key]
    constructor
    · intro h
      cases h with
      | construct h => rw [hs] at h; cases h
      | run h h' =>
        rw [hs] at h; cases h
        exact h'.sim (w := ⟨s, m'⟩) ContainerSeq.dsSim (fun b f h => ContainerSeq.addBuffer_rel h b f) hr
    · intro h
      refine .run hs ?_
      refine Session.sim (R := fun c s => ContainerSeq.Rel s c) ContainerSeq.dsSim.flip
        (fun b f h => ?_) h hr
      exact (ContainerSeq.addBuffer_rel h b f).flip

theorem Session.partial_starved {env p dst} {ops : List SOp} :
    ∀ {st} {w : World Cursor Mem} {m' rest},
      Session Cursor.addBuffer env p dst st w (ops ++ [.consume]) (.ok (.PARTIAL, m', rest)) →
      rest = [] ∧ Unfinished ops ∧ w.ds.final = false := by
  induction ops with
  | nil =>
    intro st w m' rest h
    cases h with
    | verdict _ h => exact absurd rfl h
    | more h h' =>
      cases h' with
      | nil hr =>
        have hs := h.not_partial
        refine ⟨?_, by intro b f hb; simp at hb, ?_⟩
        · cases hr with
          | done => rfl
          | read he => rw [hs.1] at he; cases he
        · rw [← h.final_eq]; exact hs.2
  | cons op ops ih =>
    intro st w m' rest h
    cases op with
    | consume =>
      cases h with
      | verdict _ h => exact absurd rfl h
      | more h h' =>
        obtain ⟨h1, h2, h3⟩ := ih h'
        refine ⟨h1, fun b f hb => h2 b f (by simpa using hb), ?_⟩
        rw [← h.final_eq]; exact h3
    | add b f =>
      cases h with
      | @add _ _ _ _ _ ds _ h h' =>
        obtain ⟨h1, h2, h3⟩ := ih h'
        have hf : w.ds.final = false ∧ w.ds.feed b f = ds := by
          simp only [Cursor.addBuffer] at h
          split at h
          · cases h
          · rename_i hf; cases h; exact ⟨by simpa using hf, rfl⟩
        refine ⟨h1, fun b' f' hb => ?_, hf.1⟩
        rcases List.mem_cons.1 hb with hb | hb
        · cases hb
          rw [← hf.2] at h3; exact h3
        · exact h2 b' f' hb

/-- A run of a parser object, seen through the plain cursor. -/
theorem MakeParserRun.cursor {env p dst m ops v} (h : MakeParserRun env p dst m ops v) :
    (∃ e, v = .error e ∧ Abu.construct (topParser p) dst dst
      (⟨Cursor.start, m⟩ : World Cursor Mem) = .error e) ∨
    ∃ st w, Abu.construct (topParser p) dst dst (⟨Cursor.start, m⟩ : World Cursor Mem) = .ok (st, w) ∧
      Session Cursor.addBuffer env (topParser p) dst st w ops v := by
  have hrel0 : ContainerSeq.Rel ContainerSeq.make Cursor.start := ⟨_, ContainerSeq.sim_make⟩
  have hsim := construct_sim ContainerSeq.dsSim (topParser p) dst dst m hrel0
  cases h with
  | construct h =>
    rw [h] at hsim
    generalize Abu.construct (topParser p) dst dst (⟨Cursor.start, m⟩ : World Cursor Mem) = y at *
    cases hsim
    exact .inl ⟨_, rfl, rfl⟩
  | run h h' =>
    rw [h] at hsim
    generalize Abu.construct (topParser p) dst dst (⟨Cursor.start, m⟩ : World Cursor Mem) = y at *
    cases hsim with
    | @ok st s c m' hr =>
      exact .inr ⟨_, _, rfl, h'.sim (w := ⟨s, m'⟩) ContainerSeq.dsSim
        (fun b f h => ContainerSeq.addBuffer_rel h b f) hr⟩

theorem Session.early {env p dst ops} {st} {w : World ContainerSeq Mem} {v : Verdict}
    (h : Session ContainerSeq.addBuffer env p dst st w ops v)
    (hv : ∀ m rest, v ≠ .ok (.PARTIAL, m, rest)) (ops2 : List SOp) :
    Session ContainerSeq.addBuffer env p dst st w (ops ++ ops2)
      (v.map fun (r, m, rest) => (r, m, rest ++ opsText ops2)) := by
  induction h with
  | nil => exact absurd rfl (hv _ _)
  | addBad h => exact .addBad h
  | add h _ ih => exact .add h (ih hv)
  | error h => exact .error h
  | more h _ ih => exact .more h (ih hv)
  | @verdict st w ops r st' w' rest h hr hrd =>
    have h1 : opsText (ops ++ ops2) = opsText ops ++ opsText ops2 := by
      clear hv h hr hrd
      induction ops with
      | nil => rfl
      | cons op ops ih => cases op <;> simp [opsText, ih]
    have := Session.verdict (add := ContainerSeq.addBuffer) (ops := ops ++ ops2) h hr hrd
    rw [h1, ← List.append_assoc] at this
    exact this

theorem complete_of_unfinished {ops} (h : Unfinished ops) (t : List Ch) :
    Complete (ops ++ [.add t true, .consume]) := by
  induction ops with
  | nil => exact ⟨trivial, rfl⟩
  | cons op ops ih =>
    have ih := ih fun b f hb => h b f (List.mem_cons_of_mem _ hb)
    cases op with
    | consume => exact ih
    | add b f =>
      have := h b f (by simp)
      subst this
      exact ih

theorem opsText_append (ops ops2 : List SOp) :
    opsText (ops ++ ops2) = opsText ops ++ opsText ops2 := by
  induction ops with
  | nil => rfl
  | cons op ops ih => cases op <;> simp [opsText, ih]

end Abu
