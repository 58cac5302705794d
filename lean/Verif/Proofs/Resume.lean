import Verif.Proofs.Shape
/-
Suspending for lack of data and resuming after more data arrived is not observable.
-/
namespace Abu

variable {μ : Type} [Store μ]

/-- The world after more text arrived. -/
def World.feed (w : World Cursor μ) (t : List Ch) (f : Bool) : World Cursor μ :=
  { w with ds := w.ds.feed t f }

/-- Outcome of the same run when the text is longer. -/
def Out.feed {α : Type} (t : List Ch) (f : Bool) : Out Cursor μ α → Out Cursor μ α
  | .error e => .error e
  | .ok (a, w) => .ok (a, w.feed t f)

/-- If the run succeeds, the text is still incomplete. -/
def Out.Open {α : Type} : Out Cursor μ α → Prop
  | .error _ => True
  | .ok (_, w) => w.ds.final = false

theorem exec_plain_feed (call) {α : Type} {P : α → Prop} {x : Cmd α} (h : Plain P x)
    (w : World Cursor μ) (hf : w.ds.final = false) (t f) :
    exec call x (w.feed t f) = Out.feed t f (exec call x w) ∧ Out.Open (exec call x w) := by
  induction h generalizing w with
  | pure ha => exact ⟨rfl, hf⟩
  | fault e => exact ⟨rfl, trivial⟩
  | prepare _ ih => exact ih { w with ds := DataSource.prepare w.ds } hf
  | @commit k _ ih =>
    obtain ⟨⟨tx, pos, saved, fin⟩, m⟩ := w
    cases saved with
    | nil => exact ⟨rfl, trivial⟩
    | cons s ss => exact ih ⟨⟨tx, s, ss, fin⟩, m⟩ hf
  | @cancel k _ ih =>
    obtain ⟨⟨tx, pos, saved, fin⟩, m⟩ := w
    cases saved with
    | nil => exact ⟨rfl, trivial⟩
    | cons s ss => exact ih ⟨⟨tx, pos, ss, fin⟩, m⟩ hf
  | @mem o k _ ih =>
    simp only [exec, World.feed]
    cases Store.op o w.mem with
    | error e => exact ⟨rfl, trivial⟩
    | ok m => exact ih { w with mem := m } hf
  | alloc ty _ ih => exact ih _ { w with mem := (Store.alloc ty w.mem).2 } hf

theorem exec_plainAdv_feed (call) {x : Cmd Step} (h : PlainAdv x)
    (w : World Cursor μ) (hf : w.ds.final = false) (hp : w.ds.pos < w.ds.text.length) (t f) :
    exec call x (w.feed t f) = Out.feed t f (exec call x w) ∧ Out.Open (exec call x w) := by
  induction h generalizing w with
  | plain h => exact exec_plain_feed call h w hf t f
  | @mem o k _ ih =>
    simp only [exec, World.feed]
    cases Store.op o w.mem with
    | error e => exact ⟨rfl, trivial⟩
    | ok m => exact ih { w with mem := m } hf hp
  | @advance k h =>
    have h1 : DataSource.advance w.ds = some { w.ds with pos := w.ds.pos + 1 } := if_pos hp
    have h2 : DataSource.advance (w.feed t f).ds
        = some (Cursor.feed { w.ds with pos := w.ds.pos + 1 } t f) := by
      refine if_pos ?_
      simp [World.feed, Cursor.feed]; omega
    simp only [exec, h1, h2]
    exact exec_plain_feed call h ⟨{ w.ds with pos := w.ds.pos + 1 }, w.mem⟩ hf t f

/-- A plain command never returns `PARTIAL`. -/
theorem exec_plain_post {σ : Type} [DataSource σ] (call) {α : Type} {P : α → Prop} {x : Cmd α}
    (h : Plain P x) (w : World σ μ) {a w'} (he : exec call x w = .ok (a, w')) : P a := by
  induction h generalizing w with
  | pure ha => simp only [exec, Except.ok.injEq, Prod.mk.injEq] at he; exact he.1 ▸ ha
  | fault e => simp [exec] at he
  | prepare _ ih => exact ih _ he
  | commit _ ih =>
    simp only [exec] at he
    split at he
    · cases he
    · exact ih _ he
  | cancel _ ih =>
    simp only [exec] at he
    split at he
    · cases he
    · exact ih _ he
  | mem o _ ih =>
    simp only [exec] at he
    split at he
    · cases he
    · exact ih _ he
  | alloc t _ ih => exact ih _ _ he

theorem exec_plainAdv_post {σ : Type} [DataSource σ] (call) {x : Cmd Step}
    (h : PlainAdv x) (w : World σ μ) {a w'} (he : exec call x w = .ok (a, w')) : NoPartial a := by
  induction h generalizing w with
  | plain h => exact exec_plain_post call h w he
  | mem o _ ih =>
    simp only [exec] at he
    split at he
    · cases he
    · exact ih _ he
  | advance h =>
    simp only [exec] at he
    split at he
    · cases he
    · exact exec_plain_post call h _ he

section
variable {σ : Type} [DataSource σ]

/-- Outcome of an iteration, then of the following ones. -/
def andThen (env : Env) (n : Nat) (p : Prog) (dst bnd : Ref) :
    Out σ μ Step → Out σ μ (Res × PState)
  | .error e => .error e
  | .ok (.ret r st', w') => .ok ((r, st'), w')
  | .ok (.cont st', w') => run env n p dst bnd st' w'

theorem run_succ_andThen (env : Env) (n : Nat) (p dst bnd st) (w : World σ μ) :
    run env (n + 1) p dst bnd st w =
      andThen env n p dst bnd (exec (run env n) (body env p dst bnd st) w) := by
  rw [run_succ_eq]
  generalize exec (run env n) (body env p dst bnd st) w = x
  cases x with
  | error e => rfl
  | ok y => obtain ⟨s, w'⟩ := y; cases s <;> rfl

/-- The two parser states, each with its world, behave the same from now on. -/
def Same (env : Env) (p : Prog) (dst bnd : Ref) (st : PState) (w : World σ μ)
    (st' : PState) (w' : World σ μ) : Prop :=
  ∀ o, Evals env p dst bnd st w o ↔ Evals env p dst bnd st' w' o

theorem Same.refl (env : Env) (p dst bnd st) (w : World σ μ) : Same env p dst bnd st w st w :=
  fun _ => .rfl

theorem Same.trans {env : Env} {p dst bnd st1 st2 st3} {w1 w2 w3 : World σ μ}
    (h : Same env p dst bnd st1 w1 st2 w2) (h' : Same env p dst bnd st2 w2 st3 w3) :
    Same env p dst bnd st1 w1 st3 w3 := fun o => (h o).trans (h' o)

theorem Same.symm {env : Env} {p dst bnd st1 st2} {w1 w2 : World σ μ}
    (h : Same env p dst bnd st1 w1 st2 w2) : Same env p dst bnd st2 w2 st1 w1 :=
  fun o => (h o).symm

/-- If a parser calls a child first, only the behaviour of the child matters. -/
theorem same_of_child {env : Env} {p dst bnd cp cd cb} {rebuild : PState → PState}
    {k : Res → PState → Cmd Step}
    (hb : ∀ c, body env p dst bnd (rebuild c) = .call cp cd cb c k) {c1 c2} {w1 w2 : World σ μ}
    (h : Same env cp cd cb c1 w1 c2 w2) : Same env p dst bnd (rebuild c1) w1 (rebuild c2) w2 := by
  have key : ∀ {c1 c2} {w1 w2 : World σ μ}, Same env cp cd cb c1 w1 c2 w2 →
      ∀ o, Evals env p dst bnd (rebuild c1) w1 o → Evals env p dst bnd (rebuild c2) w2 o := by
    intro c1 c2 w1 w2 h o ⟨hne, n, hn⟩
    refine ⟨hne, ?_⟩
    cases n with
    | zero => exact absurd hn.symm hne
    | succ n =>
      have hx : run env n cp cd cb c1 w1 ≠ .error .fuel := by
        intro hx
        rw [run_succ_andThen, hb] at hn
        simp only [exec, hx, andThen] at hn
        exact hne hn.symm
      obtain ⟨_, m, hm⟩ := (h _).1 ⟨hx, n, rfl⟩
      have hx2 : run env m cp cd cb c2 w2 ≠ .error .fuel := by rw [hm]; exact hx
      have e1 := run_mono env (Nat.le_max_left n m) cp cd cb c1 w1 hx
      have e2 := run_mono env (Nat.le_max_right n m) cp cd cb c2 w2 hx2
      have hN : run env (max n m + 1) p dst bnd (rebuild c1) w1 = o := by
        rw [← hn]
        exact run_mono env (by omega) _ _ _ _ _ (by rw [hn]; exact hne)
      refine ⟨max n m + 1, ?_⟩
      rw [run_succ_andThen, hb] at hN ⊢
      simp only [exec] at hN ⊢
      rw [e1] at hN
      rw [e2, hm]
      exact hN
  exact fun o => ⟨key h o, key h.symm o⟩

/-- Continuing after an iteration. -/
theorem same_of_cont {env : Env} {n : Nat} {p dst bnd st st1} {w w1 : World σ μ}
    (h : exec (run env n) (body env p dst bnd st) w = .ok (.cont st1, w1)) :
    Same env p dst bnd st w st1 w1 := by
  have hN : ∀ N, n ≤ N → run env (N + 1) p dst bnd st w = run env N p dst bnd st1 w1 := by
    intro N hN
    rw [run_succ_andThen, exec_mono (run_mono env hN) _ _ (by rw [h]; simp), h]
    rfl
  intro o
  constructor
  · rintro ⟨hne, m, hm⟩
    refine ⟨hne, max n m, ?_⟩
    rw [← hN _ (Nat.le_max_left _ _), ← hm]
    exact run_mono env (by omega) _ _ _ _ _ (by rw [hm]; exact hne)
  · rintro ⟨hne, m, hm⟩
    refine ⟨hne, max n m + 1, ?_⟩
    rw [hN _ (Nat.le_max_left _ _), ← hm]
    exact run_mono env (Nat.le_max_right _ _) _ _ _ _ _ (by rw [hm]; exact hne)

end

/-- What a run on incomplete text says about the same run on longer text. -/
inductive Resumable (env : Env) (p : Prog) (dst bnd : Ref) (st : PState) (w : World Cursor μ)
    (t : List Ch) (f : Bool) :
    Out Cursor μ (Res × PState) → Out Cursor μ (Res × PState) → Prop
  | error (e) : Resumable env p dst bnd st w t f (.error e) (.error e)
  | done {r st' w'} : r ≠ .PARTIAL → w'.ds.final = false →
      Resumable env p dst bnd st w t f (.ok ((r, st'), w')) (.ok ((r, st'), w'.feed t f))
  | more {st' w' o} : w'.ds.final = false → w'.ds.text.length ≤ w'.ds.pos →
      Same env p dst bnd st (w.feed t f) st' (w'.feed t f) →
      Resumable env p dst bnd st w t f (.ok ((.PARTIAL, st'), w')) o

theorem NoPartial.of_ret {r st} (h : NoPartial (.ret r st)) : r ≠ .PARTIAL := h

theorem resumable (env : Env) (n : Nat) (p dst bnd st) (w : World Cursor μ)
    (hf : w.ds.final = false) (t f) :
    Resumable env p dst bnd st w t f (run env n p dst bnd st w)
      (run env n p dst bnd st (w.feed t f)) := by
  induction n generalizing p dst bnd st w with
  | zero => exact .error _
  | succ n ih =>
    rw [run_succ_andThen, run_succ_andThen]
    -- a plain iteration
    have fin : ∀ (x : Cmd Step) (w0 : World Cursor μ),
        exec (run env n) (body env p dst bnd st) w = exec (run env n) x w0 →
        exec (run env n) (body env p dst bnd st) (w.feed t f) = exec (run env n) x (w0.feed t f) →
        exec (run env n) x (w0.feed t f) = Out.feed t f (exec (run env n) x w0) →
        Out.Open (exec (run env n) x w0) →
        (∀ {a w'}, exec (run env n) x w0 = .ok (a, w') → NoPartial a) →
        Resumable env p dst bnd st w t f
          (andThen env n p dst bnd (exec (run env n) (body env p dst bnd st) w))
          (andThen env n p dst bnd (exec (run env n) (body env p dst bnd st) (w.feed t f))) := by
      intro x w0 hw hwf h1 h2 h3
      rw [h1] at hwf
      rw [hw, hwf]
      cases he : exec (run env n) x w0 with
      | error e => exact .error e
      | ok y =>
        obtain ⟨s, w'⟩ := y
        rw [he] at h2 hw hwf
        cases s with
        | ret r st' => exact .done (h3 he).of_ret h2
        | cont st' =>
          simp only [andThen, Out.feed]
          have hs := same_of_cont hwf
          have := ih p dst bnd st' w' h2
          generalize run env n p dst bnd st' w' = x at *
          generalize run env n p dst bnd st' (w'.feed t f) = y at *
          cases this with
          | error e => exact .error e
          | done hr hf => exact .done hr hf
          | more hf hp hsame => exact .more hf hp (hs.trans hsame)
    cases shape env p dst bnd st with
    | plain h =>
      exact fin _ w rfl rfl (exec_plain_feed _ h w hf t f).1 (exec_plain_feed _ h w hf t f).2
        (exec_plain_post _ h w)
    | leaf A B hb hA hB =>
      by_cases hp : w.ds.pos < w.ds.text.length
      · have he : DataSource.empty w.ds = false := by
          show decide _ = false; simp; omega
        have he' : DataSource.empty (w.feed t f).ds = false := by
          show decide _ = false; simp [World.feed, Cursor.feed]; omega
        have hn : DataSource.next w.ds = some w.ds.text[w.ds.pos] := List.getElem?_eq_getElem hp
        have hn' : DataSource.next (w.feed t f).ds = some w.ds.text[w.ds.pos] := by
          show (w.ds.text ++ t)[w.ds.pos]? = _
          rw [List.getElem?_append_left hp]; exact hn
        have hx : ∀ (w0 : World Cursor μ) c, DataSource.empty w0.ds = false →
            DataSource.next w0.ds = some c →
            exec (run env n) (guarded st A B) w0 = exec (run env n) (B c) w0 := by
          intro w0 c h1 h2
          simp [guarded, exec, h1, h2]
        refine fin (B w.ds.text[w.ds.pos]) w ?_ ?_ (exec_plainAdv_feed _ (hB _) w hf hp t f).1
          (exec_plainAdv_feed _ (hB _) w hf hp t f).2 (exec_plainAdv_post _ (hB _) w)
        · rw [hb]; exact hx w _ he hn
        · rw [hb]; exact hx _ _ he' hn'
      · have he : DataSource.empty w.ds = true := by show decide _ = true; simp; omega
        have hfin : DataSource.final w.ds = false := hf
        have hx : exec (run env n) (guarded st A B) w = .ok (.ret .PARTIAL st, w) := by
          simp [guarded, exec, he, hfin]
        rw [hb, hx]
        exact .more hf (by omega) (Same.refl env p dst bnd st _)
    | child cp cd cb cs rebuild k hst hb hpk hk =>
      subst hst
      have hc := ih cp cd cb cs w hf
      cases hr : run env n cp cd cb cs w with
      | error e =>
        cases hr2 : run env n cp cd cb cs (w.feed t f) with
        | ok y2 => rw [hr, hr2] at hc; cases hc
        | error e2 =>
          rw [hr, hr2] at hc
          cases hc
          simp only [hb, exec, hr, hr2]
          exact .error e
      | ok y =>
        obtain ⟨⟨r, c'⟩, w'⟩ := y
        rw [hr] at hc
        cases hr2 : run env n cp cd cb cs (w.feed t f) with
        | error e =>
          rw [hr2] at hc
          cases hc with
          | more hf' hp' hsame =>
            have : exec (run env n) (body env p dst bnd (rebuild cs)) w
                = .ok (.ret .PARTIAL (rebuild c'), w') := by
              simp only [hb, exec, hr, hpk]
            rw [this]
            exact .more hf' hp' (same_of_child hb hsame)
        | ok y2 =>
          rw [hr2] at hc
          cases hc with
          | more hf' hp' hsame =>
            have : exec (run env n) (body env p dst bnd (rebuild cs)) w
                = .ok (.ret .PARTIAL (rebuild c'), w') := by
              simp only [hb, exec, hr, hpk]
            rw [this]
            exact .more hf' hp' (same_of_child hb hsame)
          | done hrp hf' =>
            refine fin (k r c') w' ?_ ?_ (exec_plain_feed _ (hk r c' hrp) w' hf' t f).1
              (exec_plain_feed _ (hk r c' hrp) w' hf' t f).2 (exec_plain_post _ (hk r c' hrp) w')
            · simp only [hb, exec, hr]
            · simp only [hb, exec, hr2]

/-- `PARTIAL` is only returned by a parser that ran out of incomplete text. -/
def Starved {σ : Type} [DataSource σ] : Out σ μ (Res × PState) → Prop
  | .ok ((.PARTIAL, _), w) => DataSource.empty w.ds = true ∧ DataSource.final w.ds = false
  | _ => True

theorem starved {σ : Type} [DataSource σ] (env : Env) (n : Nat) (p dst bnd st) (w : World σ μ) :
    Starved (run env n p dst bnd st w) := by
  induction n generalizing p dst bnd st w with
  | zero => trivial
  | succ n ih =>
    rw [run_succ_andThen]
    have fin : ∀ (x : Out σ μ Step), (∀ {a w'}, x = .ok (a, w') → NoPartial a) →
        Starved (andThen env n p dst bnd x) := by
      intro x hx
      cases x with
      | error e => trivial
      | ok y =>
        obtain ⟨s, w'⟩ := y
        cases s with
        | cont st' => exact ih ..
        | ret r st' =>
          have := hx rfl
          cases r <;> first | trivial | exact absurd rfl this
    cases shape env p dst bnd st with
    | plain h => exact fin _ (exec_plain_post _ h w)
    | leaf A B hb hA hB =>
      rw [hb]
      cases he : DataSource.empty w.ds with
      | false =>
        cases hn : DataSource.next w.ds with
        | none => simp [guarded, exec, he, hn, andThen, Starved]
        | some c =>
          have : exec (run env n) (guarded st A B) w = exec (run env n) (B c) w := by
            simp [guarded, exec, he, hn]
          rw [this]
          exact fin _ (exec_plainAdv_post _ (hB c) w)
      | true =>
        cases hfin : DataSource.final w.ds with
        | true =>
          have : exec (run env n) (guarded st A B) w = exec (run env n) A w := by
            simp [guarded, exec, he, hfin]
          rw [this]
          exact fin _ (exec_plain_post _ hA w)
        | false => simp [guarded, exec, he, hfin, andThen, Starved]
    | child cp cd cb cs rebuild k hst hb hpk hk =>
      subst hst
      have hc := ih cp cd cb cs w
      rw [hb]
      simp only [exec]
      cases hr : run env n cp cd cb cs w with
      | error e => trivial
      | ok y =>
        obtain ⟨⟨r, c'⟩, w'⟩ := y
        rw [hr] at hc
        by_cases h : r = .PARTIAL
        · subst h
          simp only [hpk, exec, andThen]
          exact hc
        · exact fin _ (exec_plain_post _ (hk r c' h) w')

end Abu
