import Verif.Model.SinglePass
import Verif.Proofs.Buffers
/-
Iterators that pass once against iterators that can go back.
-/
namespace Abu

/-- The same place, and what has been passed for good. -/
structure SinglePass.Rel (s : SinglePass) (f : SingleForward) : Prop where
  stream : s.stream = f.text.drop s.passed
  current : s.current = f.current
  stack : s.stack = f.stack
  endd : f.endd = f.text.length
  passed : s.passed ≤ f.text.length
  low : s.current ≤ s.passed
  lows : ∀ q ∈ s.stack, q ≤ s.passed

theorem SinglePass.rel_make (t : List Ch) : SinglePass.Rel (.make t) (.make t) :=
  ⟨rfl, rfl, rfl, rfl, Nat.zero_le _, Nat.le_refl _, fun _ h => by cases h⟩

namespace SinglePass.Rel
variable {s : SinglePass} {f : SingleForward}

theorem empty_live (h : Rel s f) (hl : s.live = true) : s.empty = some (DataSource.empty f) := by
  show (if s.live then some s.stream.isEmpty else none) = some (f.current == f.endd)
  have h1 := h.current
  have h3 := h.passed
  have h4 := h.endd
  have : s.current = s.passed := by simpa [SinglePass.live] using hl
  rw [if_pos hl, Option.some_inj, h.stream, ← h1, this, h4, Bool.eq_iff_iff]
  simp only [List.isEmpty_iff, List.drop_eq_nil_iff, beq_iff_eq]
  omega

theorem empty_stale (hl : s.live = false) : s.empty = none := by
  unfold SinglePass.empty
  rw [hl]; rfl

theorem next_live (h : Rel s f) (hl : s.live = true) : s.next = DataSource.next f := by
  show (if s.live then s.stream.head? else none) = f.text[f.current]?
  have : s.current = s.passed := by simpa [SinglePass.live] using hl
  rw [if_pos hl, h.stream, ← h.current, this, List.head?_drop]

theorem next_stale (hl : s.live = false) : s.next = none := by
  show (if s.live then s.stream.head? else none) = none
  rw [hl]; rfl

theorem advance_stale (hl : s.live = false) : s.advance = none := by
  show s.advance = none
  unfold SinglePass.advance
  rw [hl]; rfl

theorem advance_live (h : Rel s f) (hl : s.live = true) :
    Option.Rel (fun s f => Rel s f ∧ s.live = true) s.advance (DataSource.advance f) := by
  have hc : s.current = s.passed := by simpa [SinglePass.live] using hl
  have h1 := h.current
  have h3 := h.passed
  have h4 := h.endd
  show Option.Rel _ s.advance f.advance
  unfold SinglePass.advance SingleForward.advance SingleForward.empty
  rw [if_pos hl]
  have hs := h.stream
  cases hst : s.stream with
  | nil =>
    rw [hst] at hs
    have : f.text.length ≤ s.passed := List.drop_eq_nil_iff.1 hs.symm
    rw [if_pos (by simp; omega)]
    exact .none
  | cons c t =>
    rw [hst] at hs
    have hlt : s.passed < f.text.length := by
      refine Nat.lt_of_not_le fun hle => ?_
      rw [List.drop_eq_nil_iff.2 hle] at hs
      cases hs
    rw [if_neg (by simp; omega)]
    refine .some ⟨⟨?_, by simp; omega, h.stack, h4, hlt, Nat.le_refl _,
      fun q hq => Nat.le_succ_of_le (h.lows q hq)⟩, by simp [SinglePass.live]⟩
    rw [List.drop_eq_getElem_cons hlt] at hs
    cases hs
    rfl

theorem prepare (h : Rel s f) : Rel s.prepare (DataSource.prepare f) := by
  refine ⟨h.stream, h.current, ?_, h.endd, h.passed, h.low, fun q hq => ?_⟩
  · show s.current :: s.stack = f.current :: f.stack
    rw [h.current, h.stack]
  · rcases List.mem_cons.1 hq with rfl | hq
    · exact h.low
    · exact h.lows q hq

theorem commit (h : Rel s f) : Option.Rel Rel s.commit (DataSource.commit f) := by
  show Option.Rel Rel s.commit f.commit
  unfold SinglePass.commit SingleForward.commit
  have hs := h.stack
  have hl := h.lows
  generalize hss : s.stack = ss at hs hl
  cases ss with
  | nil => rw [← hs]; exact .none
  | cons q qs =>
    rw [← hs]
    exact .some ⟨h.stream, rfl, rfl, h.endd, h.passed, hl q (by simp),
      fun q' hq => hl q' (by simp [show q' ∈ qs from hq])⟩

theorem cancel (h : Rel s f) : Option.Rel Rel s.cancel (DataSource.cancel f) := by
  show Option.Rel Rel s.cancel f.cancel
  unfold SinglePass.cancel SingleForward.cancel
  have hs := h.stack
  have hl := h.lows
  generalize hss : s.stack = ss at hs hl
  cases ss with
  | nil => rw [← hs]; exact .none
  | cons q qs =>
    rw [← hs]
    exact .some ⟨h.stream, h.current, rfl, h.endd, h.passed, h.low,
      fun q' hq => hl q' (by simp [show q' ∈ qs from hq])⟩

end SinglePass.Rel

/-! ### All patterns: the same, or undefined -/

/-- The same outcome, or undefined behaviour. -/
inductive OnceRel {μ α : Type} : Out SinglePass μ α → Out SingleForward μ α → Prop
  | undef (y) : OnceRel (.error .ubData) y
  | error (e) : OnceRel (.error e) (.error e)
  | ok (a) {s c m} : SinglePass.Rel s c → OnceRel (.ok (a, ⟨s, m⟩)) (.ok (a, ⟨c, m⟩))

section
variable {μ : Type} [Store μ]

theorem exec_once {f : Prog → Ref → Ref → PState → World SinglePass μ → Out SinglePass μ (Res × PState)}
    {g : Prog → Ref → Ref → PState → World SingleForward μ → Out SingleForward μ (Res × PState)}
    (h : ∀ p d b st s c m, SinglePass.Rel s c → OnceRel (f p d b st ⟨s, m⟩) (g p d b st ⟨c, m⟩))
    {α : Type} (x : Cmd α) {s c} (m : μ) (hr : SinglePass.Rel s c) :
    OnceRel (execOnce f x ⟨s, m⟩) (exec g x ⟨c, m⟩) := by
  induction x generalizing s c m with
  | pure a => exact .ok a hr
  | fault e => exact .error e
  | isEmpty k ih =>
    simp only [exec, execOnce]
    cases hl : s.live with
    | false => rw [SinglePass.Rel.empty_stale hl]; exact .undef _
    | true => rw [hr.empty_live hl]; exact ih _ m hr
  | isFinal k ih => exact ih _ m hr
  | next k ih =>
    simp only [exec, execOnce]
    cases hl : s.live with
    | false => rw [SinglePass.Rel.next_stale hl]; exact .undef _
    | true =>
      rw [hr.next_live hl]
      cases DataSource.next c with
      | none => exact .error _
      | some ch => exact ih _ m hr
  | advance k ih =>
    simp only [exec, execOnce]
    cases hl : s.live with
    | false => rw [SinglePass.Rel.advance_stale hl]; exact .undef _
    | true =>
      have ha := hr.advance_live hl
      generalize s.advance = s' at *
      generalize DataSource.advance c = c' at *
      cases ha with
      | none => exact .error _
      | some ha => exact ih m ha.1
  | prepare k ih => exact ih m hr.prepare
  | commit k ih =>
    have ha := hr.commit
    simp only [exec, execOnce]
    generalize s.commit = s' at *
    generalize DataSource.commit c = c' at *
    cases ha with
    | none => exact .error _
    | some ha => exact ih m ha
  | cancel k ih =>
    have ha := hr.cancel
    simp only [exec, execOnce]
    generalize s.cancel = s' at *
    generalize DataSource.cancel c = c' at *
    cases ha with
    | none => exact .error _
    | some ha => exact ih m ha
  | mem o k ih =>
    simp only [exec, execOnce]
    cases Store.op o m with
    | error e => exact .error e
    | ok m' => exact ih m' hr
  | alloc t k ih => exact ih _ _ hr
  | call p d b st k ih =>
    have hc := h p d b st s c m hr
    simp only [exec, execOnce]
    generalize f p d b st ⟨s, m⟩ = x at *
    generalize g p d b st ⟨c, m⟩ = y at *
    cases hc with
    | undef y => exact .undef _
    | error e => exact .error e
    | ok a hr' => exact ih _ _ _ hr'

theorem run_once (env : Env) (n : Nat) (p dst bnd st) {s c} (m : μ) (hr : SinglePass.Rel s c) :
    OnceRel (runOnce env n p dst bnd st ⟨s, m⟩) (run env n p dst bnd st ⟨c, m⟩) := by
  induction n generalizing p dst bnd st s c m with
  | zero => exact .error _
  | succ n ih =>
    have he := exec_once (fun p d b st s c m h => ih p d b st m h) (body env p dst bnd st) m hr
    rw [run_succ_andThen]
    simp only [runOnce]
    generalize execOnce (runOnce env n) (body env p dst bnd st) ⟨s, m⟩ = x at *
    generalize exec (run env n) (body env p dst bnd st) ⟨c, m⟩ = y at *
    cases he with
    | undef y => exact .undef _
    | error e => exact .error e
    | ok a hr' =>
      cases a with
      | ret r st' => exact .ok _ hr'
      | cont st' => exact ih _ _ _ _ _ hr'

/-! ### Patterns without rollback points: the same -/

/-- `current_` is not stale. -/
def SinglePass.Live (s : SinglePass) (f : SingleForward) : Prop := SinglePass.Rel s f ∧ s.live = true

theorem exec_pass {f : Prog → Ref → Ref → PState → World SinglePass μ → Out SinglePass μ (Res × PState)}
    {g : Prog → Ref → Ref → PState → World SingleForward μ → Out SingleForward μ (Res × PState)}
    (h : ∀ p d b st s c m, p.markless = true → SinglePass.Live s c →
      OutRel SinglePass.Live (f p d b st ⟨s, m⟩) (g p d b st ⟨c, m⟩))
    {α : Type} {x : Cmd α} (hx : Markless x) {s c} (m : μ) (hr : SinglePass.Live s c) :
    OutRel SinglePass.Live (execOnce f x ⟨s, m⟩) (exec g x ⟨c, m⟩) := by
  induction hx generalizing s c m with
  | pure => exact .ok _ hr
  | fault => exact .error _
  | isEmpty _ ih => simp only [exec, execOnce]; rw [hr.1.empty_live hr.2]; exact ih _ m hr
  | isFinal _ ih => exact ih _ m hr
  | next _ ih =>
    simp only [exec, execOnce]
    rw [hr.1.next_live hr.2]
    cases DataSource.next c with
    | none => exact .error _
    | some ch => exact ih _ m hr
  | advance _ ih =>
    simp only [exec, execOnce]
    have ha := hr.1.advance_live hr.2
    generalize s.advance = s' at *
    generalize DataSource.advance c = c' at *
    cases ha with
    | none => exact .error _
    | some ha => exact ih m ha
  | @mem o k _ ih =>
    simp only [exec, execOnce]
    cases Store.op o m with
    | error e => exact .error e
    | ok m' => exact ih m' hr
  | alloc _ ih => exact ih _ _ hr
  | @call p d b st k hp _ ih =>
    have hc := h p d b st s c m hp hr
    simp only [exec, execOnce]
    generalize f p d b st ⟨s, m⟩ = x at *
    generalize g p d b st ⟨c, m⟩ = y at *
    cases hc with
    | error e => exact .error e
    | ok a hr' => exact ih _ _ _ hr'

theorem run_pass {env : Env} (henv : env.markless) (n : Nat) (p dst bnd st) {s c} (m : μ)
    (hp : p.markless = true) (hr : SinglePass.Live s c) :
    OutRel SinglePass.Live (runOnce env n p dst bnd st ⟨s, m⟩) (run env n p dst bnd st ⟨c, m⟩) := by
  induction n generalizing p dst bnd st s c m with
  | zero => exact .error _
  | succ n ih =>
    have he := exec_pass (fun p d b st s c m hp h => ih p d b st m hp h)
      (body_markless henv p dst bnd st hp) m hr
    rw [run_succ_andThen]
    simp only [runOnce]
    generalize execOnce (runOnce env n) (body env p dst bnd st) ⟨s, m⟩ = x at *
    generalize exec (run env n) (body env p dst bnd st) ⟨c, m⟩ = y at *
    cases he with
    | error e => exact .error e
    | ok a hr' =>
      cases a with
      | ret r st' => exact .ok _ hr'
      | cont st' => exact ih _ _ _ _ _ hp hr'

end
end Abu

namespace Abu

theorem construct_once {μ : Type} [Store μ] (p : Prog) (dst bnd : Ref) (m : μ) {s c}
    (hr : SinglePass.Rel s c) :
    OnceRel (constructOnce p dst bnd ⟨s, m⟩) (construct p dst bnd ⟨c, m⟩) :=
  exec_once (f := fun _ _ _ _ _ => .error .stuck) (g := fun _ _ _ _ _ => .error .stuck)
    (fun _ _ _ _ _ _ _ _ => .error .stuck) (mk p dst bnd) m hr

theorem construct_pass {μ : Type} [Store μ] (p : Prog) (dst bnd : Ref) (m : μ) {s c}
    (hp : p.markless = true) (hr : SinglePass.Live s c) :
    OutRel SinglePass.Live (constructOnce p dst bnd ⟨s, m⟩) (construct p dst bnd ⟨c, m⟩) :=
  exec_pass (f := fun _ _ _ _ _ => .error .stuck) (g := fun _ _ _ _ _ => .error .stuck)
    (fun _ _ _ _ _ _ _ _ _ => .error .stuck) (mk_markless p dst bnd hp) m hr

theorem SinglePass.Rel.reads {s : SinglePass} {f : SingleForward} (h : SinglePass.Rel s f) :
    Reads f (f.text.drop f.current) := by
  have hle : f.current ≤ f.text.length := by
    rw [← h.current]
    exact Nat.le_trans h.low h.passed
  have he := h.endd
  clear h
  generalize hk : f.text.length - f.current = k
  induction k generalizing f with
  | zero =>
    rw [List.drop_eq_nil_iff.2 (by omega)]
    refine .done ?_
    show (f.current == f.endd) = true
    rw [beq_iff_eq]; omega
  | succ k ih =>
    have hlt : f.current < f.text.length := by omega
    rw [List.drop_eq_getElem_cons hlt]
    have hne : (f.current == f.endd) = false := by
      rw [beq_eq_false_iff_ne]; omega
    refine .read (s' := { f with current := f.current + 1 }) hne
      (List.getElem?_eq_getElem hlt) ?_
      (ih (f := { f with current := f.current + 1 }) (show f.current + 1 ≤ f.text.length from hlt)
        he (show f.text.length - (f.current + 1) = k by omega))
    show (if f.current == f.endd then none else _) = _
    rw [hne]; rfl

/-- What has not been taken from the stream is the end of what is unread. -/
theorem SinglePass.Rel.suffix {s : SinglePass} {f : SingleForward} (h : SinglePass.Rel s f) :
    s.stream <:+ f.text.drop f.current := by
  rw [h.stream, ← h.current]
  have : s.passed = s.current + (s.passed - s.current) := by have := h.low; omega
  rw [this, ← List.drop_drop]
  exact List.drop_suffix ..

theorem SinglePass.Rel.whole {s : SinglePass} {f : SingleForward} (h : SinglePass.Live s f) :
    s.stream = f.text.drop f.current := by
  have : s.current = s.passed := by simpa [SinglePass.live] using h.2
  rw [h.1.stream, ← h.1.current, this]

/-- Evaluates `ParsesOnce` with `n` steps. -/
def parseOnceN (env : Env) (n : Nat) (p : Pat) (dst : Ref) (m : Mem) (t : List Ch) : Option Verdict :=
  match constructOnce (topParser p) dst dst ⟨SinglePass.make t, m⟩ with
  | .error e => some (.error e)
  | .ok (st, w) =>
    match runOnce env n (topParser p) dst dst st w with
    | .error .fuel => none
    | .error e => some (.error e)
    | .ok ((r, _), w') => some (.ok (r, w'.mem, w'.ds.stream))

theorem parsesOnce_of_parseOnceN {env : Env} {n : Nat} {p : Pat} {dst : Ref} {m : Mem} {t : List Ch}
    {v : Verdict} (h : parseOnceN env n p dst m t = some v) : ParsesOnce env p dst m t v := by
  unfold parseOnceN at h
  split at h
  · rename_i hc; cases h; exact .construct hc
  · rename_i hc
    split at h
    · cases h
    · rename_i hn hr; cases h; exact .error hc ⟨fun he => by cases he; exact hn rfl, n, hr⟩
    · rename_i hr; cases h; exact .ok hc ⟨by simp, n, hr⟩

end Abu
