import Verif.Model.Dispatch
import Verif.Proofs.Rollback
import Verif.Proofs.Resume
/-
The assumptions on the index of the variant of children hold.
-/
namespace Abu

theorem valVisitor_eq {left n v : Nat} (h1 : n ≤ v) (h2 : v ≤ n + left) :
    valVisitor left n v = v := by
  induction left generalizing n with
  | zero => simp only [valVisitor]; omega
  | succ left ih =>
    simp only [valVisitor]
    split
    · assumption
    · exact ih (by omega) (by omega)

theorem visitVal_eq {max v : Nat} (h : v < max) : visitVal max v = v :=
  valVisitor_eq (by omega) (by omega)

/-! ### Commands and their calls -/

/-- Children are called in states given by `C`, `R` is expected of what they return; the results
satisfy `P`, the errors `E`. -/
inductive Orderly (E : Err → Prop) (C : Prog → PState → Prop) (R : Prog → Res → PState → Prop)
    {α : Type} (P : α → Prop) : Cmd α → Prop
  | pure {a} : P a → Orderly E C R P (.pure a)
  | fault {e} : E e → Orderly E C R P (.fault e)
  | isEmpty {k} : (∀ b, Orderly E C R P (k b)) → Orderly E C R P (.isEmpty k)
  | isFinal {k} : (∀ b, Orderly E C R P (k b)) → Orderly E C R P (.isFinal k)
  | next {k} : (∀ c, Orderly E C R P (k c)) → Orderly E C R P (.next k)
  | advance {k} : Orderly E C R P k → Orderly E C R P (.advance k)
  | prepare {k} : Orderly E C R P k → Orderly E C R P (.prepare k)
  | commit {k} : Orderly E C R P k → Orderly E C R P (.commit k)
  | cancel {k} : Orderly E C R P k → Orderly E C R P (.cancel k)
  | mem {o k} : Orderly E C R P k → Orderly E C R P (.mem o k)
  | alloc {t k} : (∀ r, Orderly E C R P (k r)) → Orderly E C R P (.alloc t k)
  | call {p d b s k} : C p s → (∀ r s', R p r s' → Orderly E C R P (k r s')) →
      Orderly E C R P (.call p d b s k)

section
variable {E : Err → Prop} {C : Prog → PState → Prop} {R : Prog → Res → PState → Prop}

theorem Orderly.bind {α β : Type} {P : α → Prop} {Q : β → Prop} {c : Cmd α} {f : α → Cmd β}
    (h : Orderly E C R P c) (hf : ∀ a, P a → Orderly E C R Q (f a)) : Orderly E C R Q (c.bind f) := by
  induction h with
  | pure ha => exact hf _ ha
  | fault he => exact .fault he
  | isEmpty _ ih => exact .isEmpty ih
  | isFinal _ ih => exact .isFinal ih
  | next _ ih => exact .next ih
  | advance _ ih => exact .advance ih
  | prepare _ ih => exact .prepare ih
  | commit _ ih => exact .commit ih
  | cancel _ ih => exact .cancel ih
  | mem _ ih => exact .mem ih
  | alloc _ ih => exact .alloc ih
  | call hc _ ih => exact .call hc ih

theorem Orderly.mk' {α : Type} {P Q : α → Prop} {c : Cmd α} (h : Orderly E C R P c)
    (hf : ∀ a, P a → Q a) : Orderly E C R Q c := by
  induction h with
  | pure ha => exact .pure (hf _ ha)
  | fault he => exact .fault he
  | isEmpty _ ih => exact .isEmpty ih
  | isFinal _ ih => exact .isFinal ih
  | next _ ih => exact .next ih
  | advance _ ih => exact .advance ih
  | prepare _ ih => exact .prepare ih
  | commit _ ih => exact .commit ih
  | cancel _ ih => exact .cancel ih
  | mem _ ih => exact .mem ih
  | alloc _ ih => exact .alloc ih
  | call hc _ ih => exact .call hc ih

/-- The outcome: errors satisfy `E`, results `P`. -/
def OutcomeOf (E : Err → Prop) {σ μ α : Type} (P : α → Prop) : Out σ μ α → Prop
  | .error e => E e
  | .ok (a, _) => P a

theorem Orderly.exec {σ μ : Type} [DataSource σ] [Store μ] {α : Type} {P : α → Prop} {c : Cmd α}
    {f g : Prog → Ref → Ref → PState → World σ μ → Out σ μ (Res × PState)}
    (h : Orderly E C R P c) (hd : E .ubData)
    (hm : ∀ (o : MemOp) (m : μ) e, Store.op o m = .error e → E e)
    (hcall : ∀ p d b s w, C p s → f p d b s w = g p d b s w ∧
      OutcomeOf E (fun y => R p y.1 y.2) (g p d b s w)) (w : World σ μ) :
    exec f c w = exec g c w ∧ OutcomeOf E P (exec g c w) := by
  induction h generalizing w with
  | pure ha => exact ⟨rfl, ha⟩
  | fault he => exact ⟨rfl, he⟩
  | isEmpty _ ih => exact ih _ _
  | isFinal _ ih => exact ih _ _
  | next _ ih =>
    simp only [Abu.exec]
    cases DataSource.next w.ds with
    | none => exact ⟨rfl, hd⟩
    | some c => exact ih _ _
  | advance _ ih =>
    simp only [Abu.exec]
    cases DataSource.advance w.ds with
    | none => exact ⟨rfl, hd⟩
    | some c => exact ih _
  | prepare _ ih => exact ih _
  | commit _ ih =>
    simp only [Abu.exec]
    cases DataSource.commit w.ds with
    | none => exact ⟨rfl, hd⟩
    | some c => exact ih _
  | cancel _ ih =>
    simp only [Abu.exec]
    cases DataSource.cancel w.ds with
    | none => exact ⟨rfl, hd⟩
    | some c => exact ih _
  | @mem o _ _ ih =>
    simp only [Abu.exec]
    cases ho : Store.op o w.mem with
    | error e => exact ⟨rfl, hm _ _ _ ho⟩
    | ok m => exact ih _
  | alloc _ ih => exact ih _ _
  | @call p d b s k hc _ ih =>
    obtain ⟨h1, h2⟩ := hcall p d b s w hc
    simp only [Abu.exec]
    rw [h1]
    cases hg : g p d b s w with
    | error e => rw [hg] at h2; exact ⟨rfl, h2⟩
    | ok y =>
      obtain ⟨⟨r, s'⟩, w'⟩ := y
      rw [hg] at h2
      exact ih r s' h2 w'

end

/-! ### States as constructed -/

/-- As left by the constructors: every variant is at its first alternative. -/
def PState.fresh : PState → Bool
  | .seq i c => i == 0 && c.fresh
  | .alt i c => i == 0 && c.fresh
  | .rep _ c => c.fresh
  | .wrap c => c.fresh
  | .buffered _ c => c.fresh
  | .skip done s c => !done && s.fresh && c.fresh
  | .except inOp c => !inOp && c.fresh
  | .list inSep c => !inSep && c.fresh
  | .recurSome _ => false
  | _ => true

/-- The child that is called next is as constructed. -/
def PState.ready : PState → Bool
  | .seq _ c => c.fresh
  | .alt _ c => c.fresh
  | .rep _ c => c.fresh
  | .wrap c => c.fresh
  | .buffered _ c => c.fresh
  | .skip false s c => s.fresh && c.fresh
  | .skip true _ c => c.fresh
  | .except _ c => c.fresh
  | .list _ c => c.fresh
  | .recurSome c => c.fresh
  | _ => true

theorem PState.ready_of_fresh {st : PState} (h : st.fresh = true) : st.ready = true := by
  cases st with
  | skip d s c =>
    cases d
    · simpa [PState.fresh, PState.ready] using h
    · simp [PState.fresh] at h
  | _ => simp_all [PState.fresh, PState.ready]

/-- Errors other than violated assumptions. -/
abbrev NotAssume (e : Err) : Prop := e ≠ .ubAssume

theorem mk_fresh {C R} (p dst bnd) :
    Orderly NotAssume C R (fun st => st.fresh = true) (mk p dst bnd) := by
  fun_induction mk p dst bnd
  all_goals first
    | exact .pure rfl
    | exact .fault (by simp [NotAssume])
    | exact .mem (.pure rfl)
    | (rename_i ih; exact ih.bind fun _ h => .pure (by simpa [PState.fresh] using h))
    | (rename_i ih; exact ih.bind fun _ h => .prepare (.pure (by simpa [PState.fresh] using h)))
    | (rename_i ih
       exact .alloc fun r => (ih r).bind fun _ h => .pure (by simpa [PState.fresh] using h))
    | (rename_i ih1 ih2
       exact ih1.bind fun _ h1 => ih2.bind fun _ h2 => .pure (by simp [PState.fresh, h1, h2]))

/-- The iteration goes on with a child as constructed. -/
def Step.Ready : Step → Prop
  | .ret _ _ => True
  | .cont st => st.ready = true

theorem guarded_orderly {E C R P} {st : PState} {A : Cmd Step} {B : Ch → Cmd Step}
    (hp : P (.ret .PARTIAL st)) (hA : Orderly E C R P A) (hB : ∀ c, Orderly E C R P (B c)) :
    Orderly E C R P (guarded st A B) := by
  unfold guarded
  refine .isEmpty fun e => ?_
  split
  · refine .isFinal fun f => ?_
    split
    · exact hA
    · exact .pure hp
  · exact .next hB


/-- One step of a proof that a command is orderly. -/
macro "orderly_step" : tactic => `(tactic| first
  | exact .fault (by simp [NotAssume])
  | refine .advance ?_
  | refine .prepare ?_
  | refine .commit ?_
  | refine .cancel ?_
  | refine .mem ?_
  | refine Orderly.bind (mk_fresh _ _ _) fun _ hmk => ?_
  | split)

theorem body_ready (env : Env) (p dst bnd st) (h : st.ready = true) :
    Orderly NotAssume (fun _ s => s.fresh = true) (fun _ _ _ => True) Step.Ready
      (body env p dst bnd st) := by
  unfold body
  split <;> simp only [PState.ready, Bool.and_eq_true] at h
  all_goals try (refine guarded_orderly trivial ?_ fun c => ?_)
  all_goals try unfold negIf
  all_goals repeat' first
    | exact .pure trivial
    | exact .pure rfl
    | exact .pure ‹_›
    | exact .pure (by simp_all [Step.Ready, PState.ready])
    | orderly_step
    | refine .call ?_ fun r s' hr => ?_
    | refine guarded_orderly trivial ?_ fun c => ?_
    | dsimp only
  all_goals first | exact h | exact h.1


theorem mk_possible {C R} (env : Env) (p dst bnd) :
    Orderly NotAssume C R (fun st => ∃ n, Owns env p st n) (mk p dst bnd) := by
  fun_induction mk p dst bnd
  all_goals first
    | exact .pure ⟨_, by constructor⟩
    | exact .fault (by simp [NotAssume])
    | exact .mem (.pure ⟨_, by constructor⟩)
    | (rename_i ih
       exact ih.bind fun _ ⟨n, h⟩ => .pure ⟨_, by first | constructor; exact h | exact .seq (i := 0) rfl rfl h | exact .alt (i := 0) rfl h⟩)
    | (rename_i ih; exact ih.bind fun _ ⟨n, h⟩ => .prepare (.pure ⟨_, by constructor; exact h⟩))
    | (rename_i ih
       exact .alloc fun r => (ih r).bind fun _ ⟨n, h⟩ => .pure ⟨_, by constructor; exact h⟩)
    | (rename_i ih1 ih2
       exact ih1.bind fun _ ⟨n1, h1⟩ => ih2.bind fun _ ⟨n2, h2⟩ => .pure ⟨_, .skipping h1 h2⟩)


/-- The object stays in a possible state, if it is used again. -/
def Step.Possible (env : Env) (p : Prog) : Step → Prop
  | .ret r st => r = .PARTIAL → ∃ n, Owns env p st n
  | .cont st => ∃ n, Owns env p st n

theorem body_possible (env : Env) {p st n} (dst bnd) (h : Owns env p st n) :
    Orderly NotAssume (fun q s => ∃ n, Owns env q s n)
      (fun q r s => r = .PARTIAL → ∃ n, Owns env q s n) (Step.Possible env p)
      (body env p dst bnd st) := by
  cases h
  all_goals simp only [body, negIf]
  all_goals try simp only [*]
  all_goals repeat' first
    | refine .pure ?_
    | refine .advance ?_
    | refine .prepare ?_
    | refine .commit ?_
    | refine .cancel ?_
    | refine .mem ?_
    | refine Orderly.bind (mk_possible env _ _ _) fun _ ⟨_, hmk⟩ => ?_
    | split
    | exact .fault (by simp [NotAssume])
    | refine .call ⟨_, ‹Owns env _ _ _›⟩ fun r s' hr => ?_
    | refine guarded_orderly ?_ ?_ fun c => ?_
    | dsimp only
  all_goals first
    | (intro h; cases h; done)
    | (intro h; exact absurd h (enough_ne _ _))
    | exact ⟨_, .seq (by assumption) (by assumption) hmk⟩
    | exact ⟨_, .alt (by assumption) hmk⟩
    | exact ⟨_, .recurSome (by assumption) hmk⟩
    | (intro h; obtain ⟨_, h⟩ := hr h; exact ⟨_, .seq (by assumption) (by assumption) h⟩)
    | (intro h; obtain ⟨_, h⟩ := hr h; exact ⟨_, .alt (by assumption) h⟩)
    | (intro h; obtain ⟨_, h⟩ := hr h; exact ⟨_, .recurSome (by assumption) h⟩)
    | (intro h; obtain ⟨_, h⟩ := hr h; exact ⟨_, .skipping h (by assumption)⟩)
    | exact ⟨_, .skipping hmk (by assumption)⟩
    | (apply Exists.intro; constructor; done)
    | (intro _; apply Exists.intro; constructor; done)
    | (intro h; obtain ⟨_, h⟩ := hr h; apply Exists.intro; constructor; exact h)
    | (apply Exists.intro; constructor; assumption)


/-! ### Running -/

theorem entryAssumed_of_fresh {p : Prog} {st : PState} (h : st.fresh = true) :
    entryAssumed false p st = true := by
  cases p <;> cases st <;> simp_all [entryAssumed, entryId, PState.fresh]

theorem entryAssumed_of_owns {env p st n} (h : Owns env p st n) : entryAssumed true p st = true := by
  cases h with
  | seq hp _ _ =>
    have := visitVal_eq (List.getElem?_eq_some_iff.1 hp).1
    simp [entryAssumed, entryId, this]
  | alt hp _ =>
    have := visitVal_eq (List.getElem?_eq_some_iff.1 hp).1
    simp [entryAssumed, entryId, this]
  | _ => rfl

section
variable {σ μ : Type} [DataSource σ] [Store μ]

/-- Without resumption: from a state the constructors leave. -/
theorem runFrom_once (hm : ∀ (o : MemOp) (m : μ) e, Store.op o m = .error e → NotAssume e)
    (env : Env) (n : Nat) (p dst bnd st) (w : World σ μ) (h : st.ready = true) :
    runFrom false env n p dst bnd st w = run env n p dst bnd st w ∧
      OutcomeOf NotAssume (fun _ => True) (run env n p dst bnd st w) := by
  induction n generalizing p dst bnd st w with
  | zero => exact ⟨rfl, by simp [run, OutcomeOf, NotAssume]⟩
  | succ n ih =>
    obtain ⟨h1, h2⟩ := (body_ready env p dst bnd st h).exec
      (f := fun p d b s w => if entryAssumed false p s then runFrom false env n p d b s w
        else .error .ubAssume) (g := run env n) (by simp [NotAssume]) hm
      (fun q d b s w' hs => by
        simp only [entryAssumed_of_fresh hs, if_true]
        exact ih q d b s w' (PState.ready_of_fresh hs)) w
    simp only [runFrom, run]
    rw [h1]
    cases hx : exec (run env n) (body env p dst bnd st) w with
    | error e => rw [hx] at h2; exact ⟨rfl, h2⟩
    | ok y =>
      obtain ⟨s, w'⟩ := y
      rw [hx] at h2
      cases s with
      | ret r st' => exact ⟨rfl, trivial⟩
      | cont st' => exact ih _ _ _ _ _ h2

/-- With resumption: from any possible state. -/
theorem runFrom_again (hm : ∀ (o : MemOp) (m : μ) e, Store.op o m = .error e → NotAssume e)
    (env : Env) (n : Nat) (p dst bnd st) (w : World σ μ) (h : ∃ k, Owns env p st k) :
    runFrom true env n p dst bnd st w = run env n p dst bnd st w ∧
      OutcomeOf NotAssume (fun y : Res × PState => y.1 = .PARTIAL → ∃ k, Owns env p y.2 k)
        (run env n p dst bnd st w) := by
  induction n generalizing p dst bnd st w with
  | zero => exact ⟨rfl, by simp [run, OutcomeOf, NotAssume]⟩
  | succ n ih =>
    obtain ⟨k, h⟩ := h
    obtain ⟨h1, h2⟩ := (body_possible env dst bnd h).exec
      (f := fun p d b s w => if entryAssumed true p s then runFrom true env n p d b s w
        else .error .ubAssume) (g := run env n) (by simp [NotAssume]) hm
      (fun q d b s w' ⟨j, hs⟩ => by
        simp only [entryAssumed_of_owns hs, if_true]
        exact ih q d b s w' ⟨j, hs⟩) w
    simp only [runFrom, run]
    rw [h1]
    cases hx : exec (run env n) (body env p dst bnd st) w with
    | error e => rw [hx] at h2; exact ⟨rfl, h2⟩
    | ok y =>
      obtain ⟨s, w'⟩ := y
      rw [hx] at h2
      cases s with
      | ret r st' => exact ⟨rfl, h2⟩
      | cont st' => exact ih _ _ _ _ _ h2

theorem construct_states (hm : ∀ (o : MemOp) (m : μ) e, Store.op o m = .error e → NotAssume e)
    (env : Env) (p dst bnd) (w : World σ μ) :
    OutcomeOf NotAssume (fun st : PState => st.fresh = true ∧ ∃ k, Owns env p st k)
      (construct p dst bnd w) := by
  have call : ∀ (q : Prog) (d b : Ref) (s : PState) (w : World σ μ), False →
      (Except.error .stuck : Out σ μ (Res × PState)) = .error .stuck ∧
        OutcomeOf NotAssume (fun _ => True) (Except.error .stuck : Out σ μ (Res × PState)) :=
    fun _ _ _ _ _ h => h.elim
  have h1 := ((mk_fresh (C := fun _ _ => False) (R := fun _ _ _ => True) p dst bnd).exec
    (by simp [NotAssume]) hm call w).2
  have h2 := ((mk_possible (C := fun _ _ => False) (R := fun _ _ _ => True) env p dst bnd).exec
    (by simp [NotAssume]) hm call w).2
  unfold construct
  cases hx : exec (fun _ _ _ _ _ => .error .stuck) (mk p dst bnd) w with
  | error e => rw [hx] at h1; exact h1
  | ok y => rw [hx] at h1 h2; exact ⟨h1, h2⟩

end

theorem mem_notAssume (o : MemOp) (m : Mem) (e) (h : Store.op o m = .error e) : NotAssume e := by
  have := mem_ofMem (o := o) (m := m) h
  rintro rfl
  cases this

theorem Evals.exactly_once {σ : Type} [DataSource σ] {env p dst bnd st} {w : World σ Mem}
    {out : Out σ Mem (Res × PState)} (h : st.fresh = true) :
    EvalsExactly false env p dst bnd st w out ↔ Evals env p dst bnd st w out := by
  unfold EvalsExactly Evals consumeExactly
  simp only [entryAssumed_of_fresh h, if_true,
    fun n => (runFrom_once mem_notAssume env n p dst bnd st w (PState.ready_of_fresh h)).1]

theorem Evals.exactly_again {σ : Type} [DataSource σ] {env p dst bnd st n} {w : World σ Mem}
    {out : Out σ Mem (Res × PState)} (h : Owns env p st n) :
    EvalsExactly true env p dst bnd st w out ↔ Evals env p dst bnd st w out := by
  unfold EvalsExactly Evals consumeExactly
  simp only [entryAssumed_of_owns h, if_true,
    fun k => (runFrom_again mem_notAssume env k p dst bnd st w ⟨n, h⟩).1]

theorem Evals.possible {σ : Type} [DataSource σ] {env p dst bnd st n} {w : World σ Mem}
    {out : Out σ Mem (Res × PState)} (hs : Owns env p st n) (h : Evals env p dst bnd st w out) :
    OutcomeOf NotAssume (fun y : Res × PState => y.1 = .PARTIAL → ∃ k, Owns env p y.2 k) out := by
  obtain ⟨_, k, rfl⟩ := h
  exact (runFrom_again mem_notAssume env k p dst bnd st w ⟨n, hs⟩).2

theorem Session.exactly {σ : Type} [DataSource σ] {add : σ → List Ch → Bool → Option σ} {env p dst}
    {st : PState} {w : World σ Mem} {ops v n} (hs : Owns env p st n) :
    SessionExactly add env p dst st w ops v ↔ Session add env p dst st w ops v := by
  constructor
  · intro h
    induction h generalizing n with
    | nil h => exact .nil h
    | addBad h => exact .addBad h
    | add h _ ih => exact .add h (ih hs)
    | error h => exact .error ((Evals.exactly_again hs).1 h)
    | verdict h h1 h2 => exact .verdict ((Evals.exactly_again hs).1 h) h1 h2
    | more h _ ih =>
      have h := (Evals.exactly_again hs).1 h
      obtain ⟨k, hk⟩ := Evals.possible hs h rfl
      exact .more h (ih hk)
  · intro h
    induction h generalizing n with
    | nil h => exact .nil h
    | addBad h => exact .addBad h
    | add h _ ih => exact .add h (ih hs)
    | error h => exact .error ((Evals.exactly_again hs).2 h)
    | verdict h h1 h2 => exact .verdict ((Evals.exactly_again hs).2 h) h1 h2
    | more h _ ih =>
      obtain ⟨k, hk⟩ := Evals.possible hs h rfl
      exact .more ((Evals.exactly_again hs).2 h) (ih hk)

theorem Session.notAssume {σ : Type} [DataSource σ] {add : σ → List Ch → Bool → Option σ} {env p dst}
    {st : PState} {w : World σ Mem} {ops v n} (hs : Owns env p st n)
    (h : Session add env p dst st w ops v) : v ≠ .error .ubAssume := by
  induction h generalizing n with
  | nil h => simp
  | addBad h => simp
  | add h _ ih => exact ih hs
  | error h =>
    have := Evals.possible hs h
    rintro ⟨⟩
    exact this rfl
  | verdict h h1 h2 => simp
  | more h _ ih =>
    obtain ⟨k, hk⟩ := Evals.possible hs h rfl
    exact ih hk

end Abu
