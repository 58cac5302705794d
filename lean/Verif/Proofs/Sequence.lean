import Verif.Proofs.Bridge
import Verif.Proofs.Inline
import Verif.Spec.Build
/-
Sequences of arbitrary patterns.
-/
namespace Abu

theorem topParser_seq (ps : List Pat) :
    topParser (.seq ps) = .seq (tupleSlots 0 ps) (ps.map topParser) := by
  have : ∀ ps : List Pat, elabPs .fail ⟨false, false, false, false⟩ ps = ps.map topParser := by
    intro ps
    induction ps with
    | nil => rfl
    | cons p ps ih => simp [elabPs, ih, topParser, DefaultReqs]
  simp [topParser, elabP, Req.needsAtomic, Req.needsClean, DefaultReqs, adapt, Req.skipper,
      Prog.isFail, this]

theorem yields_of_ghost {env p t r rest o} (h : GhostParses env (topParser p) t r rest)
    (hf : Fits o r rest) : Yields env p t o := by
  intro dst m
  rcases h.real_id dst m with ⟨m', h⟩ | ⟨e, he, h⟩
  · exact .inl ⟨r, m', rest, h, hf⟩
  · exact .inr ⟨e, Err.ofDestination_of he, h⟩

theorem Recognises.ghost {env p t o} (h : Recognises env p t o) :
    ∃ r rest, GhostParses env (topParser p) t r rest ∧ Fits o r rest := by
  obtain ⟨dst, m, r, m', rest, h1, h2⟩ := h
  exact ⟨r, rest, h1.ghost_id, h2⟩

/-- The chain of the parsers of patterns. -/
def PChain (env : Env) (ps : List Pat) (t : List Ch) (r : Res) (rest : List Ch) : Prop :=
  Chain env (ps.map topParser) t r rest

theorem ghost_topSeq {env ps t r rest} :
    GhostParses env (topParser (.seq ps)) t r rest ↔ PChain env ps t r rest := by
  rw [topParser_seq]
  exact ghost_seq (by simp [tupleSlots_length])

theorem PChain.of_turn {env : Env} {ps : List Pat} {t t' : List Ch} (hne : ps ≠ [])
    (h : InTurn (fun p u v => Recognises env p u (some v)) ps t t') :
    PChain env ps t .SUCCESS t' := by
  induction h with
  | nil => exact absurd rfl hne
  | @cons a as t t1 t2 h1 h2 ih =>
    obtain ⟨r, rest, hg, hf⟩ := h1.ghost
    cases hf
    cases as with
    | nil => cases h2; exact Chain.last hg
    | cons b bs => exact Chain.step hg (ih (by simp))

theorem PChain.of_fail {env : Env} {pre post : List Pat} {q : Pat} {t u : List Ch}
    (h : InTurn (fun p u v => Recognises env p u (some v)) pre t u)
    (hq : Recognises env q u none) :
    ∃ rest, PChain env (pre ++ q :: post) t .FAILURE rest := by
  induction h with
  | nil =>
    obtain ⟨r, rest, hg, hf⟩ := hq.ghost
    cases hf
    exact ⟨_, Chain.stop hg (by simp)⟩
  | cons h1 h2 ih =>
    obtain ⟨r, rest, hg, hf⟩ := h1.ghost
    cases hf
    obtain ⟨rest, h⟩ := ih hq
    exact ⟨rest, Chain.step hg h⟩

theorem PChain.turn {env : Env} : ∀ {ps : List Pat} {t t' : List Ch},
    PChain env ps t .SUCCESS t' → InTurn (fun p u v => Yields env p u (some v)) ps t t'
  | [], _, _, h => by cases h
  | p :: ps, t, t', h => by
    unfold PChain at h
    rw [List.map_cons] at h
    generalize hQ : ps.map topParser = Qs at h
    cases h with
    | last h =>
      have : ps = [] := by cases ps with | nil => rfl | cons => cases hQ
      subst this
      exact .cons (yields_of_ghost h .ok) .nil
    | stop _ h => exact absurd rfl h
    | step h1 h2 =>
      subst hQ
      exact .cons (yields_of_ghost h1 .ok) (PChain.turn h2)

theorem PChain.fails {env : Env} : ∀ {ps : List Pat} {t t' : List Ch},
    PChain env ps t .FAILURE t' → ∃ pre q post u, ps = pre ++ q :: post ∧
      InTurn (fun p u v => Yields env p u (some v)) pre t u ∧ Yields env q u none
  | [], _, _, h => by cases h
  | p :: ps, t, t', h => by
    unfold PChain at h
    rw [List.map_cons] at h
    generalize hQ : ps.map topParser = Qs at h
    cases h with
    | last h => exact ⟨[], p, ps, t, rfl, .nil, yields_of_ghost h .no⟩
    | stop h _ => exact ⟨[], p, ps, t, rfl, .nil, yields_of_ghost h .no⟩
    | step h1 h2 =>
      subst hQ
      obtain ⟨pre, q, post, u, rfl, h3, h4⟩ := PChain.fails h2
      exact ⟨p :: pre, q, post, u, rfl, .cons (yields_of_ghost h1 .ok) h3, h4⟩

/-! ### Nested sequences -/

theorem Chain.append_fail {env Ps Qs t r rest} (h : Chain env Ps t r rest) (hr : r ≠ .SUCCESS) :
    Chain env (Ps ++ Qs) t r rest := by
  induction h with
  | last h => exact .stop h hr
  | stop h _ => exact .stop h hr
  | step h1 _ ih => exact .step h1 (ih hr)

theorem Chain.append {env Ps Qs t u r rest} (h : Chain env Ps t .SUCCESS u)
    (h2 : Chain env Qs u r rest) : Chain env (Ps ++ Qs) t r rest := by
  generalize hr : Res.SUCCESS = r0 at h
  induction h with
  | last h => subst hr; exact .step h h2
  | stop h h' => exact absurd hr.symm h'
  | step h1 _ ih => exact .step h1 (ih h2 hr)

theorem Chain.split {env} : ∀ {Ps Qs : List Prog} {t r rest}, Chain env (Ps ++ Qs) t r rest →
    Ps ≠ [] → Qs ≠ [] → (Chain env Ps t r rest ∧ r ≠ .SUCCESS) ∨
      ∃ u, Chain env Ps t .SUCCESS u ∧ Chain env Qs u r rest
  | [], _, _, _, _, _, h, _ => absurd rfl h
  | P :: Ps, Qs, t, r, rest, h, _, hq => by
    rw [List.cons_append] at h
    generalize hR : Ps ++ Qs = Rs at h
    cases h with
    | last h =>
      have := congrArg List.length hR
      rw [List.length_append, List.length_nil] at this
      cases Qs with
      | nil => exact absurd rfl hq
      | cons => rw [List.length_cons] at this; omega
    | stop h hr => exact .inl ⟨.stop h hr, hr⟩
    | step h1 h2 =>
      subst hR
      cases Ps with
      | nil => exact .inr ⟨_, .last h1, h2⟩
      | cons P' Ps =>
        rcases Chain.split h2 (by simp) hq with ⟨h3, h4⟩ | ⟨u, h3, h4⟩
        · exact .inl ⟨.step h1 h3, h4⟩
        · exact .inr ⟨u, .step h1 h3, h4⟩

/-- A parser that behaves as a chain may be replaced by the chain. -/
theorem Chain.flatten {env S Ys} (hS : ∀ {t r rest}, GhostParses env S t r rest ↔ Chain env Ys t r rest)
    (hy : Ys ≠ []) : ∀ {Xs Zs : List Prog} {t r rest},
    Chain env (Xs ++ S :: Zs) t r rest ↔ Chain env (Xs ++ Ys ++ Zs) t r rest := by
  intro Xs Zs
  induction Xs with
  | cons X Xs ih =>
    intro t r rest
    constructor
    · intro h
      rw [List.cons_append] at h
      generalize hR : Xs ++ S :: Zs = Rs at h
      cases h with
      | last h => have := congrArg List.length hR; simp at this
      | stop h hr => exact .stop h hr
      | step h1 h2 => subst hR; exact .step h1 (ih.1 h2)
    · intro h
      rw [List.cons_append, List.cons_append] at h
      generalize hR : Xs ++ Ys ++ Zs = Rs at h
      cases h with
      | last h =>
        have := congrArg List.length hR
        cases Ys with
        | nil => exact absurd rfl hy
        | cons => simp at this
      | stop h hr => exact .stop h hr
      | step h1 h2 => subst hR; exact .step h1 (ih.2 h2)
  | nil =>
    intro t r rest
    rw [List.nil_append, List.nil_append]
    cases Zs with
    | nil =>
      rw [List.append_nil, ← hS]
      constructor
      · intro h; cases h with
        | last h => exact h
        | stop h => exact h
        | step _ h => cases h
      · exact .last
    | cons Z Zs =>
      constructor
      · intro h
        cases h with
        | stop h hr => exact (hS.1 h).append_fail hr
        | step h1 h2 => exact (hS.1 h1).append h2
      · intro h
        rcases h.split hy (by simp) with ⟨h, hr⟩ | ⟨u, h1, h2⟩
        · exact .stop (hS.2 h) hr
        · exact .step (hS.2 h1) h2

theorem PChain.flatten {env xs ys zs t r rest} (hy : ys ≠ []) :
    PChain env (xs ++ .seq ys :: zs) t r rest ↔ PChain env (xs ++ ys ++ zs) t r rest := by
  unfold PChain
  rw [List.map_append, List.map_cons, List.map_append, List.map_append]
  exact Chain.flatten (fun {t r rest} => ghost_topSeq) (by simpa using hy)

/-! ### Builders -/

theorem seqOp_eq (l r : Pat) : l.seqOp r = .seq (l.elements ++ r.elements) := by
  cases l <;> cases r <;> rfl

theorem altOp_eq (l r : Pat) : l.altOp r = .alt (l.choices ++ r.choices) := by
  cases l <;> cases r <;> rfl

theorem eval_elements : ∀ e : Expr,
    (e.eval Pat.seqOp).elements = e.operands.flatMap Pat.elements
  | .operand p => by simp [Expr.eval, Expr.operands]
  | .op l r => by
    simp only [Expr.eval, Expr.operands, seqOp_eq, List.flatMap_append, ← eval_elements l,
      ← eval_elements r]
    rfl

theorem eval_choices : ∀ e : Expr,
    (e.eval Pat.altOp).choices = e.operands.flatMap Pat.choices
  | .operand p => by simp [Expr.eval, Expr.operands]
  | .op l r => by
    simp only [Expr.eval, Expr.operands, altOp_eq, List.flatMap_append, ← eval_choices l,
      ← eval_choices r]
    rfl

end Abu
