import Verif.Props.Grammar
import Verif.Proofs.Sequence
/-
C17, C39: sequences, for arbitrary patterns, and `Recur`.
-/
namespace Abu

/-! ### C17 -/

/-- C17: a sequence succeeds when each element succeeds from where the previous one stopped. -/
theorem C17_sequence_success (env : Env) (ps : List Pat) (t t' : List Ch) (hne : ps ≠ [])
    (h : InTurn (fun p u v => Recognises env p u (some v)) ps t t') :
    Yields env (.seq ps) t (some t') :=
  yields_of_ghost (ghost_topSeq.2 (PChain.of_turn hne h)) .ok

/-- C17: and fails as soon as an element fails. -/
theorem C17_sequence_failure (env : Env) (pre post : List Pat) (q : Pat) (t u : List Ch)
    (h : InTurn (fun p u v => Recognises env p u (some v)) pre t u)
    (hq : Recognises env q u none) : Yields env (.seq (pre ++ q :: post)) t none := by
  obtain ⟨rest, hc⟩ := PChain.of_fail (post := post) h hq
  exact yields_of_ghost (ghost_topSeq.2 hc) .no

/-- C17: a sequence succeeds only so. -/
theorem C17_sequence_success_inv (env : Env) (ps : List Pat) (t t' : List Ch)
    (h : Recognises env (.seq ps) t (some t')) :
    InTurn (fun p u v => Yields env p u (some v)) ps t t' := by
  obtain ⟨r, rest, hg, hf⟩ := h.ghost
  cases hf
  exact (ghost_topSeq.1 hg).turn

/-- C17: a sequence fails only so. -/
theorem C17_sequence_failure_inv (env : Env) (ps : List Pat) (t : List Ch)
    (h : Recognises env (.seq ps) t none) : ∃ pre q post u, ps = pre ++ q :: post ∧
      InTurn (fun p u v => Yields env p u (some v)) pre t u ∧ Yields env q u none := by
  obtain ⟨r, rest, hg, hf⟩ := h.ghost
  cases hf
  exact (ghost_topSeq.1 hg).fails

/-- C17: nesting does not matter to verdict and consumption. -/
theorem C17_nesting (env : Env) (xs ys zs : List Pat) (hy : ys ≠ []) (t : List Ch)
    (o : Option (List Ch)) :
    (Recognises env (.seq (xs ++ .seq ys :: zs)) t o → Yields env (.seq (xs ++ ys ++ zs)) t o) ∧
      (Recognises env (.seq (xs ++ ys ++ zs)) t o →
        Yields env (.seq (xs ++ .seq ys :: zs)) t o) := by
  constructor
  · intro h
    obtain ⟨r, rest, hg, hf⟩ := h.ghost
    exact yields_of_ghost (ghost_topSeq.2 ((PChain.flatten hy).1 (ghost_topSeq.1 hg))) hf
  · intro h
    obtain ⟨r, rest, hg, hf⟩ := h.ghost
    exact yields_of_ghost (ghost_topSeq.2 ((PChain.flatten hy).2 (ghost_topSeq.1 hg))) hf

/-- C17: every grouping of `>>` builds the one sequence of all the elements. -/
theorem C17_builder_flattens (e : Expr) (h : e.compound) :
    e.eval Pat.seqOp = .seq (e.operands.flatMap Pat.elements) := by
  cases e with
  | operand p => exact h.elim
  | op l r =>
    rw [← eval_elements]
    simp only [Expr.eval, seqOp_eq, Pat.elements]

/-- C17: and of `|`, the one alternative of all the choices. -/
theorem C17_builder_flattens_alternatives (e : Expr) (h : e.compound) :
    e.eval Pat.altOp = .alt (e.operands.flatMap Pat.choices) := by
  cases e with
  | operand p => exact h.elim
  | op l r =>
    rw [← eval_choices]
    simp only [Expr.eval, altOp_eq, Pat.choices]

/-- C17: so two groupings of the same operands build the same pattern. -/
theorem C17_grouping_irrelevant (e e' : Expr) (h : e.compound) (h' : e'.compound)
    (ho : e.operands = e'.operands) :
    e.eval Pat.seqOp = e'.eval Pat.seqOp ∧ e.eval Pat.altOp = e'.eval Pat.altOp := by
  rw [C17_builder_flattens e h, C17_builder_flattens e' h', C17_builder_flattens_alternatives e h,
    C17_builder_flattens_alternatives e' h', ho]
  exact ⟨rfl, rfl⟩

/-- `x >> -a >> a` on "xaaz"; not a tidy context, the `Optional` leaks its rollback point. -/
example : Yields noEnv (.seq [lx, .opt la, la]) [120, 97, 97, 122] (some [122]) := by
  refine C17_sequence_success _ _ _ _ (by simp)
    (.cons (t1 := [97, 97, 122]) ?_ (.cons (t1 := [97, 122]) ?_ (.cons (t1 := [122]) ?_ .nil)))
  all_goals exact ⟨.nil, ⟨[], []⟩, _, _, _, parses_of_parseN (n := 10) rfl, .ok⟩

example : Yields noEnv (.seq ([lx, .opt la] ++ la :: [lb])) [120, 97, 122] none := by
  refine C17_sequence_failure _ _ _ _ _ [122] (.cons (t1 := [97, 122]) ?_ (.cons (t1 := [122]) ?_ .nil)) ?_
  · exact ⟨.nil, ⟨[], []⟩, _, _, _, parses_of_parseN (n := 10) rfl, .ok⟩
  · exact ⟨.nil, ⟨[], []⟩, _, _, _, parses_of_parseN (n := 10) rfl, .ok⟩
  · exact ⟨.nil, ⟨[], []⟩, _, _, _, parses_of_parseN (n := 10) rfl, .no⟩

example : Recognises noEnv (.seq [lx, .opt la, la]) [120, 97, 97, 122] (some [122]) :=
  ⟨.nil, ⟨[], []⟩, _, _, _, parses_of_parseN (n := 10) rfl, .ok⟩
example : Recognises noEnv (.seq ([lx] ++ .seq [.opt la, la] :: [lb])) [120, 97, 97, 122] none :=
  ⟨.nil, ⟨[], []⟩, _, _, _, parses_of_parseN (n := 10) rfl, .no⟩

/-- `(a >> b) >> (c >> x)` and `a >> ((b >> c) >> x)` -/
example : (Expr.op (.op (.operand la) (.operand lb)) (.op (.operand lc) (.operand lx))).eval
      Pat.seqOp = .seq [la, lb, lc, lx] ∧
    (Expr.op (.operand la) (.op (.op (.operand lb) (.operand lc)) (.operand lx))).eval
      Pat.seqOp = .seq [la, lb, lc, lx] := ⟨rfl, rfl⟩

/-! ### C39 -/

/-- C39 (partial: patterns other than `apply_skipper`): a `Recur` recognises what its pattern
does. -/
theorem C39_recur_transparent_partial (env : Env) (id : Nat) (n : Bool) (q : Pat)
    (hq : env id = some q) (hs : q.startsWithSkipper = false) (t : List Ch)
    (o : Option (List Ch)) : (Recognises env (.recur id n) t o → Yields env q t o) ∧
      (Recognises env q t o → Yields env (.recur id n) t o) := by
  constructor
  · intro h
    obtain ⟨r, rest, hg, hf⟩ := h.ghost
    rw [ghost_recur hq, elabP_recurChild q hs] at hg
    exact yields_of_ghost hg hf
  · intro h
    obtain ⟨r, rest, hg, hf⟩ := h.ghost
    refine yields_of_ghost (ghost_recur hq |>.2 ?_) hf
    rwa [elabP_recurChild q hs]

/-- C39 (partial: tidy patterns): wherever `Recur`s are used in a pattern, putting the patterns
they stand for in their place does not change what is recognised. -/
theorem C39_recur_inlined_partial (env : Env) (p p' : Pat) (els elf : Stale)
    (henv : env.tidy false els elf) (hp : p.tidy false els elf false .any .any = true)
    (hp' : p'.tidy false els elf false .any .any = true) (hi : Inlined env p p') (t : List Ch)
    (o : Option (List Ch)) : (Recognises env p t o → Yields env p' t o) ∧
      (Recognises env p' t o → Yields env p t o) :=
  ⟨fun h => peg_yields henv hp' ((PegRest.inlined hi).1 (recognises_peg henv hp h)),
   fun h => peg_yields henv hp ((PegRest.inlined hi).2 (recognises_peg henv hp' h))⟩

/-- The `Recur` number 0 stands for `apply_skipper(lit('a'), lit(' '))`. -/
def exSkipEnv : Env := fun id => if id = 0 then some (.withSkipper la (litC 32)) else none

/-- C39 is false for `apply_skipper`: on " a" the pattern succeeds, the `Recur` fails. -/
theorem C39_refuted : Recognises exSkipEnv (.withSkipper la (litC 32)) [32, 97] (some []) ∧
    Recognises exSkipEnv (.recur 0 true) [32, 97] none :=
  ⟨⟨.nil, ⟨[], []⟩, _, _, _, parses_of_parseN (n := 20) rfl, .ok⟩,
    ⟨.nil, ⟨[], []⟩, _, _, _, parses_of_parseN (n := 20) rfl, .no⟩⟩

/-- The `Recur` number 0 stands for `('(' >> r >> ')') | 'x'`. -/
def exParenEnv : Env := fun id =>
  if id = 0 then some (.alt [.seq [litC 40, .recur 0 true, litC 41], lx]) else none

theorem exParenEnv_tidy : exParenEnv.tidy false .none .none := by
  intro id q h
  unfold exParenEnv at h
  split at h
  · cases h; decide
  · cases h

/-- "((x))" -/
example : Recognises exParenEnv (.recur 0 true) [40, 40, 120, 41, 41] (some []) :=
  ⟨.nil, ⟨[], []⟩, _, _, _, parses_of_parseN (n := 40) rfl, .ok⟩

example : Yields exParenEnv (.seq [.alt [.seq [litC 40, .recur 0 true, litC 41], lx], ly])
    [40, 40, 120, 41, 41, 121] (some []) :=
  (C39_recur_inlined_partial exParenEnv (.seq [.recur 0 true, ly]) _ .none .none exParenEnv_tidy
    (by decide) (by decide) (.seq (.cons (.recur rfl) (.cons .refl .nil))) _ _).1
    ⟨.nil, ⟨[], []⟩, _, _, _, parses_of_parseN (n := 60) rfl, .ok⟩

end Abu
