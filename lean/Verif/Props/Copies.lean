import Verif.Proofs.Copies
import Verif.Props.Chunks
/-
C78: copies of parser objects.
-/
namespace Abu

/-- C78 (partial: the original is kept, it is its data source that gets the buffers, and it is not used
otherwise): a copy of a parser object goes on where the original was when it was copied. Whatever
a single object does with `ops1`, after which it has not answered yet, and `ops2`, is what happens
when it is copied in between and `consume` of the copy is called instead: the same undefined
behaviour, or the same answer, unread text, calls of actions, and contents of everything that
existed before. -/
theorem C78_a_copy_goes_on_partial (env : Env) (p : Pat) (hc : p.copyable = true) (dst : Ref) (m : Mem)
    (hd : dst.Inside m.objs.length) (ops1 ops2 : List SOp) (m1 : Mem) (rest1 : List Ch)
    (h1 : MakeParserRun env p dst m ops1 (.ok (.PARTIAL, m1, rest1))) (v : Verdict)
    (h : MakeParserRun env p dst m (ops1 ++ ops2) v) (j : Nat) (hj : j ≠ 0) :
    ∃ v', CopyProgram env p dst m (ops1.map (SOp.by 0 0) ++ .copy 0 j :: ops2.map (SOp.by 0 j)) v' ∧
      SameEnd j m.objs.length ops2 v v' := by
  obtain ⟨θ1, st1, w1, a1, a2, a3, _, a4, a5⟩ := copied_prefix hd h1 h hj
  obtain ⟨v', hv, he⟩ := session_copied (p := p) (k := m.objs.length) (who := j) a3 (copyPlace_ok a3)
    (fun o ho => by simp only [copyPlace, if_pos ho]) hd.move a4
    (θ := setCopy θ1 j (.live (st1.move (copyPlace m.objs.length w1.mem.objs.length)) (.copied w1.ds.final_) 0))
    (copyPlace_memR a3) ⟨⟨.copied w1.ds.final_, by simp only [setCopy, if_true]⟩, ⟨st1, by simp [setCopy, Ne.symm hj, a1]⟩⟩
  refine ⟨v', a5 _ _ (.copy hc a1 a2 ?_), he⟩
  rw [PState.copyAt_move]
  exact hv

/-- C78: the original goes on as well, as if it had not been copied. -/
theorem C78_the_original_goes_on_partial (env : Env) (p : Pat) (hc : p.copyable = true) (dst : Ref) (m : Mem)
    (hd : dst.Inside m.objs.length) (ops1 ops2 : List SOp) (m1 : Mem) (rest1 : List Ch)
    (h1 : MakeParserRun env p dst m ops1 (.ok (.PARTIAL, m1, rest1))) (v : Verdict)
    (h : MakeParserRun env p dst m (ops1 ++ ops2) v) (j : Nat) (hj : j ≠ 0) :
    ∃ v', CopyProgram env p dst m (ops1.map (SOp.by 0 0) ++ .copy 0 j :: ops2.map (SOp.by 0 0)) v' ∧
      SameEnd 0 m.objs.length ops2 v v' := by
  obtain ⟨θ1, st1, w1, a1, a2, a3, ab, a4, a5⟩ := copied_prefix hd h1 h hj
  obtain ⟨v', hv, he⟩ := session_copied (p := p) (k := m.objs.length) (who := 0) a3
    (keepPlace_ok (n' := w1.mem.objs.length + (w1.mem.objs.length - m.objs.length)) (by omega))
    (fun o ho => by simp only [keepPlace, if_pos (show o < w1.mem.objs.length by omega)])
    (Ref.move_keep (hd.below.mono a3)) a4 (θ := setCopy θ1 j (.live _ (.copied w1.ds.final_) 0))
    keepPlace_memR ⟨⟨.own w1.ds, by simp [setCopy, Ne.symm hj, a1, PState.move_keep ab]⟩,
      ⟨st1, by simp [setCopy, Ne.symm hj, a1]⟩⟩
  exact ⟨v', a5 _ _ (.copy hc a1 a2 hv), he⟩

/-- C78: nothing else can happen, a program has one end. -/
theorem C78_one_end (env : Env) (p : Pat) (dst : Ref) (m : Mem) (ops : List CopyOp) (v v' : CopyEnd)
    (h : CopyProgram env p dst m ops v) (h' : CopyProgram env p dst m ops v') : v = v' := by
  cases h with
  | construct h0 =>
    cases h' with
    | construct h0' => rw [h0] at h0'; cases h0'; rfl
    | run h0' _ => rw [h0] at h0'; cases h0'
  | run h0 h =>
    cases h' with
    | construct h0' => rw [h0] at h0'; cases h0'
    | run h0' h' => rw [h0] at h0'; cases h0'; exact h.unique h'

/-- C78: but no copy can be fed: a program that adds text to a copy has undefined behaviour, unless
there was an answer before. -/
theorem C78_a_copy_cannot_be_fed (env : Env) (p : Pat) (dst : Ref) (m : Mem) (ops1 ops2 : List CopyOp)
    (j : Nat) (hj : j ≠ 0) (b : List Ch) (hb : b ≠ []) (f : Bool) (a : Option Answer)
    (θ : Nat → CopyObj) (M : Mem)
    (h : CopyProgram env p dst m (ops1 ++ .add j b f :: ops2) (.ok (a, θ, M))) :
    a ≠ none ∧ CopyProgram env p dst m ops1 (.ok (a, θ, M)) := by
  cases h with
  | run h0 h =>
    rcases h.append with ⟨h1, h2⟩ | ⟨θ', m', h1, h2⟩
    · exact ⟨fun ha => h2 θ M (by rw [ha]), .run h0 h1⟩
    · exfalso
      have hi := h1.inv (.start _ _) rfl
      cases h2 with
      | @add _ _ _ _ src _ _ _ _ _ _ h3 h4 _ =>
        cases src with
        | own s => exact hj (hi.copied _ _ _ _ h3)
        | copied fl =>
          simp only [OwnSource.add] at h4
          split at h4
          · cases h4
          · rw [if_neg (by simpa using hb)] at h4
            cases h4

/-- C78: and no copy can be used when the original is gone: a program that calls `consume` after the
original has been destroyed has undefined behaviour, unless there was an answer before. -/
theorem C78_a_copy_needs_the_original (env : Env) (p : Pat) (dst : Ref) (m : Mem)
    (ops1 ops2 ops3 : List CopyOp) (j : Nat) (a : Option Answer) (θ : Nat → CopyObj) (M : Mem)
    (h : CopyProgram env p dst m (ops1 ++ .destroy 0 :: (ops2 ++ .consume j :: ops3)) (.ok (a, θ, M))) :
    a ≠ none ∧ CopyProgram env p dst m ops1 (.ok (a, θ, M)) := by
  cases h with
  | run h0 h =>
    rcases h.append with ⟨h1, h2⟩ | ⟨θ', m', h1, h2⟩
    · exact ⟨fun ha => h2 θ M (by rw [ha]), .run h0 h1⟩
    · exfalso
      have hi := h1.inv (.start _ _) rfl
      cases h2 with
      | destroy h3 h2 =>
        exact h2.gone_error hi.gone (by simp [setCopy]) j (by simp) _ rfl

/-- C78: which objects can be copied: a program that copies one right after making it has a meaning only
if no part of the pattern is a `Recur`. -/
theorem C78_recur_cannot_be_copied (env : Env) (p : Pat) (dst : Ref) (m : Mem) (ops : List CopyOp) (j : Nat)
    (a : Option Answer) (θ : Nat → CopyObj) (M : Mem)
    (h : CopyProgram env p dst m (.copy 0 j :: ops) (.ok (a, θ, M))) : ¬ p.HasRecur := by
  intro hr
  cases h with
  | run _ h =>
    cases h with
    | copy hc _ _ _ => rw [hr.not_copyable] at hc; cases hc

/-- C78: all others can. -/
theorem C78_others_can_be_copied (env : Env) (p : Pat) (hp : ¬ p.HasRecur) (dst : Ref) (m : Mem)
    (st : PState) (w : World ContainerSeq Mem)
    (hc : construct (topParser p) dst dst (⟨ContainerSeq.make, m⟩ : World ContainerSeq Mem) = .ok (st, w))
    (j : Nat) (hj : j ≠ 0) : ∃ θ M, CopyProgram env p dst m [.copy 0 j] (.ok (none, θ, M)) :=
  ⟨_, _, .run hc (.copy (p.copyable_of hp) (if_pos rfl) (if_neg hj) .nil)⟩

example : ∃ θ M, CopyProgram (fun _ => none) exPat (.at 0 [] .int) ⟨[.num 7], []⟩ [.copy 0 1]
    (.ok (none, θ, M)) :=
  C78_others_can_be_copied _ _ (fun h => by have := h.not_copyable; simp [exPat, Pat.seqOp, uint_, Pat.copyable, Pat.copyables] at this) _ _ _ _ rfl 1 Nat.one_ne_zero

/-- C78 is false as stated: a copy of a parser object is not an object of its own. -/
theorem C78_refuted : ¬ ∀ (env : Env) (p : Pat) (dst : Ref) (m : Mem) (ops : List SOp) (v : Verdict),
    p.copyable = true → MakeParserRun env p dst m ops v →
    ∃ v', CopyProgram env p dst m (.copy 0 1 :: ops.map (SOp.by 1 1)) v' ∧
      SameEnd 1 m.objs.length ops v v' := by
  intro h
  obtain ⟨v', hv, hs⟩ := h (fun _ => none) (.strLit [97]) .nil ⟨[], []⟩ [.add [97] true, .consume]
    (.ok (.SUCCESS, ⟨[], []⟩, [])) rfl (makeParser_of_sessionN (n := 5) rfl rfl)
  cases v' with
  | error e => exact hs.noError
  | ok x =>
    obtain ⟨a, θ, M⟩ := x
    obtain ⟨ha, hp⟩ := C78_a_copy_cannot_be_fed _ _ _ _ [.copy 0 1] _ 1 (by decide) [97] (by simp) true a θ M hv
    cases hp with
    | run _ h =>
      cases h with
      | copy _ _ _ h => cases h; exact ha rfl

/-- C78 is false as well when the original is used once more, before the copy: the copy then does not see
the text that the original has read in the meantime. -/
theorem C78_refuted_in_turns : ¬ ∀ (env : Env) (p : Pat) (dst : Ref) (m : Mem) (ops1 ops2 : List SOp) (m1 : Mem)
    (rest1 : List Ch) (v : Verdict), p.copyable = true → MakeParserRun env p dst m ops1 (.ok (.PARTIAL, m1, rest1)) →
    MakeParserRun env p dst m (ops1 ++ ops2) v →
    ∃ v', CopyProgram env p dst m (ops1.map (SOp.by 0 0) ++ .copy 0 1 :: .consume 0 :: ops2.map (SOp.by 0 1)) v' ∧
      SameEnd 1 m.objs.length ops2 v v' := by
  intro h
  obtain ⟨v', hv, hs⟩ := h (fun _ => none) (.strLit [97, 98]) .nil ⟨[], []⟩ [.add [97] false]
    [.add [98] true, .consume] ⟨[], []⟩ [97] (.ok (.SUCCESS, ⟨[], []⟩, [])) rfl
    (makeParser_of_sessionN (n := 5) rfl rfl) (makeParser_of_sessionN (n := 5) rfl rfl)
  have h2 : ∃ θ M, CopyProgram (fun _ => none) (.strLit [97, 98]) .nil ⟨[], []⟩
      [.add 0 [97] false, .copy 0 1, .consume 0, .add 0 [98] true, .consume 1]
      (.ok (some ⟨1, .FAILURE, [98]⟩, θ, M)) :=
    ⟨_, _, .run rfl (.add rfl rfl (.copy rfl rfl rfl (.more rfl rfl ⟨by simp, 5, rfl⟩
      (.add rfl rfl (.answer rfl rfl ⟨by simp, 5, rfl⟩ (by simp) (.read rfl rfl rfl (.done rfl)))))))⟩
  obtain ⟨θ, M, h2⟩ := h2
  have := C78_one_end _ _ _ _ _ _ _ hv h2
  subst this
  generalize he : Except.ok (Res.SUCCESS, (⟨[], []⟩ : Mem), ([] : List Ch)) = v at hs
  cases hs
  injection he with he
  injection he with he
  cases he

/-! Examples: a parser object for `lit("ab") >> uint_` that got `a` is copied. -/

/-- The copy, with the rest of `ab12` added to the data source of the original, stores 12. -/
example : ∃ θ M, CopyProgram (fun _ => none) exPat (.at 0 [] .int) ⟨[.num 7], []⟩
    ([.add 0 [97] false, .consume 0] ++ .copy 0 1 :: [.add 0 [98, 49, 50] true, .consume 1])
      (.ok (some ⟨1, .SUCCESS, []⟩, θ, M)) ∧ M.objs[0]? = some (.num 12) := by
  obtain ⟨v', h1, h2⟩ := C78_a_copy_goes_on_partial (fun _ => none) exPat rfl (.at 0 [] .int) ⟨[.num 7], []⟩
    (by intro o p t h; cases h; exact Nat.one_pos) [.add [97] false, .consume]
    [.add [98, 49, 50] true, .consume] ⟨[.num 7], []⟩ [] (makeParser_of_sessionN (n := 20) rfl rfl)
    (.ok (.SUCCESS, ⟨[.num 12], []⟩, [])) (makeParser_of_sessionN (n := 20) rfl rfl) 1 Nat.one_ne_zero
  generalize hv : Except.ok (Res.SUCCESS, (⟨[.num 12], []⟩ : Mem), ([] : List Ch)) = v at h2
  cases h2 with
  | error => cases hv
  | unanswered => cases hv
  | @answered r m rest θ M before left hl ho hops =>
    injection hv with hv
    injection hv with hr hv
    injection hv with hm hrest
    obtain ⟨rfl, _⟩ := List.append_eq_nil_iff.1 hrest.symm
    subst hr
    exact ⟨θ, M, h1, by rw [ho 0 Nat.one_pos, ← hm]; rfl⟩

/-- Feeding the copy is undefined. -/
example : CopyProgram (fun _ => none) exPat (.at 0 [] .int) ⟨[.num 7], []⟩
    [.copy 0 1, .add 1 [97] false] (.error .ubData) :=
  .run rfl (.copy rfl rfl rfl (.addBad rfl rfl))

/-- So is using it without the original. -/
example : CopyProgram (fun _ => none) exPat (.at 0 [] .int) ⟨[.num 7], []⟩
    [.copy 0 1, .destroy 0, .consume 1] (.error .ubDangling) :=
  .run rfl (.copy rfl rfl rfl (.destroy rfl (.dangling rfl rfl)))

/-- A program that answers before it destroys the original: the hypotheses of
`C78_a_copy_needs_the_original` and of `C78_a_copy_cannot_be_fed` can be met. -/
example : ∃ θ M, CopyProgram (fun _ => none) (.strLit [97]) .nil ⟨[], []⟩
    ([.copy 0 1, .add 0 [97] false, .consume 1] ++ .destroy 0 :: ([.add 1 [97] true] ++ .consume 1 :: []))
      (.ok (some ⟨1, .SUCCESS, []⟩, θ, M)) :=
  ⟨_, _, .run rfl (.copy rfl rfl rfl (.add rfl rfl (.answer rfl rfl ⟨by simp, 5, rfl⟩ (by simp) (.done rfl))))⟩

end Abu
