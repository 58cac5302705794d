import Verif.Proofs.Rollback
import Verif.Proofs.Eval
/-
C40: undefined behaviour.
-/
namespace Abu

/-- C40, `parse`: whatever the pattern (also recursive and ill-behaved ones), destination and
text, the run never pops an empty rollback stack, never reads or advances past the data, and no
parser object gets into a state its class does not have: the errors left are those of the
destination memory, of a `Recur` that was never set, and of programs that do not compile. -/
theorem C40_parse_no_rollback_underflow (env : Env) (p : Pat) (dst : Ref) (m : Mem)
    (t : List Ch) (e : Err) (h : Parses env p dst m t (.error e)) :
    e ≠ .ubData ∧ e ≠ .stuck := by
  rw [parses_iff_cursor] at h
  unfold CursorParses at h
  have hmk := mk_owns (call := fun _ _ _ _ _ => .error .stuck) mem_foreignOps env (topParser p)
    dst dst (⟨Cursor.whole t, m⟩ : World Cursor Mem)
  change Post _ _ (construct _ _ _ _) at hmk
  cases hc : construct (topParser p) dst dst (⟨Cursor.whole t, m⟩ : World Cursor Mem) with
  | error e' =>
    rw [hc] at h hmk
    cases h
    exact hmk
  | ok y =>
    obtain ⟨st, w⟩ := y
    rw [hc] at h hmk
    obtain ⟨n, h1, h2, _⟩ := hmk
    obtain ⟨o, ⟨_, k, hk⟩, he⟩ := h
    cases he
    have := run_keeps mem_foreignOps env k _ dst dst st w n 0 h1 (by rw [h2]; simp)
    rw [hk] at this
    exact this

/-- C40, parser objects: the same for every schedule that respects the contract of
`add_buffer`. -/
theorem C40_session_no_rollback_underflow (env : Env) (p : Pat) (dst : Ref) (m : Mem)
    (ops : List SOp) (hl : Legal ops) (e : Err) (h : MakeParserRun env p dst m ops (.error e)) :
    e ≠ .ubData ∧ e ≠ .stuck := by
  have hmk := mk_owns (call := fun _ _ _ _ _ => .error .stuck) mem_foreignOps env (topParser p)
    dst dst (⟨Cursor.start, m⟩ : World Cursor Mem)
  have hop := (construct_feed (topParser p) dst dst (⟨Cursor.start, m⟩ : World Cursor Mem) rfl
    [] false).2
  change Post _ _ (construct _ _ _ _) at hmk
  rcases h.cursor with ⟨e', he, hc⟩ | ⟨st, w, hc, h'⟩
  · cases he
    rw [hc] at hmk
    exact hmk
  · rw [hc] at hmk hop
    obtain ⟨n, h1, h2, _⟩ := hmk
    exact h'.foreign h1 (by rw [h2]; simp) (.inl ⟨hl, hop⟩) rfl

example : Legal [.consume, .add [97] false, .consume, .add [] true, .consume, .consume] := by
  simp [Legal]

/-- Other errors do occur: `int_` on `2147483648` with an `int` destination overflows. -/
example : Parses (fun _ => none) int_ (.at 0 [] .int) ⟨[.num 0], []⟩
    [50, 49, 52, 55, 52, 56, 51, 54, 52, 56] (.error .ubOverflow) :=
  parses_of_parseN (n := 20) rfl

/-- Adding a buffer after the final one breaks the contract. -/
example : MakeParserRun (fun _ => none) .eoi .nil ⟨[], []⟩ [.add [] true, .add [97] true]
    (.error .ubData) := makeParser_of_sessionN (n := 2) rfl rfl

end Abu
