import Verif.Proofs.Eval
/-
C05, C25 - C28: delivery of the text to a parser object.
-/
namespace Abu

/-- C25: whatever the way a complete text is cut into buffers and whenever `consume` is called,
the verdicts (result, destinations and action calls, unread text, or undefined behaviour) a
parser object can end with are exactly those of `parse` on the whole text at once. In
particular one terminates iff the other does. -/
theorem C25_delivery_is_not_observable (env : Env) (p : Pat) (dst : Ref) (m : Mem)
    (ops : List SOp) (hc : Complete ops) (v : Verdict) :
    MakeParserRun env p dst m ops v ↔ Parses env p dst m (opsText ops) v := by
  rw [makeParser_iff_cursor env p dst m hc, parses_iff_cursor]

/-- C25: two ways of delivering the same text. -/
theorem C25_any_two_deliveries_agree (env : Env) (p : Pat) (dst : Ref) (m : Mem)
    (ops ops' : List SOp) (hc : Complete ops) (hc' : Complete ops')
    (ht : opsText ops = opsText ops') (v : Verdict) :
    MakeParserRun env p dst m ops v ↔ MakeParserRun env p dst m ops' v := by
  rw [C25_delivery_is_not_observable _ _ _ _ _ hc, C25_delivery_is_not_observable _ _ _ _ _ hc', ht]

/-- C25: parsing is deterministic: there is at most one verdict. -/
theorem C25_deterministic (env : Env) (p : Pat) (dst : Ref) (m : Mem) (ops : List SOp)
    (hc : Complete ops) (v v' : Verdict) (h : MakeParserRun env p dst m ops v)
    (h' : MakeParserRun env p dst m ops v') : v = v' := by
  rw [C25_delivery_is_not_observable _ _ _ _ _ hc] at h h'
  exact h.unique h'

/-- `lit("ab") >> uint_`. -/
def exPat : Pat := .seqOp (.strLit [97, 98]) uint_
/-- The text `ab12` in three buffers, one of them empty. -/
def exOps : List SOp :=
  [.consume, .add [97] false, .consume, .add [] false, .consume, .consume,
    .add [98, 49] false, .add [50] true, .consume]

example : Complete exOps := ⟨trivial, rfl⟩

example : MakeParserRun (fun _ => none) exPat (.at 0 [] .int) ⟨[.num 7], []⟩ exOps
    (.ok (.SUCCESS, ⟨[.num 12], []⟩, [])) := by
  rw [C25_delivery_is_not_observable _ _ _ _ exOps ⟨trivial, rfl⟩]
  exact parses_of_parseN (n := 20) rfl

/-- C05: a parser object that gets the text as one final buffer against `parse`. -/
theorem C05_parse_agrees_with_one_buffer (env : Env) (p : Pat) (dst : Ref) (m : Mem)
    (t : List Ch) (v : Verdict) :
    MakeParserRun env p dst m [.add t true, .consume] v ↔ Parses env p dst m t v := by
  have := C25_delivery_is_not_observable env p dst m [.add t true, .consume] ⟨trivial, rfl⟩ v
  simpa [opsText] using this

example : Parses (fun _ => none) exPat (.at 0 [] .int) ⟨[.num 7], []⟩ [97, 98, 51, 120]
    (.ok (.SUCCESS, ⟨[.num 3], []⟩, [120])) := parses_of_parseN (n := 20) rfl

/-- C26: `parse` never answers `PARTIAL`. -/
theorem C26_parse_is_never_partial (env : Env) (p : Pat) (dst : Ref) (m : Mem) (t : List Ch)
    (m' : Mem) (rest : List Ch) : ¬ Parses env p dst m t (.ok (.PARTIAL, m', rest)) := by
  intro h
  generalize hv : (Except.ok (Res.PARTIAL, m', rest) : Verdict) = v at h
  cases h with
  | construct => cases hv
  | error => cases hv
  | ok _ h _ =>
    cases hv
    have := h.not_partial.2
    cases this

/-- C26: once the final buffer was added and `consume` called, there is a verdict. -/
theorem C26_verdict_after_final_buffer (env : Env) (p : Pat) (dst : Ref) (m : Mem)
    (ops : List SOp) (hc : Complete ops) (m' : Mem) (rest : List Ch) :
    ¬ MakeParserRun env p dst m ops (.ok (.PARTIAL, m', rest)) := by
  rw [C25_delivery_is_not_observable _ _ _ _ _ hc]
  exact C26_parse_is_never_partial env p dst m _ m' rest

/-- C27: if the last `consume` answered `PARTIAL` then everything supplied so far has been read
and the input was not declared finished. -/
theorem C27_partial_only_when_starved (env : Env) (p : Pat) (dst : Ref) (m : Mem)
    (ops : List SOp) (m' : Mem) (rest : List Ch)
    (h : MakeParserRun env p dst m (ops ++ [.consume]) (.ok (.PARTIAL, m', rest))) :
    rest = [] ∧ Unfinished ops := by
  rcases h.cursor with ⟨e, he, _⟩ | ⟨st, w, _, h'⟩
  · cases he
  · obtain ⟨h1, h2, _⟩ := h'.partial_starved
    exact ⟨h1, h2⟩

/-- C28: a verdict given before the input was declared finished is the verdict of `parse` on
every continuation `t` of the text supplied so far, with the same destinations and action
calls, and what is left unread is what was left unread followed by the continuation. -/
theorem C28_early_verdict_is_definitive (env : Env) (p : Pat) (dst : Ref) (m : Mem)
    (ops : List SOp) (hu : Unfinished ops) (r : Res) (hr : r ≠ .PARTIAL) (m' : Mem)
    (rest : List Ch) (h : MakeParserRun env p dst m ops (.ok (r, m', rest))) (t : List Ch) :
    Parses env p dst m (opsText ops ++ t) (.ok (r, m', rest ++ t)) := by
  have hc := complete_of_unfinished hu t
  have key := C25_delivery_is_not_observable env p dst m _ hc (.ok (r, m', rest ++ t))
  rw [opsText_append] at key
  simp only [opsText, List.append_nil] at key
  rw [← key]
  generalize hv : (Except.ok (r, m', rest) : Verdict) = v at h
  cases h with
  | construct => cases hv
  | run hcon h' =>
    subst hv
    refine .run hcon ?_
    have := h'.early (fun m rest heq => by cases heq; exact hr rfl) [.add t true, .consume]
    simpa [opsText, Except.map] using this

/-- C28: undefined behaviour met early is met on every continuation. -/
theorem C28_early_error_is_definitive (env : Env) (p : Pat) (dst : Ref) (m : Mem)
    (ops : List SOp) (hu : Unfinished ops) (e : Err)
    (h : MakeParserRun env p dst m ops (.error e)) (t : List Ch) :
    Parses env p dst m (opsText ops ++ t) (.error e) := by
  have hc := complete_of_unfinished hu t
  have key := C25_delivery_is_not_observable env p dst m _ hc (.error e)
  rw [opsText_append] at key
  simp only [opsText, List.append_nil] at key
  rw [← key]
  cases h with
  | construct h => exact .construct h
  | run hcon h' =>
    exact .run hcon (h'.early (fun m rest heq => by cases heq) [.add t true, .consume])

/-- A parser object for `lit("ab")` that got `a`, then `bc`, answers before the end of the
input. -/
example : ∃ m' rest, MakeParserRun (fun _ => none) (.strLit [97, 98]) .nil ⟨[], []⟩
    [.add [97] false, .consume, .add [98, 99] false, .consume] (.ok (.SUCCESS, m', rest)) := by
  exact ⟨⟨[], []⟩, [99], makeParser_of_sessionN (n := 5) rfl rfl⟩

/-- And `PARTIAL` does occur. -/
example : MakeParserRun (fun _ => none) (.strLit [97, 98]) .nil ⟨[], []⟩
    ([.add [97] false] ++ [.consume]) (.ok (.PARTIAL, ⟨[], []⟩, [])) :=
  makeParser_of_sessionN (n := 5) rfl rfl

end Abu
