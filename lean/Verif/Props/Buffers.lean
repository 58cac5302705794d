import Verif.Proofs.Buffers
import Verif.Props.Grammar
/-
C61: what a parser object keeps of the buffers it was given.
-/
namespace Abu

/-- C61: a parser object for a pattern that can be decided one character at a time holds, at any
moment, exactly the buffers in which there is still something to read. -/
theorem C61_streaming_holds_only_unread (env : Env) (henv : env.streams) (p : Pat)
    (hp : p.streams false = true) (dst : Ref) (m : Mem) (ops : List SOp) (r : Option Res)
    (w : World ContainerSeq Mem) (h : ParserAfter env p dst m ops r w) (rest : List Ch)
    (hr : Reads w.ds rest) :
    w.ds.buffers.map Buffer.data
      = neededFrom ((opsText ops).length - rest.length) (opsBuffers ops) := by
  obtain ⟨st, h⟩ := h
  obtain ⟨c, hs, hd⟩ := h.cursor
  exact held_of_unmarked hs hd.text
    (hd.unmarked henv.markless (elab_markless (r := DefaultReqs) p rfl hp)) hr

/-- C61: in particular it holds nothing at all each time it asks for more data, however long the
text is and however it was cut. -/
theorem C61_streaming_holds_nothing_between (env : Env) (henv : env.streams) (p : Pat)
    (hp : p.streams false = true) (dst : Ref) (m : Mem) (ops : List SOp)
    (w : World ContainerSeq Mem)
    (h : ParserAfter env p dst m (ops ++ [.consume]) (some .PARTIAL) w) : w.ds.buffers = [] := by
  have hr : Reads w.ds [] := by
    obtain ⟨st, h⟩ := h
    generalize hops : ops ++ [SOp.consume] = ops' at h
    generalize hres : some Res.PARTIAL = r at h
    cases h with
    | made => simp at hops
    | add b f => simp at hops
    | consume _ _ he => cases hres; exact .done he.not_partial.1
  have := C61_streaming_holds_only_unread env henv p hp dst m _ _ w h [] hr
  rw [neededFrom_ge _ _ (by rw [opsBuffers_flatten]; simp)] at this
  simpa using this

/-- C61, for the patterns that look ahead: after the verdict the parser object holds exactly the
buffers in which there is still something to read. Not proved for all patterns: an optional part
that is present leaves its rollback point behind (`C61_refuted`), which the criterion excludes. -/
theorem C61_verdict_leaves_only_unread_partial (env : Env) (els elf : Stale)
    (henv : env.tidy false els elf) (p : Pat)
    (hp : p.tidy false els elf false .none .none = true) (dst : Ref) (m : Mem) (ops : List SOp)
    (r : Res) (hv : r ≠ .PARTIAL) (w : World ContainerSeq Mem)
    (h : ParserAfter env p dst m ops (some r) w) (rest : List Ch) (hr : Reads w.ds rest) :
    w.ds.buffers.map Buffer.data
      = neededFrom ((opsText ops).length - rest.length) (opsBuffers ops) := by
  obtain ⟨st, h⟩ := h
  obtain ⟨c, hs, hd⟩ := h.cursor
  exact held_of_unmarked hs hd.text (hd.closed henv hp hv) hr

/-- `-char_('a') >> *char_('b')`, which needs no lookahead. -/
def optThenMany : Pat := .seq [.opt (.char (.single 97)), .rep 0 0 (.char (.single 98))]

/-- An `a`, then `n` times a `b`, each in a buffer of its own, with `consume` after each. -/
def oneByOne : Nat → List SOp
  | 0 => [.add [97] false, .consume]
  | n + 1 => oneByOne n ++ [.add [98] false] ++ [.consume]

theorem opsBuffers_oneByOne (n : Nat) : opsBuffers (oneByOne n) = [97] :: List.replicate n [98] := by
  induction n with
  | zero => rfl
  | succ n ih =>
    simp only [oneByOne, opsBuffers_append, ih]
    simp [opsBuffers, List.replicate_succ']

theorem optThenMany_step (T : List Ch) (i n : Nat) (m : Mem) (hl : T.length = i + 1)
    (hi : T[i]? = some 98) :
    run noEnv 9 (topParser optThenMany) .nil .nil (.seq 1 (.rep n .unit))
      (⟨⟨T, i, [0], false⟩, m⟩ : World Cursor Mem)
      = .ok ((.PARTIAL, .seq 1 (.rep (n + 1) .unit)), ⟨⟨T, i + 1, [0], false⟩, m⟩) := by
  have h1 : DataSource.empty (⟨T, i, [0], false⟩ : Cursor) = false := by
    show decide (T.length ≤ i) = false
    simp; omega
  have h2 : DataSource.next (⟨T, i, [0], false⟩ : Cursor) = some 98 := hi
  have h3 : DataSource.advance (⟨T, i, [0], false⟩ : Cursor) = some ⟨T, i + 1, [0], false⟩ := by
    refine if_pos ?_
    show i < T.length
    omega
  have h4 : DataSource.empty (⟨T, i + 1, [0], false⟩ : Cursor) = true := by
    show decide (T.length ≤ i + 1) = true
    simp; omega
  have h5 : DataSource.final (⟨T, i + 1, [0], false⟩ : Cursor) = false := rfl
  have e : topParser optThenMany = .seq [some 0, some 1]
    [.opt (.char (.single 97)), .rep 0 0 (.char (.single 98))] := rfl
  have hc : CharSet.isValid (.single 98) 98 = true := rfl
  rw [e]
  simp [run, exec, body, seqDst, guarded, h1, h2, h3, h4, h5, hc, mk, Cmd.bind, Store.op, Mem.run,
    Mem.assign]

theorem optThenMany_driven (n : Nat) (m : Mem) :
    Driven Cursor.addBuffer Cursor.start noEnv (topParser optThenMany) .nil m (oneByOne n)
      (some .PARTIAL) (.seq 1 (.rep n .unit)) ⟨⟨97 :: List.replicate n 98, n + 1, [0], false⟩, m⟩ := by
  induction n with
  | zero =>
    exact .consume (.add (ops := []) [97] false (.made rfl) rfl) (.inl rfl) ⟨by simp, 9, rfl⟩
  | succ n ih =>
    refine .consume (.add [98] false ih rfl) (.inr rfl) ⟨by simp, 9, ?_⟩
    have := optThenMany_step (97 :: List.replicate n 98 ++ [98]) (n + 1) n m (by simp) (by simp)
    rw [show 97 :: List.replicate (n + 1) 98 = 97 :: List.replicate n (98 : Ch) ++ [98] by
      simp [List.replicate_succ']]
    exact this

/-- The claim is false of the code in general: with an optional part that is present
(unary/optional.h:53-56 leaves the rollback point) nothing is ever let go of. Here everything has
been read, `n + 1` buffers arrived, and all of them are still held. -/
theorem C61_refuted (n : Nat) (m : Mem) : ∃ w, ParserAfter noEnv optThenMany .nil m (oneByOne n)
    (some .PARTIAL) w ∧ Reads w.ds [] ∧
    w.ds.buffers.map Buffer.data = [97] :: List.replicate n [98] := by
  obtain ⟨s, hs, hd⟩ := (optThenMany_driven n m).container
  refine ⟨_, ⟨_, hd⟩, .done ?_, ?_⟩
  · rw [hs.empty_eq]
    show decide _ = true
    simp
  · have := hs.retained
    rw [opsBuffers_oneByOne] at this
    rw [this]
    simp [Cursor.oldest, neededFrom]

/-- Also after the verdict: `-char_('a') >> char_('b')` on `a`, `b`. -/
theorem C61_refuted_verdict : ∃ w, ParserAfter noEnv
    (.seq [.opt (.char (.single 97)), .char (.single 98)]) .nil ⟨[], []⟩
    [.add [97] false, .consume, .add [98] true, .consume] (some .SUCCESS) w ∧ Reads w.ds [] ∧
    w.ds.buffers.map Buffer.data = [[97], [98]] :=
  ⟨_, ⟨_, driven_of_driveN (n := 9)
    (ops := [.consume, .add [98] true, .consume, .add [97] false]) rfl⟩, .done rfl, rfl⟩

/-- `uint_ >> lit("ab") >> *char_('b')`, skipping spaces. -/
def streamed : Pat := .withSkipper
  (.seq [.uint 10 1 0, .strLit [97, 98], .rep 0 0 (.char (.single 98))]) (.char (.single 32))

example : streamed.streams false = true := by decide
example : noEnv.streams := fun _ _ h => by cases h
/-- The third buffer is not read to its end when the parser stops. -/
example : ∃ w, ParserAfter noEnv streamed .nil ⟨[], []⟩
    [.add [49] false, .consume, .add [50, 32, 97] false, .consume, .add [98, 98, 99] false,
      .consume] (some .SUCCESS) w ∧ Reads w.ds [99] ∧
    w.ds.buffers.map Buffer.data = [[98, 98, 99]] :=
  ⟨_, ⟨_, driven_of_driveN (n := 19)
    (ops := [.consume, .add [98, 98, 99] false, .consume, .add [50, 32, 97] false, .consume,
      .add [49] false]) rfl⟩, .read rfl rfl rfl (.done rfl), rfl⟩
example : ∃ w, ParserAfter noEnv streamed .nil ⟨[], []⟩
    ([.add [49] false, .consume, .add [50, 32, 97] false] ++ [.consume]) (some .PARTIAL) w :=
  ⟨_, ⟨_, driven_of_driveN (n := 19)
    (ops := [.consume, .add [50, 32, 97] false, .consume, .add [49] false]) rfl⟩⟩

/-- `lit("ab") | lit("ac")`: the first buffer is held until it is decided, and then let go of. -/
def twoWords : Pat := .alt [.strLit [97, 98], .strLit [97, 99]]

example : twoWords.tidy false .none .none false .none .none = true := by decide
example : ∃ w, ParserAfter noEnv twoWords .nil ⟨[], []⟩ [.add [97] false, .consume]
    (some .PARTIAL) w ∧ w.ds.buffers.map Buffer.data = [[97]] :=
  ⟨_, ⟨_, driven_of_driveN (n := 9) (ops := [.consume, .add [97] false]) rfl⟩, rfl⟩
example : ∃ w, ParserAfter noEnv twoWords .nil ⟨[], []⟩
    [.add [97] false, .consume, .add [99, 100] false, .consume] (some .SUCCESS) w ∧
    Reads w.ds [100] ∧ w.ds.buffers.map Buffer.data = [[99, 100]] :=
  ⟨_, ⟨_, driven_of_driveN (n := 9)
    (ops := [.consume, .add [99, 100] false, .consume, .add [97] false]) rfl⟩,
    .read rfl rfl rfl (.done rfl), rfl⟩

end Abu
