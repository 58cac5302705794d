import Verif.Proofs.Moves
import Verif.Props.Chunks
/-
C81: moves of parser objects.
-/
namespace Abu

/-- C81 (partial: only for programs whose behaviour is defined): after a parser object that has not
answered was moved, a program with defined behaviour ends as it would without the move, with the same
answer, if any, and the same memory. Nothing that was unread at the move is read, and buffers given to
the object that was moved to (`addNew`) play no role. -/
theorem C81_defined_is_right_partial (env : Env) (p : Pat) (dst : Ref) (m : Mem) (ops : List SOp)
    (ops' : List MoveOp) (m1 : Mem) (rest1 : List Ch)
    (h1 : MakeParserRun env p dst m ops (.ok (.PARTIAL, m1, rest1))) (r : Res) (m' : Mem)
    (h : MoveProgram env p dst m ops ops' (.ok (r, m'))) :
    MakeParserRun env p dst m (ops ++ MoveOp.unmoved ops')
      (.ok (r, m', rest1 ++ opsText (MoveOp.unmoved ops'))) := by
  obtain ⟨r0, st, w, hd, hw, ha⟩ := h
  have hs := (hd.session hw [] _).1 (by rw [List.append_nil]; exact h1)
  cases hs with
  | nil hu => exact (hd.session hw _ _).2 (ha.session rfl rfl hu)

/-- C81: a moved object never asks for more text: a program that calls `consume` of the moved object, or
adds text to the data source that it reads, has undefined behaviour or an answer. -/
theorem C81_never_partial (env : Env) (p : Pat) (dst : Ref) (m : Mem) (ops : List SOp)
    (ops' : List MoveOp) (r : Res) (m' : Mem) (h : MoveProgram env p dst m ops ops' (.ok (r, m')))
    (hu : .consume ∈ ops' ∨ ∃ b f, .addOld b f ∈ ops' ∧ b ≠ []) : r ≠ .PARTIAL := by
  rintro rfl
  obtain ⟨_, _, _, _, _, ha⟩ := h
  obtain ⟨i1, i2⟩ := ha.idle rfl
  rcases hu with hu | ⟨b, f, hb, hn⟩
  · exact i1 hu
  · exact hn (i2 b f hb)

/-- C81: if `consume` of the object would, without the move, read any text or return `PARTIAL`, then
`consume` of the moved object has undefined behaviour, whatever follows. -/
theorem C81_reading_is_undefined (env : Env) (p : Pat) (dst : Ref) (m : Mem) (ops : List SOp)
    (m1 : Mem) (rest1 : List Ch) (h1 : MakeParserRun env p dst m ops (.ok (.PARTIAL, m1, rest1)))
    (r : Res) (m2 : Mem) (rest2 : List Ch)
    (h2 : MakeParserRun env p dst m (ops ++ [.consume]) (.ok (r, m2, rest2)))
    (hr : r = .PARTIAL ∨ rest2 ≠ rest1) (ops' : List MoveOp) (v : MoveEnd)
    (h : MoveProgram env p dst m ops (.consume :: ops') v) : v = .error .ubData := by
  obtain ⟨r0, st, w, hd, hw, ha⟩ := h
  have hs := (hd.session hw [] _).1 (by rw [List.append_nil]; exact h1)
  have hs2 := (hd.session hw _ _).1 h2
  cases hs with
  | nil hu =>
    cases hs2 with
    | verdict he hp hrd =>
      exact (AfterMove.undefined hu he hrd (by simpa [opsText] using hr)).1 ha
    | more he hn =>
      cases hn with
      | nil hrd => exact (AfterMove.undefined hu he hrd hr).1 ha

/-- C81: and such a program exists, for every object that got that far. -/
theorem C81_reading_is_undefined_reached (env : Env) (p : Pat) (dst : Ref) (m : Mem) (ops : List SOp)
    (q : Option Res) (w : World ContainerSeq Mem) (hd : ParserAfter env p dst m ops q w)
    (hq : q = none ∨ q = some .PARTIAL) (m1 : Mem) (rest1 : List Ch)
    (h1 : MakeParserRun env p dst m ops (.ok (.PARTIAL, m1, rest1)))
    (r : Res) (m2 : Mem) (rest2 : List Ch)
    (h2 : MakeParserRun env p dst m (ops ++ [.consume]) (.ok (r, m2, rest2)))
    (hr : r = .PARTIAL ∨ rest2 ≠ rest1) (ops' : List MoveOp) :
    MoveProgram env p dst m ops (.consume :: ops') (.error .ubData) := by
  obtain ⟨st, hd⟩ := hd
  have hs := (hd.session hq [] _).1 (by rw [List.append_nil]; exact h1)
  have hs2 := (hd.session hq _ _).1 h2
  refine ⟨q, st, w, hd, hq, ?_⟩
  cases hs with
  | nil hu =>
    cases hs2 with
    | verdict he hp hrd =>
      exact (AfterMove.undefined hu he hrd (by simpa [opsText] using hr)).2 rfl
    | more he hn =>
      cases hn with
      | nil hrd => exact (AfterMove.undefined hu he hrd hr).2 rfl

/-- C81: if the object returned `PARTIAL` before it was moved, then `consume` of the moved object is
undefined, whatever text there is: no program that calls it has defined behaviour. -/
theorem C81_after_partial_is_undefined (env : Env) (p : Pat) (dst : Ref) (m : Mem) (ops : List SOp)
    (w : World ContainerSeq Mem) (hd : ParserAfter env p dst m ops (some .PARTIAL) w) (ops' : List MoveOp)
    (hc : .consume ∈ ops') (v : MoveEnd) (h : MoveProgram env p dst m ops ops' v) :
    v = .error .ubData ∨ v = .error .ubDangling := by
  obtain ⟨st, hd⟩ := hd
  obtain ⟨r0, st0, w0, hd0, _, ha⟩ := h
  obtain ⟨rfl, rfl, rfl⟩ := hd.unique hd0
  exact ha.looks (hd.looks rfl) hc

/-- C81: so what is defined then are the programs that do nothing with the object: the memory stays as it
was. -/
theorem C81_after_partial_nothing (env : Env) (p : Pat) (dst : Ref) (m : Mem) (ops : List SOp)
    (w : World ContainerSeq Mem) (hd : ParserAfter env p dst m ops (some .PARTIAL) w) (ops' : List MoveOp)
    (r : Res) (m' : Mem) (h : MoveProgram env p dst m ops ops' (.ok (r, m'))) :
    r = .PARTIAL ∧ m' = w.mem ∧ .consume ∉ ops' ∧ ∀ b f, .addOld b f ∈ ops' → b = [] := by
  have hc : MoveOp.consume ∉ ops' := fun hc => by
    rcases C81_after_partial_is_undefined env p dst m ops w hd ops' hc _ h with h | h <;> cases h
  obtain ⟨st, hd⟩ := hd
  obtain ⟨r0, st0, w0, hd0, _, ha⟩ := h
  obtain ⟨rfl, rfl, rfl⟩ := hd.unique hd0
  obtain ⟨rfl, rfl⟩ := ha.unasked rfl hc
  exact ⟨rfl, rfl, hc, (ha.idle rfl).2⟩

/-- C81: and `consume` right after the move is reached, and undefined because of the data source. -/
theorem C81_after_partial_reached (env : Env) (p : Pat) (dst : Ref) (m : Mem) (ops : List SOp)
    (w : World ContainerSeq Mem) (hd : ParserAfter env p dst m ops (some .PARTIAL) w) (ops' : List MoveOp) :
    MoveProgram env p dst m ops (.consume :: ops') (.error .ubData) := by
  obtain ⟨st, hd⟩ := hd
  obtain ⟨n, hn⟩ := hd.looks rfl
  exact ⟨_, st, w, hd, .inr rfl, .error ⟨nofun, n, hn _ _⟩⟩

/-- C81: when all text was read before the move, the object in the new place cannot be given any. -/
theorem C81_new_cannot_be_fed (env : Env) (p : Pat) (dst : Ref) (m : Mem) (ops : List SOp) (m1 : Mem)
    (h1 : MakeParserRun env p dst m ops (.ok (.PARTIAL, m1, []))) (b : List Ch) (hb : b ≠ []) (f : Bool)
    (ops' : List MoveOp) (v : MoveEnd) (h : MoveProgram env p dst m ops (.addNew b f :: ops') v) :
    v = .error .ubData := by
  obtain ⟨r0, st, w, hd, hw, ha⟩ := h
  have hs := (hd.session hw [] _).1 (by rw [List.append_nil]; exact h1)
  cases hs with
  | nil hu =>
    cases hu with
    | done he =>
      have hm : w.ds.movedTo = .copied w.ds.final_ := if_pos he
      rw [hm] at ha
      cases ha with
      | addNewBad => rfl
      | addNew hn =>
        simp only [OwnSource.add] at hn
        split at hn
        · cases hn
        · rw [if_neg (by simpa using hb)] at hn; cases hn

/-- C81: otherwise it can be given what it could be given without the move. -/
theorem C81_new_can_be_fed (env : Env) (p : Pat) (dst : Ref) (m : Mem) (ops : List SOp)
    (q : Option Res) (w : World ContainerSeq Mem) (hd : ParserAfter env p dst m ops q w)
    (hq : q = none ∨ q = some .PARTIAL) (m1 : Mem) (rest1 : List Ch)
    (h1 : MakeParserRun env p dst m ops (.ok (.PARTIAL, m1, rest1))) (hr : rest1 ≠ []) (b : List Ch)
    (f : Bool) (r : Res) (m2 : Mem) (rest2 : List Ch)
    (h2 : MakeParserRun env p dst m (ops ++ [.add b f]) (.ok (r, m2, rest2))) :
    MoveProgram env p dst m ops [.addNew b f] (.ok (.PARTIAL, m1)) := by
  obtain ⟨st, hd⟩ := hd
  have hs := (hd.session hq [] _).1 (by rw [List.append_nil]; exact h1)
  have hs2 := (hd.session hq _ _).1 h2
  refine ⟨q, st, w, hd, hq, ?_⟩
  cases hs with
  | nil hu =>
    cases hu with
    | done => exact absurd rfl hr
    | read he =>
      have he : w.ds.empty = false := he
      have hm : w.ds.movedTo = .own w.ds := by simp [ContainerSeq.movedTo, he]
      rw [hm]
      cases hs2 with
      | add ha => exact .addNew (new' := .own _) (by rw [OwnSource.add, ha]; rfl) .nil

/-- C81: `consume` after the end of the object that was moved from is undefined, unless there was an
answer before. -/
theorem C81_needs_the_original (env : Env) (p : Pat) (dst : Ref) (m : Mem) (ops : List SOp)
    (ops1 ops2 ops3 : List MoveOp) (r : Res) (m' : Mem)
    (h : MoveProgram env p dst m ops (ops1 ++ .dropOld :: (ops2 ++ .consume :: ops3)) (.ok (r, m'))) :
    r ≠ .PARTIAL ∧ MoveProgram env p dst m ops ops1 (.ok (r, m')) := by
  obtain ⟨r0, st, w, hd, hw, ha⟩ := h
  exact ⟨ha.before.1, r0, st, w, hd, hw, ha.before.2⟩

/-- C81: nothing else can happen, a program has one end. -/
theorem C81_one_end (env : Env) (p : Pat) (dst : Ref) (m : Mem) (ops : List SOp) (ops' : List MoveOp)
    (v v' : MoveEnd) (h : MoveProgram env p dst m ops ops' v) (h' : MoveProgram env p dst m ops ops' v') :
    v = v' := by
  obtain ⟨r, st, w, hd, _, ha⟩ := h
  obtain ⟨r', st', w', hd', _, ha'⟩ := h'
  obtain ⟨rfl, rfl, rfl⟩ := hd.unique hd'
  exact ha.unique ha'

/-- C81 is false as stated: a parser object that is moved right after it was made, and used from then on
in its new place only, does not do what it would have done in the old one. -/
theorem C81_refuted : ¬ ∀ (env : Env) (p : Pat) (dst : Ref) (m : Mem) (ops : List SOp) (r : Res) (m' : Mem)
    (rest : List Ch), MakeParserRun env p dst m ops (.ok (r, m', rest)) →
    MoveProgram env p dst m [] (ops.map SOp.moved) (.ok (r, m')) := by
  intro h
  have h := h (fun _ => none) (.strLit [97]) .nil ⟨[], []⟩ [.add [97] true, .consume] .SUCCESS ⟨[], []⟩ []
    (makeParser_of_sessionN (n := 5) rfl rfl)
  have h1 := C81_defined_is_right_partial _ _ _ _ _ _ ⟨[], []⟩ []
    (makeParser_of_sessionN (n := 5) rfl rfl) _ _ h
  have h2 : MakeParserRun (fun _ => none) (.strLit [97]) .nil ⟨[], []⟩ [.consume]
    (.ok (.PARTIAL, ⟨[], []⟩, [])) := makeParser_of_sessionN (n := 5) rfl rfl
  obtain ⟨_, _, _, hd, hw, _⟩ := h
  have s1 := (hd.session hw _ _).1 h1
  have s2 := (hd.session hw [.consume] _).1 h2
  generalize hv1 : Except.ok (Res.SUCCESS, (⟨[], []⟩ : Mem), _) = v1 at s1
  generalize hv2 : Except.ok (Res.PARTIAL, (⟨[], []⟩ : Mem), ([] : List Ch)) = v2 at s2
  cases s1 with
  | error => cases hv1
  | more e1 s1 =>
    cases s1
    cases hv1
  | verdict e1 hp _ =>
    cases s2 with
    | error => cases hv2
    | more e2 _ => cases e1.unique e2; exact hp rfl
    | verdict _ hp2 _ =>
      injection hv2 with hv2
      injection hv2 with hv2 _
      exact hp2 hv2.symm

/-! Examples: a parser object for `lit("ab") >> uint_` that got `a` is moved. -/

/-- It waits for more text, so that `consume` of the moved object is undefined. -/
example : MoveProgram (fun _ => none) exPat (.at 0 [] .int) ⟨[.num 7], []⟩ [.add [97] false, .consume]
    [.consume] (.error .ubData) :=
  C81_reading_is_undefined_reached _ _ _ _ _ (some .PARTIAL) _
    ⟨_, driven_of_driveN (n := 20) (ops := [.consume, .add [97] false]) rfl⟩ (.inr rfl) ⟨[.num 7], []⟩ []
    (makeParser_of_sessionN (n := 20) rfl rfl) .PARTIAL ⟨[.num 7], []⟩ []
    (makeParser_of_sessionN (n := 20) rfl rfl) (.inl rfl) []

/-- It got all of the text after it asked for it and before the move, and would answer without reading
any further: it is undefined still. -/
example : MoveProgram (fun _ => none) exPat (.at 0 [] .int) ⟨[.num 7], []⟩
    [.add [97] false, .consume, .add [120] true] [.consume] (.error .ubData) :=
  C81_after_partial_reached _ _ _ _ _ _
    ⟨_, driven_of_driveN (n := 20) (ops := [.add [120] true, .consume, .add [97] false]) rfl⟩ []

example : MakeParserRun (fun _ => none) exPat (.at 0 [] .int) ⟨[.num 7], []⟩
    [.add [97] false, .consume, .add [120] true, .consume] (.ok (.FAILURE, ⟨[.num 7], []⟩, [120])) :=
  makeParser_of_sessionN (n := 20) rfl rfl

/-- Hypotheses of `C81_after_partial_is_undefined` and `C81_after_partial_nothing`. -/
example : Except.error Err.ubDangling = (Except.error Err.ubData : MoveEnd) ∨
    Except.error Err.ubDangling = (Except.error Err.ubDangling : MoveEnd) :=
  C81_after_partial_is_undefined (fun _ => none) exPat (.at 0 [] .int) ⟨[.num 7], []⟩
    [.add [97] false, .consume] _
    ⟨_, driven_of_driveN (n := 20) (ops := [.consume, .add [97] false]) rfl⟩
    [.addOld [] true, .dropOld, .consume] (by simp) _
    ⟨_, _, _, driven_of_driveN (n := 20) (ops := [.consume, .add [97] false]) rfl, .inr rfl,
      .addOld rfl (.dropOld .dangling)⟩

example : ([.num 7] : List Val) = [.num 7] :=
  congrArg Mem.objs (C81_after_partial_nothing (fun _ => none) exPat (.at 0 [] .int) ⟨[.num 7], []⟩
    [.add [97] false, .consume] _
    ⟨_, driven_of_driveN (n := 20) (ops := [.consume, .add [97] false]) rfl⟩
    [.addOld [] true, .dropOld] .PARTIAL ⟨[.num 7], []⟩
    ⟨_, _, _, driven_of_driveN (n := 20) (ops := [.consume, .add [97] false]) rfl, .inr rfl,
      .addOld rfl (.dropOld .nil)⟩).2.1

/-- The rest of the text is given to the object in the new place, where nothing was left. -/
example : MoveProgram (fun _ => none) exPat (.at 0 [] .int) ⟨[.num 7], []⟩ [.add [97] false, .consume]
    [.addNew [98, 49] true, .consume] (.error .ubData) :=
  ⟨_, _, _, driven_of_driveN (n := 20) (ops := [.consume, .add [97] false]) rfl, .inr rfl, .addNewBad rfl⟩

example : MakeParserRun (fun _ => none) exPat (.at 0 [] .int) ⟨[.num 7], []⟩ [.add [97] false, .consume]
    (.ok (.PARTIAL, ⟨[.num 7], []⟩, [])) := makeParser_of_sessionN (n := 20) rfl rfl

/-- The same with text that was not read. -/
example : MoveProgram (fun _ => none) exPat (.at 0 [] .int) ⟨[.num 7], []⟩ [.add [97] false]
    [.addNew [98, 49] true] (.ok (.PARTIAL, ⟨[.num 7], []⟩)) :=
  C81_new_can_be_fed _ _ _ _ _ none _
    ⟨_, driven_of_driveN (n := 20) (ops := [.add [97] false]) rfl⟩ (.inl rfl) _ [97]
    (makeParser_of_sessionN (n := 20) rfl rfl) (by simp) _ _ .PARTIAL ⟨[.num 7], []⟩ [97, 98, 49]
    (makeParser_of_sessionN (n := 20) rfl rfl)

/-- The text is there, but was not read before the move. -/
example : MoveProgram (fun _ => none) exPat (.at 0 [] .int) ⟨[.num 7], []⟩ [.add [97, 98, 49] true]
    [.consume] (.error .ubData) :=
  C81_reading_is_undefined_reached _ _ _ _ _ none _
    ⟨_, driven_of_driveN (n := 20) (ops := [.add [97, 98, 49] true]) rfl⟩ (.inl rfl) ⟨[.num 7], []⟩
    [97, 98, 49] (makeParser_of_sessionN (n := 20) rfl rfl) .SUCCESS ⟨[.num 1], []⟩ []
    (makeParser_of_sessionN (n := 20) rfl rfl) (.inr (by simp)) []

/-- An answer that needs no text: the moved object gives it, and the text stays unread. -/
example : MoveProgram (fun _ => none) .pass .nil ⟨[], []⟩ [.add [97] false] [.consume, .dropOld]
    (.ok (.SUCCESS, ⟨[], []⟩)) :=
  ⟨none, _, _, driven_of_driveN (n := 5) (ops := [.add [97] false]) rfl, .inl rfl,
    .answerN 5 rfl nofun rfl⟩

/-- The same with a rollback point, set by the constructor before there was any text and used after the move. -/
example : MoveProgram (fun _ => none) (.opt .fail) .nil ⟨[], []⟩ [] [.addOld [] true, .consume]
    (.ok (.SUCCESS, ⟨[], []⟩)) :=
  ⟨none, _, _, driven_of_driveN (n := 9) (ops := []) rfl, .inl rfl,
    .addOld rfl (.answerN 9 rfl nofun rfl)⟩

example : MakeParserRun (fun _ => none) .pass .nil ⟨[], []⟩ [.add [97] false, .consume]
    (.ok (.SUCCESS, ⟨[], []⟩, [97])) :=
  C81_defined_is_right_partial _ _ _ _ [.add [97] false] [.consume, .dropOld] ⟨[], []⟩ [97]
    (makeParser_of_sessionN (n := 5) rfl rfl) _ _
    ⟨none, _, _, driven_of_driveN (n := 5) (ops := [.add [97] false]) rfl, .inl rfl,
      .answerN 5 rfl nofun rfl⟩

/-- The object that was moved from is gone. -/
example : MoveProgram (fun _ => none) .pass .nil ⟨[], []⟩ [] [.dropOld, .consume] (.error .ubDangling) :=
  ⟨none, _, _, driven_of_driveN (n := 5) (ops := []) rfl, .inl rfl, .dropOld .dangling⟩

/-- Hypotheses of `C81_never_partial` and `C81_needs_the_original`. -/
example : Res.SUCCESS ≠ .PARTIAL :=
  C81_never_partial (fun _ => none) .pass .nil ⟨[], []⟩ [] [.consume] .SUCCESS ⟨[], []⟩
    ⟨none, _, _, driven_of_driveN (n := 5) (ops := []) rfl, .inl rfl, .answerN 5 rfl nofun rfl⟩
    (.inl (by simp))

example : MoveProgram (fun _ => none) .pass .nil ⟨[], []⟩ [] [.consume] (.ok (.SUCCESS, ⟨[], []⟩)) :=
  (C81_needs_the_original (fun _ => none) .pass .nil ⟨[], []⟩ [] [.consume] [] [] .SUCCESS ⟨[], []⟩
    ⟨none, _, _, driven_of_driveN (n := 5) (ops := []) rfl, .inl rfl,
      .answerN 5 rfl nofun rfl⟩).2

end Abu
