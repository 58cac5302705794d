import Verif.Proofs.DataSource
/-
C01 - C04: the buffer sequence of the library against the plain cursor.
-/
namespace Abu

/-- C01: after every sequence of operations that respects the contracts (the cursor accepts
it), the library's buffer sequence answers `empty`, `final_buffer` and `next` like the cursor
over the concatenation of all text added so far, and reading on to the end of what was
supplied yields exactly the rest of that text. -/
theorem C01_buffers_read_like_one_stream (ops : List DsOp) (c : Cursor)
    (hc : Cursor.after ops = some c) :
    ∃ s, ContainerSeq.after ops = some s ∧
      DataSource.empty s = DataSource.empty c ∧
      DataSource.final s = DataSource.final c ∧
      DataSource.next s = DataSource.next c ∧
      c.text = addedText ops ∧
      Reads s ((addedText ops).drop c.pos) := by
  have h := ContainerSeq.sim_after ops
  rw [hc] at h
  cases hs : ContainerSeq.after ops with
  | none => rw [hs] at h; cases h
  | some s =>
    rw [hs] at h
    cases h with
    | some h =>
      have ht : c.text = addedText ops := by
        simpa [Cursor.start] using Cursor.steps_text hc
      refine ⟨s, rfl, h.empty_eq, h.final_eq, h.next_eq, ht, ?_⟩
      rw [← ht]
      exact ContainerSeq.dsSim.reads ⟨_, h⟩ c.reads_drop

/-- C01: how the text is cut into buffers is not observable. Two histories that the cursor
cannot tell apart leave sources with the same observations. -/
theorem C01_cutting_is_not_observable (ops ops' : List DsOp) (c : Cursor)
    (h : Cursor.after ops = some c) (h' : Cursor.after ops' = some c) :
    ∃ s s', ContainerSeq.after ops = some s ∧ ContainerSeq.after ops' = some s' ∧
      DataSource.empty s = DataSource.empty s' ∧ DataSource.final s = DataSource.final s' ∧
      DataSource.next s = DataSource.next s' ∧ (∀ t, Reads s t ↔ Reads s' t) := by
  obtain ⟨s, e, h1, h2, h3, h4, h5⟩ := C01_buffers_read_like_one_stream ops c h
  obtain ⟨s', e', h1', h2', h3', h4', h5'⟩ := C01_buffers_read_like_one_stream ops' c h'
  refine ⟨s, s', e, e', h1.trans h1'.symm, h2.trans h2'.symm, h3.trans h3'.symm, fun t => ?_⟩
  rw [← h4] at h5
  rw [← h4'] at h5'
  constructor
  · intro ht; rw [ht.unique h5]; exact h5'
  · intro ht; rw [ht.unique h5']; exact h5

/-- C02: the library's buffer sequence has undefined behaviour only when a contract is
broken: a sequence of operations is free of undefined behaviour iff the plain cursor accepts
it. -/
theorem C02_undefined_iff_contract_broken (ops : List DsOp) :
    ContainerSeq.after ops = none ↔ Cursor.after ops = none := by
  have h := ContainerSeq.sim_after ops
  generalize ContainerSeq.after ops = s at h
  generalize Cursor.after ops = c at h
  cases h <;> simp

/-- C02: reading is defined whenever the source says it is not empty. -/
theorem C02_next_and_advance_defined (ops : List DsOp) (s : ContainerSeq)
    (hs : ContainerSeq.after ops = some s) (hne : DataSource.empty s = false) :
    ∃ c s', DataSource.next s = some c ∧ DataSource.advance s = some s' := by
  have h := ContainerSeq.sim_after ops
  rw [hs] at h
  generalize Cursor.after ops = c at h
  cases h with
  | @some _ c h =>
    have he := h.empty_eq
    rw [hne] at he
    have hlt : c.pos < c.text.length := by
      have : decide (c.text.length ≤ c.pos) = false := he.symm
      simpa using this
    have hn : DataSource.next s = some c.text[c.pos] := by
      rw [h.next_eq]; show c.text[c.pos]? = _; simp [hlt]
    have ha := h.advance_rel
    have : DataSource.advance c = some { c with pos := c.pos + 1 } := by
      show (if _ then _ else _) = _; rw [if_pos hlt]
    rw [this] at ha
    generalize hx : ContainerSeq.advance s = x at ha
    cases ha with
    | some ha => exact ⟨_, _, hn, hx⟩

/-- C03: the buffers still held are exactly the non-empty ones from the buffer containing
the oldest live rollback point (the current position when there is none). -/
theorem C03_exactly_the_needed_buffers_are_held (ops : List DsOp) (s : ContainerSeq)
    (c : Cursor) (hs : ContainerSeq.after ops = some s) (hc : Cursor.after ops = some c) :
    s.buffers.map Buffer.data = neededFrom c.oldest (addedBuffers ops) := by
  have h := ContainerSeq.sim_after ops
  rw [hs, hc] at h
  cases h with
  | some h => exact h.retained

/-- C03: in particular a source that was read to its end and has no rollback point left
holds no buffer at all. -/
theorem C03_nothing_held_at_the_end (ops : List DsOp) (s : ContainerSeq) (c : Cursor)
    (hs : ContainerSeq.after ops = some s) (hc : Cursor.after ops = some c)
    (he : DataSource.empty s = true) (hsv : c.saved = []) : s.buffers = [] := by
  have h := C03_exactly_the_needed_buffers_are_held ops s c hs hc
  obtain ⟨s', e, h1, -, -, h4, -⟩ := C01_buffers_read_like_one_stream ops c hc
  rw [hs] at e; cases e
  rw [h1] at he
  have hle : c.text.length ≤ c.pos := by
    have : decide (c.text.length ≤ c.pos) = true := he
    simpa using this
  have hb : (addedBuffers ops).flatten = addedText ops := by
    clear h hs hc h1 he h4 hle
    induction ops with
    | nil => rfl
    | cons op ops ih =>
      cases op <;> simp [addedBuffers, addedText, ih]
      split <;> simp_all
  have : neededFrom c.oldest (addedBuffers ops) = [] := by
    apply neededFrom_ge
    rw [hb, ← h4]; simp [Cursor.oldest, hsv]; exact hle
  rw [this] at h
  simpa using h

/-- C04: committing returns to exactly the place of the matching `prepare_rollback`: the
remaining input is the one there was, extended by the text that arrived in between, and the
older rollback points are untouched. -/
theorem C04_commit_returns_to_the_mark (pre mid : List DsOp) (hb : Balanced mid)
    (s s' : ContainerSeq) (c c' : Cursor) (t : List Ch)
    (h : ContainerSeq.after pre = some s)
    (h' : ContainerSeq.after (pre ++ .prepare :: mid ++ [.commit]) = some s')
    (hc : Cursor.after pre = some c)
    (hc' : Cursor.after (pre ++ .prepare :: mid ++ [.commit]) = some c')
    (ht : Reads s t) :
    Reads s' (t ++ addedText mid) ∧ c'.saved = c.saved := by
  obtain ⟨s1, e1, -, -, -, h4, h5⟩ := C01_buffers_read_like_one_stream _ c hc
  rw [h] at e1; cases e1
  obtain ⟨s1, e1, -, -, -, h4', h5'⟩ := C01_buffers_read_like_one_stream _ c' hc'
  rw [h'] at e1; cases e1
  rw [ht.unique h5]
  obtain ⟨c1, g1, g2⟩ := foldlM_append_some (l := pre ++ .prepare :: mid) hc'
  obtain ⟨c0, g3, g4⟩ := foldlM_append_some (l := pre) g1
  have : c0 = c := by
    have : Cursor.after pre = some c0 := g3
    rw [hc] at this; cases this; rfl
  subst this
  have hm : mid.foldlM Cursor.step (DataSource.prepare c0) = some c1 := g4
  have hsv := hb.saved hm
  simp only [List.foldlM_cons, List.foldlM_nil, Cursor.step, DataSource.commit, hsv] at g2
  simp only [DataSource.prepare] at g2
  cases g2
  refine ⟨?_, rfl⟩
  have hle : c0.pos ≤ (addedText pre).length := by
    have := (Cursor.pos_le (c := Cursor.start) (by simp [Cursor.start]) hc).1
    rwa [h4] at this
  have ht' : addedText (pre ++ .prepare :: mid ++ [.commit]) = addedText pre ++ addedText mid := by
    simp [ContainerSeq.addedText_append, addedText]
  rw [ht'] at h5'
  rw [← List.drop_append_of_le_length hle]
  exact h5'

/-- C04: cancelling leaves the position alone: the remaining input is the one there would be
without the rollback point, and the older rollback points are untouched. -/
theorem C04_cancel_leaves_the_position (pre mid : List DsOp) (hb : Balanced mid)
    (s s' : ContainerSeq) (c c' : Cursor)
    (h : ContainerSeq.after (pre ++ mid) = some s)
    (h' : ContainerSeq.after (pre ++ .prepare :: mid ++ [.cancel]) = some s')
    (hc : Cursor.after pre = some c)
    (hc' : Cursor.after (pre ++ .prepare :: mid ++ [.cancel]) = some c') :
    (∀ t, Reads s t ↔ Reads s' t) ∧ c'.saved = c.saved := by
  obtain ⟨c1, g1, g2⟩ := foldlM_append_some (l := pre ++ .prepare :: mid) hc'
  obtain ⟨c0, g3, g4⟩ := foldlM_append_some (l := pre) g1
  have : c0 = c := by
    have : Cursor.after pre = some c0 := g3
    rw [hc] at this; cases this; rfl
  subst this
  have hm : mid.foldlM Cursor.step (DataSource.prepare c0) = some c1 := g4
  have hsv := hb.saved hm
  simp only [List.foldlM_cons, List.foldlM_nil, Cursor.step, DataSource.cancel, hsv] at g2
  simp only [DataSource.prepare] at g2
  cases g2
  refine ⟨?_, rfl⟩
  -- the cursor without the extra rollback point
  cases hc2 : Cursor.after (pre ++ mid) with
  | none => rw [(C02_undefined_iff_contract_broken _).mpr hc2] at h; cases h
  | some c2 =>
    have h2 : mid.foldlM Cursor.step c0 = some c2 := by
      obtain ⟨c3, q1, q2⟩ := foldlM_append_some (l := pre) hc2
      rw [g3] at q1; cases q1; exact q2
    have key : c2.pos = c1.pos ∧ c2.text = c1.text := by
      have gen : ∀ {l : List DsOp}, Balanced l → ∀ {a b a' b' : Cursor},
          a.pos = b.pos → a.text = b.text → a.final = b.final →
          l.foldlM Cursor.step a = some a' → l.foldlM Cursor.step b = some b' →
          a'.pos = b'.pos ∧ a'.text = b'.text ∧ a'.final = b'.final := by
        intro l hl
        induction hl with
        | nil => intro a b a' b' h1 h2 h3 e1 e2; cases e1; cases e2; exact ⟨h1, h2, h3⟩
        | add bf f =>
          intro a b a' b' h1 h2 h3 e1 e2
          simp only [List.foldlM_cons, Cursor.step] at e1 e2
          split at e1
          · cases e1
          · split at e2
            · cases e2
            · cases e1; cases e2; simp [Cursor.feed, h1, h2]
        | advance =>
          intro a b a' b' h1 h2 h3 e1 e2
          simp only [List.foldlM_cons, Cursor.step, DataSource.advance] at e1 e2
          split at e1
          · split at e2
            · cases e1; cases e2; simp [h1, h2, h3]
            · cases e2
          · cases e1
        | append _ _ ih1 ih2 =>
          intro a b a' b' h1 h2 h3 e1 e2
          obtain ⟨a1, p1, p2⟩ := foldlM_append_some e1
          obtain ⟨b1, q1, q2⟩ := foldlM_append_some e2
          obtain ⟨r1, r2, r3⟩ := ih1 h1 h2 h3 p1 q1
          exact ih2 r1 r2 r3 p2 q2
        | commit hl' ih =>
          intro a b a' b' h1 h2 h3 e1 e2
          obtain ⟨a1, p1, p2⟩ := foldlM_append_some e1
          obtain ⟨b1, q1, q2⟩ := foldlM_append_some e2
          obtain ⟨r1, r2, r3⟩ :=
            ih (a := DataSource.prepare a) (b := DataSource.prepare b) h1 h2 h3 p1 q1
          have s1 := hl'.saved (c := DataSource.prepare a) p1
          have s2 := hl'.saved (c := DataSource.prepare b) q1
          simp only [List.foldlM_cons, List.foldlM_nil, Cursor.step, DataSource.commit,
            s1, s2] at p2 q2
          simp only [DataSource.prepare] at p2 q2
          cases p2; cases q2; exact ⟨h1, r2, r3⟩
        | cancel hl' ih =>
          intro a b a' b' h1 h2 h3 e1 e2
          obtain ⟨a1, p1, p2⟩ := foldlM_append_some e1
          obtain ⟨b1, q1, q2⟩ := foldlM_append_some e2
          obtain ⟨r1, r2, r3⟩ :=
            ih (a := DataSource.prepare a) (b := DataSource.prepare b) h1 h2 h3 p1 q1
          have s1 := hl'.saved (c := DataSource.prepare a) p1
          have s2 := hl'.saved (c := DataSource.prepare b) q1
          simp only [List.foldlM_cons, List.foldlM_nil, Cursor.step, DataSource.cancel,
            s1, s2] at p2 q2
          simp only [DataSource.prepare] at p2 q2
          cases p2; cases q2; exact ⟨r1, r2, r3⟩
      have := gen hb (a := c0) (b := DataSource.prepare c0) rfl rfl rfl h2 hm
      exact ⟨this.1, this.2.1⟩
    obtain ⟨s1, e1, -, -, -, h4, h5⟩ := C01_buffers_read_like_one_stream _ c2 hc2
    rw [h] at e1; cases e1
    obtain ⟨s2, e2, -, -, -, h4', h5'⟩ := C01_buffers_read_like_one_stream _ _ hc'
    rw [h'] at e2; cases e2
    rw [← h4, key.1, key.2] at h5
    rw [← h4'] at h5'
    intro t
    constructor
    · intro ht; rw [ht.unique h5]; exact h5'
    · intro ht; rw [ht.unique h5']; exact h5

/-- Reading from the buffer sequence is reading from the cursor. -/
theorem ContainerSeq.after_reads (ops : List DsOp) (r : List Ch) :
    (∃ s, ContainerSeq.after ops = some s ∧ Reads s r) ↔
    ∃ c, Cursor.after ops = some c ∧ r = c.text.drop c.pos := by
  constructor
  · rintro ⟨s, hs, hr⟩
    cases hc : Cursor.after ops with
    | none => rw [(C02_undefined_iff_contract_broken _).mpr hc] at hs; cases hs
    | some c =>
      obtain ⟨s1, e1, -, -, -, h4, h5⟩ := C01_buffers_read_like_one_stream _ c hc
      rw [hs] at e1; cases e1
      exact ⟨c, rfl, by rw [h4]; exact hr.unique h5⟩
  · rintro ⟨c, hc, rfl⟩
    obtain ⟨s1, e1, -, -, -, h4, h5⟩ := C01_buffers_read_like_one_stream _ c hc
    exact ⟨s1, e1, by rw [h4]; exact h5⟩

/-- C04, whole: a rollback point that is committed undoes everything but the arrival of data. For
every continuation `post`, including further rollbacks to older points, the buffer sequence
is defined and reads the same as if what lies between the rollback point and the commit had
never happened. -/
theorem C04_commit_undoes (pre mid post : List DsOp) (hb : Balanced mid)
    (h : ContainerSeq.after (pre ++ (.prepare :: mid ++ [.commit])) ≠ none) (t : List Ch) :
    (∃ s, ContainerSeq.after (pre ++ (.prepare :: mid ++ [.commit]) ++ post) = some s ∧ Reads s t) ↔
    ∃ s, ContainerSeq.after (pre ++ arrivals mid ++ post) = some s ∧ Reads s t := by
  rw [ContainerSeq.after_reads, ContainerSeq.after_reads]
  rw [Ne, C02_undefined_iff_contract_broken] at h
  have : Cursor.after (pre ++ (.prepare :: mid ++ [.commit]) ++ post) =
      Cursor.after (pre ++ arrivals mid ++ post) := by
    cases hc : Cursor.after (pre ++ (.prepare :: mid ++ [.commit])) with
    | none => exact absurd hc h
    | some c =>
      obtain ⟨c0, h0, h1⟩ := foldlM_append_some (l := pre) hc
      have h2 : Cursor.after (pre ++ arrivals mid) = some c := by
        rw [Cursor.after, List.foldlM_append, h0]
        exact after_commit hb h1
      rw [Cursor.after, List.foldlM_append, Cursor.after, List.foldlM_append (l := pre ++ arrivals mid)]
      change (Cursor.after (pre ++ (.prepare :: mid ++ [.commit])) >>= _) = (Cursor.after _ >>= _)
      rw [hc, h2]
  rw [this]

/-- C04, whole: a rollback point that is cancelled leaves no trace, for every continuation. -/
theorem C04_cancel_forgets (pre mid post : List DsOp) (hb : Balanced mid)
    (h : ContainerSeq.after (pre ++ (.prepare :: mid ++ [.cancel])) ≠ none) (t : List Ch) :
    (∃ s, ContainerSeq.after (pre ++ (.prepare :: mid ++ [.cancel]) ++ post) = some s ∧ Reads s t) ↔
    ∃ s, ContainerSeq.after (pre ++ mid ++ post) = some s ∧ Reads s t := by
  rw [ContainerSeq.after_reads, ContainerSeq.after_reads]
  rw [Ne, C02_undefined_iff_contract_broken] at h
  have : Cursor.after (pre ++ (.prepare :: mid ++ [.cancel]) ++ post) =
      Cursor.after (pre ++ mid ++ post) := by
    cases hc : Cursor.after (pre ++ (.prepare :: mid ++ [.cancel])) with
    | none => exact absurd hc h
    | some c =>
      obtain ⟨c0, h0, h1⟩ := foldlM_append_some (l := pre) hc
      have h2 : Cursor.after (pre ++ mid) = some c := by
        rw [Cursor.after, List.foldlM_append, h0]
        exact after_cancel hb h1
      rw [Cursor.after, List.foldlM_append, Cursor.after, List.foldlM_append (l := pre ++ mid)]
      change (Cursor.after (pre ++ (.prepare :: mid ++ [.cancel])) >>= _) = (Cursor.after _ >>= _)
      rw [hc, h2]
  rw [this]

/-- C04, iterator pairs: a committed rollback point undoes everything. -/
theorem C04_iterators_commit_undoes (txt : List Ch) (pre mid post : List DsOp) (hb : Balanced mid)
    (h : SingleForward.after txt (pre ++ (.prepare :: mid ++ [.commit])) ≠ none) (t : List Ch) :
    (∃ s, SingleForward.after txt (pre ++ (.prepare :: mid ++ [.commit]) ++ post) = some s ∧
      Reads s t) ↔
    ∃ s, SingleForward.after txt (pre ++ post) = some s ∧ Reads s t := by
  rw [SingleForward.after_reads, SingleForward.after_reads]
  cases hs : SingleForward.after txt (pre ++ (.prepare :: mid ++ [.commit])) with
  | none => exact absurd hs h
  | some s =>
    have hsim := SingleForward.sim_steps (SingleForward.rel_make txt)
      (pre ++ (.prepare :: mid ++ [.commit]))
    rw [show List.foldlM _ _ _ = some s from hs] at hsim
    generalize hc : List.foldlM Cursor.step (Cursor.whole txt)
      (pre ++ (.prepare :: mid ++ [.commit])) = x at hsim
    cases hsim with
    | @some _ c hr =>
      obtain ⟨c0, h0, h1⟩ := foldlM_append_some (l := pre) hc
      have h2 := after_commit hb h1
      have hno : arrivals mid = [] := by
        cases ha : arrivals mid with
        | nil => rfl
        | cons op ops =>
          exfalso
          have hr0 := SingleForward.sim_steps (SingleForward.rel_make txt) pre
          rw [h0] at hr0
          generalize List.foldlM SingleForward.step (SingleForward.make txt) pre = y at hr0
          cases hr0 with
          | some hr0 =>
            have hf : c0.final = true := hr0.2.2.2.2.2.2
            rw [ha] at h2
            have hadd : ∃ b f, op = .add b f := by
              have : ∀ {l : List DsOp}, op ∈ arrivals l → ∃ b f, op = .add b f := by
                intro l
                induction l with
                | nil => intro h; cases h
                | cons o l ih =>
                  intro h
                  cases o with
                  | add b f =>
                    rcases List.mem_cons.mp h with h | h
                    · exact ⟨b, f, h⟩
                    · exact ih h
                  | advance => exact ih h
                  | prepare => exact ih h
                  | commit => exact ih h
                  | cancel => exact ih h
              exact this (l := mid) (by rw [ha]; simp)
            obtain ⟨b, f, rfl⟩ := hadd
            simp [Cursor.step, hf] at h2
      rw [hno] at h2
      cases h2
      rw [List.foldlM_append, hc, List.foldlM_append, h0]

/-- C04, iterator pairs: a cancelled rollback point leaves no trace. -/
theorem C04_iterators_cancel_forgets (txt : List Ch) (pre mid post : List DsOp)
    (hb : Balanced mid)
    (h : SingleForward.after txt (pre ++ (.prepare :: mid ++ [.cancel])) ≠ none) (t : List Ch) :
    (∃ s, SingleForward.after txt (pre ++ (.prepare :: mid ++ [.cancel]) ++ post) = some s ∧
      Reads s t) ↔
    ∃ s, SingleForward.after txt (pre ++ mid ++ post) = some s ∧ Reads s t := by
  rw [SingleForward.after_reads, SingleForward.after_reads]
  cases hs : SingleForward.after txt (pre ++ (.prepare :: mid ++ [.cancel])) with
  | none => exact absurd hs h
  | some s =>
    have hsim := SingleForward.sim_steps (SingleForward.rel_make txt)
      (pre ++ (.prepare :: mid ++ [.cancel]))
    rw [show List.foldlM _ _ _ = some s from hs] at hsim
    generalize hc : List.foldlM Cursor.step (Cursor.whole txt)
      (pre ++ (.prepare :: mid ++ [.cancel])) = x at hsim
    cases hsim with
    | @some _ c hr =>
      obtain ⟨c0, h0, h1⟩ := foldlM_append_some (l := pre) hc
      have h2 := after_cancel hb h1
      rw [List.foldlM_append, hc, List.foldlM_append, List.foldlM_append, h0]
      change _ ↔ ∃ c, (List.foldlM Cursor.step c0 mid >>= _) = _ ∧ _
      rw [h2]

/-- An iterator pair over `ab`: mark, read `a`, mark again, read `b`, roll back twice. -/
example : (SingleForward.after [97, 98] ([] ++ (.prepare :: [.advance, .prepare, .advance, .commit] ++
    [.commit]) ++ [.advance])).map DataSource.next = some (some 98) := by decide

/-! ### The hypotheses are met by non-trivial histories -/

/-- A history with a cut text, an empty buffer, a mark set while starving, a mark inside a
buffer, and rollbacks across a buffer boundary. -/
def sampleHistory : List DsOp :=
  [.prepare, .add [97, 98] false, .add [] false, .advance, .prepare, .advance,
   .add [99] true, .advance, .commit, .advance]

example : Cursor.after sampleHistory = some ⟨[97, 98, 99], 2, [0], true⟩ := by decide

example : (ContainerSeq.after sampleHistory).map (fun s => (DataSource.next s, s.buffers.length))
    = some (some 99, 2) := by decide

/-- the buffers needed by that history are two out of two; cancelling the outer mark frees one -/
example : (ContainerSeq.after (sampleHistory ++ [.cancel])).map (fun s => s.buffers.length)
    = some 1 := by decide

example : Balanced [.add [98] false, .prepare, .advance, .commit] :=
  .append (.add _ _) (.commit .advance)

example : (ContainerSeq.after ([.add [97] false] ++
    DsOp.prepare :: [.add [98] false, .prepare, .advance, .commit] ++ [.commit])).isSome := by
  decide

end Abu
