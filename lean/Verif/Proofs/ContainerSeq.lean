import Verif.Spec.Cursor
/-
Refinement of `ContainerSeq` by `Cursor` (helper lemmas and the simulation relation).
-/
namespace Abu
namespace ContainerSeq

/-- List nodes with consecutive identities starting at `k`. -/
def mkBufs : Nat → List (List Ch) → List Buffer
  | _, [] => []
  | k, h :: t => ⟨k, h⟩ :: mkBufs (k + 1) t

/-- Absolute position of the first character of buffer `i`. -/
def start (hs : List (List Ch)) (i : Nat) : Nat := (hs.take i).flatten.length

theorem mkBufs_map (k : Nat) (rs : List (List Ch)) : (mkBufs k rs).map Buffer.data = rs := by
  induction rs generalizing k with
  | nil => rfl
  | cons h t ih => simp [mkBufs, ih]

theorem mkBufs_append (k : Nat) (rs : List (List Ch)) (b : List Ch) :
    mkBufs k (rs ++ [b]) = mkBufs k rs ++ [⟨k + rs.length, b⟩] := by
  induction rs generalizing k with
  | nil => rfl
  | cons h t ih => simp [mkBufs, ih]; omega

theorem mkBufs_getLast (k : Nat) (rs : List (List Ch)) (b : List Ch) :
    (mkBufs k (rs ++ [b])).getLast?.map Buffer.id = some (k + rs.length) := by
  rw [mkBufs_append]; simp

theorem mkBufs_head (k : Nat) (rs : List (List Ch)) :
    (mkBufs k rs).head?.map Buffer.id = if rs = [] then none else some k := by
  cases rs <;> simp [mkBufs]

theorem mkBufs_find (k : Nat) (rs : List (List Ch)) (i : Nat) (h1 : k ≤ i)
    (h2 : i < k + rs.length) :
    (mkBufs k rs).find? (fun b => b.id == i) = some ⟨i, rs[i - k]'(by omega)⟩ := by
  induction rs generalizing k with
  | nil => simp at h2; omega
  | cons h t ih =>
    simp only [mkBufs, List.find?_cons]
    by_cases hk : k = i
    · subst hk; simp
    · have : (k == i) = false := by simp [hk]
      simp only [this]
      rw [ih (k + 1) (by omega) (by simp at h2; omega)]
      have : i - k = (i - (k + 1)) + 1 := by omega
      simp [this]

theorem mkBufs_dropWhile (k : Nat) (rs : List (List Ch)) (i : Nat) (h1 : k ≤ i)
    (h2 : i ≤ k + rs.length) :
    (mkBufs k rs).dropWhile (fun b => b.id != i) = mkBufs i (rs.drop (i - k)) := by
  induction rs generalizing k with
  | nil => simp at h2; have : i = k := by omega
           subst this; simp [mkBufs]
  | cons h t ih =>
    simp only [mkBufs, List.dropWhile_cons]
    by_cases hk : k = i
    · subst hk; simp [mkBufs]
    · have : (k != i) = true := by simp [hk]
      simp only [this, if_true]
      rw [ih (k + 1) (by omega) (by simp at h2; omega)]
      have : i - k = (i - (k + 1)) + 1 := by omega
      simp [this]

theorem popUntil_mkBufs (k : Nat) (rs : List (List Ch)) (i : Nat) (h1 : k ≤ i)
    (h2 : i < k + rs.length) :
    popUntil (some i) (mkBufs k rs) = some (mkBufs i (rs.drop (i - k))) := by
  induction rs generalizing k with
  | nil => simp at h2; omega
  | cons h t ih =>
    simp only [mkBufs, popUntil]
    by_cases hk : k = i
    · subst hk; simp [mkBufs]
    · have : (some i == some k) = false := by simp; omega
      simp only [this]
      rw [if_neg (by simp), ih (k + 1) (by omega) (by simp at h2; omega)]
      have : i - k = (i - (k + 1)) + 1 := by omega
      simp [this]

theorem popUntil_none (bs : List Buffer) : popUntil none bs = some [] := by
  induction bs with
  | nil => simp [popUntil]
  | cons b bs ih => simp [popUntil, ih]

theorem start_succ (hs : List (List Ch)) (i : Nat) (h : i < hs.length) :
    start hs (i + 1) = start hs i + hs[i].length := by
  unfold start
  rw [List.take_add_one, List.flatten_append, List.length_append, List.getElem?_eq_getElem h]
  simp

theorem start_length (hs : List (List Ch)) : start hs hs.length = hs.flatten.length := by
  simp [start]

theorem start_append (hs : List (List Ch)) (b : List Ch) (i : Nat) (h : i ≤ hs.length) :
    start (hs ++ [b]) i = start hs i := by
  simp [start, List.take_append_of_le_length h]

theorem start_mono (hs : List (List Ch)) (i j : Nat) (h : i ≤ j) :
    start hs i ≤ start hs j := by
  have h3 : (hs.take j).take i = hs.take i := by rw [List.take_take]; congr 1; omega
  have h2 : (hs.take j).flatten = (hs.take i).flatten ++ ((hs.take j).drop i).flatten := by
    rw [← h3, ← List.flatten_append, List.take_append_drop]
  unfold start
  rw [h2, List.length_append]; omega

theorem start_lt (hs : List (List Ch)) (i off : Nat) (h : i < hs.length)
    (ho : off < hs[i].length) : start hs i + off < hs.flatten.length := by
  have := start_succ hs i h
  have h2 := start_mono hs (i + 1) hs.length (by omega)
  rw [start_length] at h2
  omega

theorem flatten_get (hs : List (List Ch)) (i off : Nat) (h : i < hs.length)
    (ho : off < hs[i].length) : hs.flatten[start hs i + off]? = some hs[i][off] := by
  have e : hs = hs.take i ++ hs[i] :: hs.drop (i + 1) := by simp
  have hlen : (hs.take i).flatten.length = start hs i := rfl
  have : hs.flatten = (hs.take i).flatten ++ (hs[i] ++ (hs.drop (i + 1)).flatten) := by
    have e2 := congrArg List.flatten e
    simpa only [List.flatten_append, List.flatten_cons] using e2
  rw [this, List.getElem?_append_right (by omega)]
  rw [hlen, Nat.add_sub_cancel_left, List.getElem?_append_left ho]
  simp [ho]

/-- `it` designates a character of buffer `i` at offset `off`, and `i` is retained. -/
def ValidEntry (hs : List (List Ch)) (k : Nat) (e : CharIt × BufIt) (p : Nat) : Prop :=
  ∃ i off, e = (some (i, off), some i) ∧ k ≤ i ∧ ∃ h : i < hs.length, off < hs[i].length ∧
    p = start hs i + off

/-- Entries of a rollback stack (first = oldest) and the positions they stand for. -/
inductive ValidStack (hs : List (List Ch)) (k : Nat) : List (CharIt × BufIt) → List Nat → Prop
  | nil : ValidStack hs k [] []
  | cons {e p es ps} : ValidEntry hs k e p → ValidStack hs k es ps →
      ValidStack hs k (e :: es) (p :: ps)

theorem ValidEntry.mono {hs k e p b} (h : ValidEntry hs k e p) :
    ValidEntry (hs ++ [b]) k e p := by
  obtain ⟨i, off, rfl, hk, hi, ho, rfl⟩ := h
  refine ⟨i, off, rfl, hk, by simp; omega, ?_, ?_⟩
  · rw [List.getElem_append_left hi]; exact ho
  · rw [start_append _ _ _ (by omega)]

theorem ValidStack.mono {hs k es ps b} (h : ValidStack hs k es ps) :
    ValidStack (hs ++ [b]) k es ps := by
  induction h with
  | nil => exact .nil
  | cons h _ ih => exact .cons h.mono ih

theorem ValidStack.snoc {hs k es ps e p} (h : ValidStack hs k es ps)
    (he : ValidEntry hs k e p) : ValidStack hs k (es ++ [e]) (ps ++ [p]) := by
  induction h with
  | nil => exact .cons he .nil
  | cons h _ ih => exact .cons h ih

theorem ValidStack.replicate {hs k es ps e p} (h : ValidStack hs k es ps)
    (he : ValidEntry hs k e p) (n : Nat) :
    ValidStack hs k (es ++ List.replicate n e) (ps ++ List.replicate n p) := by
  induction n with
  | zero => simpa using h
  | succ n ih =>
    rw [List.replicate_succ', List.replicate_succ', ← List.append_assoc, ← List.append_assoc]
    exact ih.snoc he

theorem ValidStack.unsnoc {hs k es ps e} (h : ValidStack hs k (es ++ [e]) ps) :
    ∃ ps' p, ps = ps' ++ [p] ∧ ValidStack hs k es ps' ∧ ValidEntry hs k e p := by
  induction es generalizing ps with
  | nil =>
    cases h with
    | cons he hs' => cases hs'; exact ⟨[], _, rfl, .nil, he⟩
  | cons a es ih =>
    cases h with
    | cons he hs' =>
      obtain ⟨ps', p, rfl, h1, h2⟩ := ih hs'
      exact ⟨_ :: ps', p, rfl, .cons he h1, h2⟩

theorem ValidStack.length {hs k es ps} (h : ValidStack hs k es ps) : es.length = ps.length := by
  induction h with
  | nil => rfl
  | cons _ _ ih => simp [ih]

/-- Index of the oldest buffer that must be kept. -/
def keepIdx (s : ContainerSeq) (n : Nat) : Nat :=
  match s.rollback with
  | (_, some i) :: _ => i
  | (_, none) :: _ => n
  | [] => match s.curBuf with
    | none => n
    | some i => i

/-- The simulation relation; `hs` is the list of all non-empty buffers ever added. -/
structure Sim (hs : List (List Ch)) (s : ContainerSeq) (c : Cursor) : Prop where
  nonempty : ∀ b ∈ hs, b ≠ []
  nextId : s.nextId = hs.length
  kle : keepIdx s hs.length ≤ hs.length
  bufs : s.buffers = mkBufs (keepIdx s hs.length) (hs.drop (keepIdx s hs.length))
  text : c.text = hs.flatten
  final : c.final = s.final_
  pos : (s.curBuf = none ∧ s.current = none ∧ c.pos = hs.flatten.length) ∨
        ValidEntry hs (keepIdx s hs.length) (s.current, s.curBuf) c.pos
  stack : ∃ ps, ValidStack hs (keepIdx s hs.length) s.rollback ps ∧
    c.saved = List.replicate s.emptyRollbacks hs.flatten.length ++ ps.reverse
  empties : s.emptyRollbacks ≠ 0 → s.curBuf = none

theorem sim_make : Sim [] make Cursor.start := by
  refine ⟨by simp, rfl, by simp [keepIdx, make], by simp [mkBufs, make], rfl, rfl, ?_, ?_, ?_⟩
  · left; simp [make, Cursor.start]
  · exact ⟨[], .nil, by simp [make, Cursor.start]⟩
  · simp [make]

section
variable {hs : List (List Ch)} {s : ContainerSeq} {c : Cursor}

theorem Sim.empty_eq (h : Sim hs s c) : DataSource.empty s = DataSource.empty c := by
  show (s.curBuf == none) = decide (c.text.length ≤ c.pos)
  rcases h.pos with ⟨h1, _, h3⟩ | ⟨i, off, he, _, hi, ho, hp⟩
  · simp [h1, h3, h.text]
  · have := start_lt hs i off hi ho
    simp only [Prod.mk.injEq] at he
    rw [he.2, h.text, hp]
    have h3 : ¬ (hs.flatten.length ≤ start hs i + off) := by omega
    rw [decide_eq_false h3]; rfl

theorem Sim.final_eq (h : Sim hs s c) : DataSource.final s = DataSource.final c := h.final.symm

theorem Sim.deref (h : Sim hs s c) {i : Nat} (h1 : keepIdx s hs.length ≤ i) (h2 : i < hs.length) :
    s.deref (some i) = some ⟨i, hs[i]⟩ := by
  simp only [ContainerSeq.deref]
  rw [h.bufs, mkBufs_find _ _ _ h1 (by simp; omega)]
  simp [Nat.add_sub_cancel' h1]

theorem Sim.next_eq (h : Sim hs s c) : DataSource.next s = DataSource.next c := by
  show (if s.curBuf == none then none else s.derefChar s.current) = c.text[c.pos]?
  rcases h.pos with ⟨h1, _, h3⟩ | ⟨i, off, he, hk, hi, ho, hp⟩
  · simp [h1, h3, h.text]
  · simp only [Prod.mk.injEq] at he
    rw [he.2, he.1, h.text, hp, flatten_get _ _ _ hi ho]
    simp [derefChar, h.deref hk hi, ho]

theorem drop_drop_eq {α} (l : List α) (k i : Nat) (h : k ≤ i) :
    (l.drop k).drop (i - k) = l.drop i := by
  rw [List.drop_drop]; congr 1; omega

theorem Sim.advance (h : Sim hs s c) :
    match ContainerSeq.advance s, DataSource.advance c with
    | some s', some c' => Sim hs s' c'
    | none, none => True
    | _, _ => False := by
  show match ContainerSeq.advance s,
    (if c.pos < c.text.length then some { c with pos := c.pos + 1 } else none) with
    | some s', some c' => Sim hs s' c'
    | none, none => True
    | _, _ => False
  rcases h.pos with ⟨h1, h2, h3⟩ | ⟨i, off, he, hk, hi, ho, hp⟩
  · simp [ContainerSeq.advance, h2, h3, h.text]
  · simp only [Prod.mk.injEq] at he
    have hlt : c.pos < c.text.length := by
      rw [h.text, hp]; exact start_lt _ _ _ hi ho
    rw [if_pos hlt]
    have hd : s.derefChar s.current = some hs[i][off] := by
      rw [he.1]; simp [derefChar, h.deref hk hi, ho]
    obtain ⟨ps, hst, hsv⟩ := h.stack
    have hemp : s.emptyRollbacks = 0 := by
      by_cases h0 : s.emptyRollbacks = 0
      · exact h0
      · have := h.empties h0; rw [he.2] at this; cases this
    have hderef : s.deref s.curBuf = some ⟨i, hs[i]⟩ := by rw [he.2]; exact h.deref hk hi
    by_cases hoff : off + 1 = hs[i].length
    · -- leaving buffer i
      have hnext : s.nextIt s.curBuf = some (if i + 1 < hs.length then some (i + 1) else none) := by
        rw [he.2]; simp only [nextIt]
        rw [h.bufs, mkBufs_dropWhile _ _ _ hk (by simp; omega), drop_drop_eq _ _ _ hk]
        rw [List.drop_eq_getElem_cons hi]
        simp only [mkBufs]
        rw [mkBufs_head]
        by_cases hl : i + 1 < hs.length
        · have : hs.drop (i + 1) ≠ [] := by simp; omega
          simp [hl]
        · have : hs.drop (i + 1) = [] := by simp; omega
          simp [hl]
      have hbegin : s.beginIt = some (keepIdx s hs.length) := by
        unfold beginIt
        rw [h.bufs, mkBufs_head, if_neg (by simp; omega)]
      -- the new buffer list
      simp only [ContainerSeq.advance, hd, hderef, hnext]
      rw [he.1]
      simp only [ne_eq, not_true, if_false, if_true, hoff]
      have hpos' : c.pos + 1 = start hs (i + 1) := by
        rw [hp, start_succ _ _ hi]; omega
      have hposok : ∀ k', k' ≤ i + 1 →
          ((if i + 1 < hs.length then some (i + 1) else none : BufIt) = none ∧
            ((if i + 1 < hs.length then some (i + 1) else none : BufIt).map
              (fun j => (j, 0)) : CharIt) = none ∧ c.pos + 1 = hs.flatten.length) ∨
          ValidEntry hs k' ((if i + 1 < hs.length then some (i + 1) else none : BufIt).map
            (fun j => (j, 0)), (if i + 1 < hs.length then some (i + 1) else none : BufIt))
            (c.pos + 1) := by
        intro k' hk'
        by_cases hl : i + 1 < hs.length
        · right
          refine ⟨i + 1, 0, by simp [hl], by omega, hl, ?_, by omega⟩
          have := h.nonempty _ (List.getElem_mem hl)
          exact List.length_pos_iff.mpr this
        · left
          have : i + 1 = hs.length := by omega
          refine ⟨by simp [hl], by simp [hl], ?_⟩
          rw [hpos', this, start_length]
      cases hrb : s.rollback with
      | nil =>
        have hkeep : keepIdx s hs.length = i := by simp [keepIdx, hrb, he.2]
        rw [hbegin, he.2, hkeep]
        simp only [List.head?_nil, beq_self_eq_true, if_true, Bool.false_eq_true, if_false]
        have hkeep' : keepIdx { s with
            current := (if i + 1 < hs.length then some (i + 1) else none : BufIt).map
              (fun j => (j, 0)),
            buffers := s.buffers.tail,
            curBuf := if i + 1 < hs.length then some (i + 1) else none,
            rollback := [] } hs.length = i + 1 := by
          simp only [keepIdx]
          by_cases hl : i + 1 < hs.length
          · simp [hl]
          · simp [hl]; omega
        refine ⟨h.nonempty, h.nextId, ?_, ?_, h.text, h.final, ?_, ?_, ?_⟩
        · rw [hkeep']; omega
        · rw [hkeep']
          show s.buffers.tail = _
          rw [h.bufs, hkeep, List.drop_eq_getElem_cons hi]
          simp [mkBufs]
        · rw [hkeep']; exact hposok _ (by omega)
        · rw [hkeep']
          rw [hrb] at hst
          cases hst
          exact ⟨[], .nil, by simpa [hemp] using hsv⟩
        · simp [hemp]
      | cons e es =>
        have hst' := hst
        rw [hrb] at hst'
        cases hst' with
        | @cons _ p _ ps' hve hves =>
          obtain ⟨i0, off0, rfl, hk0, hi0, ho0, rfl⟩ := hve
          have hkeep : keepIdx s hs.length = i0 := by simp [keepIdx, hrb]
          have hkeep' : ∀ bs cu cb, keepIdx { s with
            current := cu, buffers := bs, curBuf := cb, rollback := (some (i0, off0), some i0) :: es }
              hs.length = i0 := by
            intro bs cu cb; rfl
          have hbufs : (if (s.curBuf == s.beginIt) = true then
                (if (((some i0 : BufIt) == s.curBuf) = true) then s.buffers else s.buffers.tail)
              else s.buffers) = s.buffers := by
            rw [hbegin, hkeep, he.2]
            by_cases hii : i = i0
            · subst hii; simp
            · have : ((some i : BufIt) == some i0) = false := by simp [hii]
              simp [this]
          simp only [List.head?_cons]
          refine ⟨h.nonempty, h.nextId, ?_, ?_, h.text, h.final, ?_, ?_, ?_⟩
          · rw [hkeep']; omega
          · rw [hkeep']; refine hbufs.trans ?_; rw [h.bufs, hkeep]
          · rw [hkeep']; exact hposok _ (by omega)
          · rw [hkeep']
            refine ⟨_, ?_, hsv⟩
            rw [hrb, hkeep] at hst
            exact hst
          · simp [hemp]
    · simp only [ContainerSeq.advance, hd, hderef]
      rw [he.1]
      simp only [ne_eq, not_true, if_false, hoff]
      have hkeep' : keepIdx { s with current := some (i, off + 1) } hs.length
          = keepIdx s hs.length := rfl
      refine ⟨h.nonempty, h.nextId, ?_, ?_, h.text, h.final, ?_, ?_, ?_⟩
      · rw [hkeep']; exact h.kle
      · rw [hkeep']; exact h.bufs
      · right
        refine ⟨i, off + 1, by simp [he.2], by rw [hkeep']; exact hk, hi, by omega, by
          show c.pos + 1 = _; omega⟩
      · rw [hkeep']; exact ⟨ps, hst, hsv⟩
      · exact h.empties

theorem Sim.prepare (h : Sim hs s c) :
    Sim hs (ContainerSeq.prepare s) (DataSource.prepare c) := by
  show Sim hs (ContainerSeq.prepare s) { c with saved := c.pos :: c.saved }
  obtain ⟨ps, hst, hsv⟩ := h.stack
  rcases h.pos with ⟨h1, h2, h3⟩ | hve
  · have : s.empty = true := by simp [ContainerSeq.empty, h1]
    simp only [ContainerSeq.prepare, this, if_true]
    refine ⟨h.nonempty, h.nextId, h.kle, h.bufs, h.text, h.final, h.pos, ?_, fun _ => h1⟩
    refine ⟨ps, hst, ?_⟩
    simp [hsv, h3, List.replicate_succ]
  · obtain ⟨i, off, he, hk, hi, ho, hp⟩ := id hve
    simp only [Prod.mk.injEq] at he
    have hemp : s.emptyRollbacks = 0 := by
      by_cases h0 : s.emptyRollbacks = 0
      · exact h0
      · have := h.empties h0; rw [he.2] at this; cases this
    have : s.empty = false := by simp [ContainerSeq.empty, he.2]
    simp only [ContainerSeq.prepare, this, Bool.false_eq_true, if_false]
    have hkeep' : keepIdx { s with rollback := s.rollback ++ [(s.current, s.curBuf)] } hs.length
        = keepIdx s hs.length := by
      cases hrb : s.rollback with
      | nil => simp [keepIdx, hrb, he.2]
      | cons e es => rcases e with ⟨_, _ | _⟩ <;> simp [keepIdx, hrb]
    refine ⟨h.nonempty, h.nextId, ?_, ?_, h.text, h.final, ?_, ?_, ?_⟩
    · rw [hkeep']; exact h.kle
    · rw [hkeep']; exact h.bufs
    · rw [hkeep']; exact .inr hve
    · rw [hkeep']
      refine ⟨ps ++ [c.pos], hst.snoc hve, ?_⟩
      simp [hsv, hemp]
    · simp [hemp]

/-- After removing the youngest rollback entry and running the cleanup. -/
theorem Sim.cleanup_aux (h : Sim hs s c) (hemp : s.emptyRollbacks = 0)
    {es : List (CharIt × BufIt)} {e : CharIt × BufIt} (hrb : s.rollback = es ++ [e])
    {ps' : List Nat} (hst : ValidStack hs (keepIdx s hs.length) es ps')
    (cu : CharIt) (cb : BufIt) (p : Nat)
    (hpos : (cb = none ∧ cu = none ∧ p = hs.flatten.length) ∨
      ValidEntry hs (keepIdx s hs.length) (cu, cb) p) :
    ∃ s', cleanup { s with curBuf := cb, current := cu, rollback := es } = some s' ∧
      Sim hs s' { c with pos := p, saved := ps'.reverse } := by
  cases es with
  | nil =>
    simp only [cleanup, List.isEmpty_nil, if_true]
    rcases hpos with ⟨rfl, rfl, rfl⟩ | ⟨i, off, he, hk, hi, ho, hp⟩
    · rw [popUntil_none]
      refine ⟨_, rfl, h.nonempty, h.nextId, ?_, ?_, h.text, h.final, ?_, ?_, ?_⟩
      · simp [keepIdx]
      · simp [keepIdx, mkBufs]
      · left; simp
      · cases hst; exact ⟨[], .nil, by simp [hemp]⟩
      · simp
    · simp only [Prod.mk.injEq] at he
      obtain ⟨rfl, rfl⟩ := he
      rw [h.bufs, popUntil_mkBufs _ _ _ hk (by simp; omega), drop_drop_eq _ _ _ hk]
      refine ⟨_, rfl, h.nonempty, h.nextId, ?_, ?_, h.text, h.final, ?_, ?_, ?_⟩
      · simp [keepIdx]; omega
      · simp [keepIdx]
      · right; exact ⟨i, off, rfl, by simp [keepIdx], hi, ho, hp⟩
      · cases hst; exact ⟨[], .nil, by simp [hemp]⟩
      · simp [hemp]
  | cons a as =>
    simp only [cleanup, List.isEmpty_cons, Bool.false_eq_true, if_false]
    have hkeep' : keepIdx { s with curBuf := cb, current := cu, rollback := a :: as } hs.length
        = keepIdx s hs.length := by
      rcases a with ⟨_, _ | _⟩ <;> simp [keepIdx, hrb]
    refine ⟨_, rfl, h.nonempty, h.nextId, ?_, ?_, h.text, h.final, ?_, ?_, ?_⟩
    · rw [hkeep']; exact h.kle
    · rw [hkeep']; exact h.bufs
    · rw [hkeep']; exact hpos
    · rw [hkeep']; exact ⟨ps', hst, by simp [hemp]⟩
    · simp [hemp]

theorem Sim.commit (h : Sim hs s c) :
    match ContainerSeq.commit s, DataSource.commit c with
    | some s', some c' => Sim hs s' c'
    | none, none => True
    | _, _ => False := by
  show match ContainerSeq.commit s, (match c.saved with
    | [] => none
    | p :: ps => some { c with pos := p, saved := ps }) with
    | some s', some c' => Sim hs s' c'
    | none, none => True
    | _, _ => False
  obtain ⟨ps, hst, hsv⟩ := h.stack
  by_cases h0 : s.emptyRollbacks = 0
  · simp only [ContainerSeq.commit, h0, ne_eq, not_true, if_false]
    rw [h0] at hsv; simp at hsv
    rcases List.eq_nil_or_concat s.rollback with hnil | ⟨es, e, hrb⟩
    · rw [hnil] at hst; cases hst; simp [hnil, hsv]
    · rw [List.concat_eq_append] at hrb
      rw [hrb] at hst
      obtain ⟨ps', p, rfl, hst', hve⟩ := hst.unsnoc
      rw [hsv]; simp only [List.reverse_append, List.reverse_cons, List.reverse_nil,
        List.nil_append, List.singleton_append]
      obtain ⟨s', hs', hsim⟩ := h.cleanup_aux h0 hrb hst' e.1 e.2 p (.inr hve)
      simp only [hrb, List.getLast?_append, List.getLast?_singleton, Option.some_or,
        List.dropLast_concat]
      rw [h0] at hs'; rw [hs']; exact hsim
  · simp only [ContainerSeq.commit, h0, ne_eq, not_false_eq_true, if_true]
    obtain ⟨n, hn⟩ := Nat.exists_eq_succ_of_ne_zero h0
    rw [hn] at hsv
    simp only [List.replicate_succ, List.cons_append] at hsv
    rw [hsv]
    have hnone := h.empties h0
    refine ⟨h.nonempty, h.nextId, h.kle, h.bufs, h.text, h.final, ?_, ?_, fun _ => hnone⟩
    · left
      rcases h.pos with ⟨h1, h2, h3⟩ | ⟨i, off, he, _⟩
      · exact ⟨h1, h2, rfl⟩
      · simp only [Prod.mk.injEq] at he; rw [hnone] at he; cases he.2
    · exact ⟨ps, hst, by simp [hn]⟩

theorem Sim.cancel (h : Sim hs s c) :
    match ContainerSeq.cancel s, DataSource.cancel c with
    | some s', some c' => Sim hs s' c'
    | none, none => True
    | _, _ => False := by
  show match ContainerSeq.cancel s, (match c.saved with
    | [] => none
    | _ :: ps => some { c with saved := ps }) with
    | some s', some c' => Sim hs s' c'
    | none, none => True
    | _, _ => False
  obtain ⟨ps, hst, hsv⟩ := h.stack
  by_cases h0 : s.emptyRollbacks = 0
  · simp only [ContainerSeq.cancel, h0, ne_eq, not_true, if_false]
    rw [h0] at hsv; simp at hsv
    rcases List.eq_nil_or_concat s.rollback with hnil | ⟨es, e, hrb⟩
    · rw [hnil] at hst; cases hst; simp [hnil, hsv]
    · rw [List.concat_eq_append] at hrb
      rw [hrb] at hst
      obtain ⟨ps', p, rfl, hst', hve⟩ := hst.unsnoc
      rw [hsv]; simp only [List.reverse_append, List.reverse_cons, List.reverse_nil,
        List.nil_append, List.singleton_append]
      obtain ⟨s', hs', hsim⟩ := h.cleanup_aux h0 hrb hst' s.current s.curBuf c.pos h.pos
      simp only [hrb, List.getLast?_append, List.getLast?_singleton, Option.some_or,
        List.dropLast_concat]
      rw [h0] at hs'; rw [hs']; exact hsim
  · simp only [ContainerSeq.cancel, h0, ne_eq, not_false_eq_true, if_true]
    obtain ⟨n, hn⟩ := Nat.exists_eq_succ_of_ne_zero h0
    rw [hn] at hsv
    simp only [List.replicate_succ, List.cons_append] at hsv
    rw [hsv]
    have hnone := h.empties h0
    refine ⟨h.nonempty, h.nextId, h.kle, h.bufs, h.text, h.final, h.pos, ?_, fun _ => hnone⟩
    exact ⟨ps, hst, by simp [hn]⟩

theorem Sim.addBuffer (h : Sim hs s c) (b : List Ch) (f : Bool) (hf : c.final = false) :
    ∃ s', ContainerSeq.addBuffer s b f = some s' ∧
      Sim (if b = [] then hs else hs ++ [b]) s' (c.feed b f) := by
  have hf' : s.final_ = false := by rw [← h.final]; exact hf
  simp only [ContainerSeq.addBuffer, hf', Bool.false_eq_true, if_false]
  by_cases hb : b = []
  · subst hb
    simp only [List.isEmpty_nil, if_true]
    exact ⟨_, rfl, h.nonempty, h.nextId, h.kle, h.bufs, by simp [Cursor.feed, h.text], rfl,
      h.pos, h.stack, h.empties⟩
  · have hbe : b.isEmpty = false := by cases b <;> simp_all
    simp only [hbe, Bool.false_eq_true, if_false, hb]
    obtain ⟨ps, hst, hsv⟩ := h.stack
    have hne : ∀ x ∈ hs ++ [b], x ≠ [] := by
      intro x hx
      rcases List.mem_append.mp hx with hx | hx
      · exact h.nonempty x hx
      · simp at hx; subst hx; exact hb
    have hpush : s.buffers ++ [Buffer.mk s.nextId b]
        = mkBufs (keepIdx s hs.length) ((hs ++ [b]).drop (keepIdx s hs.length)) := by
      have hk := h.kle
      rw [List.drop_append_of_le_length hk, mkBufs_append, h.bufs, h.nextId]
      congr 3
      simp; omega
    rcases h.pos with ⟨h1, h2, h3⟩ | ⟨i, off, he, hk, hi, ho, hp⟩
    · -- starving: bootstrap on the new buffer
      have hem : s.empty = true := by simp [ContainerSeq.empty, h1]
      simp only [hem, if_true]
      have hlast : ∀ fl cu cb rb er ni, (ContainerSeq.mk (s.buffers ++ [Buffer.mk s.nextId b])
          fl cu cb rb er ni).lastIt = some hs.length := by
        intros; simp [lastIt, h.nextId]
      simp only [hlast]
      simp only [Option.map_some]
      have hve : ∀ k', k' ≤ hs.length →
          ValidEntry (hs ++ [b]) k' (some (hs.length, 0), some hs.length) hs.flatten.length := by
        intro k' hk'
        refine ⟨hs.length, 0, rfl, hk', by simp, ?_, ?_⟩
        · simp; exact List.length_pos_iff.mpr hb
        · rw [start_append _ _ _ (by omega), start_length]; rfl
      refine ⟨_, rfl, ?_⟩
      have hkeep' : keepIdx { s with
            buffers := s.buffers ++ [Buffer.mk s.nextId b],
            curBuf := some hs.length, current := some (hs.length, 0),
            rollback := s.rollback ++
              List.replicate s.emptyRollbacks (some (hs.length, 0), some hs.length),
            emptyRollbacks := 0, final_ := f, nextId := s.nextId + 1 } (hs ++ [b]).length
          = keepIdx s hs.length := by
        cases hrb : s.rollback with
        | nil =>
          simp only [keepIdx, hrb, h1, List.nil_append]
          cases s.emptyRollbacks <;> simp [List.replicate_succ]
        | cons e es =>
          rw [hrb] at hst
          cases hst with
          | cons hve _ =>
            obtain ⟨i0, off0, rfl, _⟩ := hve
            simp [keepIdx, hrb]
      refine ⟨hne, ?_, ?_, ?_, ?_, rfl, ?_, ?_, ?_⟩
      · show s.nextId + 1 = _; simp [h.nextId]
      · rw [hkeep']; have := h.kle; simp; omega
      · rw [hkeep']; exact hpush
      · simp [Cursor.feed, h.text]
      · right; rw [hkeep']; show ValidEntry _ _ _ c.pos; rw [h3]; exact hve _ h.kle
      · rw [hkeep']
        refine ⟨ps ++ List.replicate s.emptyRollbacks hs.flatten.length, ?_, ?_⟩
        · exact hst.mono.replicate (hve _ h.kle) _
        · show c.saved = _
          rw [hsv]; simp
      · intro h0; exact absurd rfl h0
    · simp only [Prod.mk.injEq] at he
      have hem : s.empty = false := by simp [ContainerSeq.empty, he.2]
      simp only [hem, Bool.false_eq_true, if_false]
      refine ⟨_, rfl, ?_⟩
      have hemp : s.emptyRollbacks = 0 := by
        by_cases h0 : s.emptyRollbacks = 0
        · exact h0
        · have := h.empties h0; rw [he.2] at this; cases this
      have hkeep' : keepIdx { s with
            buffers := s.buffers ++ [Buffer.mk s.nextId b],
            final_ := f, nextId := s.nextId + 1 } (hs ++ [b]).length
          = keepIdx s hs.length := by
        cases hrb : s.rollback with
        | nil => simp [keepIdx, hrb, he.2]
        | cons e es =>
          rw [hrb] at hst
          cases hst with
          | cons hve _ =>
            obtain ⟨i0, off0, rfl, _⟩ := hve
            simp [keepIdx, hrb]
      refine ⟨hne, ?_, ?_, ?_, ?_, rfl, ?_, ?_, ?_⟩
      · show s.nextId + 1 = _; simp [h.nextId]
      · rw [hkeep']; have := h.kle; simp; omega
      · rw [hkeep']; exact hpush
      · simp [Cursor.feed, h.text]
      · right; rw [hkeep']
        have hve : ValidEntry hs (keepIdx s hs.length) (s.current, s.curBuf) c.pos :=
          ⟨i, off, by simp [he], hk, hi, ho, hp⟩
        exact hve.mono
      · rw [hkeep']
        exact ⟨ps, hst.mono, by show c.saved = _; rw [hsv]; simp [hemp]⟩
      · intro h0; exact absurd hemp h0

theorem addBuffer_final (h : Sim hs s c) (b : List Ch) (f : Bool) (hf : c.final = true) :
    ContainerSeq.addBuffer s b f = none := by
  have hf' : s.final_ = true := by rw [← h.final]; exact hf
  simp [ContainerSeq.addBuffer, hf']

theorem Sim.advance_rel (h : Sim hs s c) :
    Option.Rel (Sim hs) (ContainerSeq.advance s) (DataSource.advance c) := by
  have := h.advance
  generalize ContainerSeq.advance s = a at this ⊢
  generalize DataSource.advance c = b at this ⊢
  cases a <;> cases b <;> first | exact .none | exact .some this | exact this.elim

theorem Sim.commit_rel (h : Sim hs s c) :
    Option.Rel (Sim hs) (ContainerSeq.commit s) (DataSource.commit c) := by
  have := h.commit
  generalize ContainerSeq.commit s = a at this ⊢
  generalize DataSource.commit c = b at this ⊢
  cases a <;> cases b <;> first | exact .none | exact .some this | exact this.elim

theorem Sim.cancel_rel (h : Sim hs s c) :
    Option.Rel (Sim hs) (ContainerSeq.cancel s) (DataSource.cancel c) := by
  have := h.cancel
  generalize ContainerSeq.cancel s = a at this ⊢
  generalize DataSource.cancel c = b at this ⊢
  cases a <;> cases b <;> first | exact .none | exact .some this | exact this.elim

end
end ContainerSeq
end Abu
