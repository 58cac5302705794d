import Verif.Proofs.ContainerSeq
import Verif.Spec.Session
/-
Simulations between data sources, and the consequences of `ContainerSeq.Sim` for whole
sequences of operations.
-/
namespace Abu

/-- `R` relates data source states that no parser can tell apart. -/
structure DsSim {σ τ : Type} [DataSource σ] [DataSource τ] (R : σ → τ → Prop) : Prop where
  empty : ∀ {s c}, R s c → DataSource.empty s = DataSource.empty c
  final : ∀ {s c}, R s c → DataSource.final s = DataSource.final c
  next : ∀ {s c}, R s c → DataSource.next s = DataSource.next c
  advance : ∀ {s c}, R s c → Option.Rel R (DataSource.advance s) (DataSource.advance c)
  prepare : ∀ {s c}, R s c → R (DataSource.prepare s) (DataSource.prepare c)
  commit : ∀ {s c}, R s c → Option.Rel R (DataSource.commit s) (DataSource.commit c)
  cancel : ∀ {s c}, R s c → Option.Rel R (DataSource.cancel s) (DataSource.cancel c)

namespace ContainerSeq

/-- The relation between a buffer sequence and a cursor. -/
def Rel (s : ContainerSeq) (c : Cursor) : Prop := ∃ hs, Sim hs s c

theorem _root_.Option.Rel.imp {α β} {R S : α → β → Prop} (h : ∀ a b, R a b → S a b)
    {a : Option α} {b : Option β} (hr : Option.Rel R a b) : Option.Rel S a b := by
  cases hr with
  | none => exact .none
  | some hr => exact .some (h _ _ hr)

theorem dsSim : DsSim Rel where
  empty := fun ⟨_, h⟩ => h.empty_eq
  final := fun ⟨_, h⟩ => h.final_eq
  next := fun ⟨_, h⟩ => h.next_eq
  advance := fun ⟨hs, h⟩ => h.advance_rel.imp fun _ _ h => ⟨hs, h⟩
  prepare := fun ⟨hs, h⟩ => ⟨hs, h.prepare⟩
  commit := fun ⟨hs, h⟩ => h.commit_rel.imp fun _ _ h => ⟨hs, h⟩
  cancel := fun ⟨hs, h⟩ => h.cancel_rel.imp fun _ _ h => ⟨hs, h⟩

/-- Buffers known to the simulation after one more operation. -/
def grow (hs : List (List Ch)) (op : DsOp) : List (List Ch) := hs ++ addedBuffers [op]

theorem Sim.step {hs s c} (h : Sim hs s c) (op : DsOp) :
    Option.Rel (Sim (grow hs op)) (s.step op) (c.step op) := by
  cases op with
  | add b f =>
    simp only [ContainerSeq.step, Cursor.step]
    by_cases hf : c.final = true
    · rw [addBuffer_final h b f hf, if_pos hf]; exact .none
    · have hf' : c.final = false := by simpa using hf
      obtain ⟨s', e, hs'⟩ := h.addBuffer b f hf'
      rw [e, if_neg hf]
      refine .some ?_
      simp only [grow, addedBuffers]
      by_cases hb : b = [] <;> simp [hb] at hs' ⊢ <;> exact hs'
  | advance => simp only [grow, addedBuffers, List.append_nil]; exact h.advance_rel
  | prepare => simp only [grow, addedBuffers, List.append_nil]; exact .some h.prepare
  | commit => simp only [grow, addedBuffers, List.append_nil]; exact h.commit_rel
  | cancel => simp only [grow, addedBuffers, List.append_nil]; exact h.cancel_rel

theorem addedBuffers_append (l m : List DsOp) :
    addedBuffers (l ++ m) = addedBuffers l ++ addedBuffers m := by
  induction l with
  | nil => rfl
  | cons op l ih => cases op <;> simp [addedBuffers, ih]; split <;> simp

theorem addedText_append (l m : List DsOp) :
    addedText (l ++ m) = addedText l ++ addedText m := by
  induction l with
  | nil => rfl
  | cons op l ih => cases op <;> simp [addedText, ih]

theorem Sim.steps {hs s c} (h : Sim hs s c) (ops : List DsOp) :
    Option.Rel (Sim (hs ++ addedBuffers ops)) (ops.foldlM ContainerSeq.step s)
      (ops.foldlM Cursor.step c) := by
  induction ops generalizing hs s c with
  | nil => simp only [addedBuffers, List.append_nil]; exact Option.Rel.some h
  | cons op ops ih =>
    simp only [List.foldlM_cons]
    have h1 := h.step op
    generalize s.step op = s1 at h1 ⊢
    generalize c.step op = c1 at h1 ⊢
    cases h1 with
    | none => exact .none
    | some h1 =>
      have := ih h1
      rw [show op :: ops = [op] ++ ops from rfl, addedBuffers_append, ← List.append_assoc]
      exact this

theorem sim_after (ops : List DsOp) :
    Option.Rel (Sim (addedBuffers ops)) (ContainerSeq.after ops) (Cursor.after ops) := by
  have := sim_make.steps ops
  simp only [List.nil_append] at this
  exact this

end ContainerSeq

namespace SingleForward

/-- Relation between the iterator-pair source and a cursor over a complete text. -/
def Rel (s : SingleForward) (c : Cursor) : Prop :=
  s.endd = s.text.length ∧ c.text = s.text ∧ c.pos = s.current ∧ s.current ≤ s.text.length ∧
  c.saved = s.stack ∧ (∀ p ∈ s.stack, p ≤ s.text.length) ∧ c.final = true

theorem rel_make (t : List Ch) : Rel (make t) (Cursor.whole t) := by
  simp [Rel, make, Cursor.whole]

theorem dsSim : DsSim Rel where
  empty := by
    rintro s c ⟨h1, h2, h3, h4, h5, h6, h7⟩
    show (s.current == s.endd) = decide (c.text.length ≤ c.pos)
    rw [h1, h2, h3]
    by_cases h : s.current = s.text.length
    · simp [h]
    · have : ¬ s.text.length ≤ s.current := by omega
      simp [h, this]
  final := by
    rintro s c ⟨h1, h2, h3, h4, h5, h6, h7⟩
    exact h7.symm
  next := by
    rintro s c ⟨h1, h2, h3, h4, h5, h6, h7⟩
    show s.text[s.current]? = c.text[c.pos]?
    rw [h2, h3]
  advance := by
    rintro s c ⟨h1, h2, h3, h4, h5, h6, h7⟩
    show Option.Rel Rel (if (s.current == s.endd) = true then none else _)
      (if c.pos < c.text.length then _ else _)
    rw [h1, h2, h3]
    by_cases h : s.current = s.text.length
    · simp only [h, beq_self_eq_true, if_true, Nat.lt_irrefl, if_false]; exact .none
    · have : s.current < s.text.length := by omega
      simp only [beq_iff_eq, h, if_false, this, if_true]
      exact .some ⟨rfl, rfl, rfl, this, h5, h6, h7⟩
  prepare := by
    rintro s c ⟨h1, h2, h3, h4, h5, h6, h7⟩
    refine ⟨h1, h2, h3, h4, ?_, ?_, h7⟩
    · show c.pos :: c.saved = s.current :: s.stack; rw [h3, h5]
    · intro p hp
      rcases List.mem_cons.mp hp with rfl | hp
      · exact h4
      · exact h6 p hp
  commit := by
    rintro s c ⟨h1, h2, h3, h4, h5, h6, h7⟩
    show Option.Rel Rel (SingleForward.commit s) (match c.saved with
      | [] => none
      | p :: ps => some { c with pos := p, saved := ps })
    rw [h5]; unfold SingleForward.commit
    cases hst : s.stack with
    | nil => exact .none
    | cons p ps =>
      refine .some ⟨h1, h2, rfl, h6 p (by simp [hst]), rfl, ?_, h7⟩
      intro q hq; exact h6 q (by simp [hst]; exact .inr hq)
  cancel := by
    rintro s c ⟨h1, h2, h3, h4, h5, h6, h7⟩
    show Option.Rel Rel (SingleForward.cancel s) (match c.saved with
      | [] => none
      | _ :: ps => some { c with saved := ps })
    rw [h5]; unfold SingleForward.cancel
    cases hst : s.stack with
    | nil => exact .none
    | cons p ps =>
      refine .some ⟨h1, h2, h3, h4, rfl, ?_, h7⟩
      intro q hq; exact h6 q (by simp [hst]; exact .inr hq)

end SingleForward

/-! ### Reading a cursor -/

theorem Cursor.reads_drop (c : Cursor) : Reads c (c.text.drop c.pos) := by
  obtain ⟨text, pos, saved, final⟩ := c
  show Reads (Cursor.mk text pos saved final) (text.drop pos)
  generalize hn : text.length - pos = n
  induction n generalizing pos with
  | zero =>
    have : text.drop pos = [] := by simp; omega
    rw [this]
    exact .done (by show decide (text.length ≤ pos) = true; simp; omega)
  | succ n ih =>
    have hlt : pos < text.length := by omega
    rw [List.drop_eq_getElem_cons hlt]
    refine .read (s' := ⟨text, pos + 1, saved, final⟩) ?_ ?_ ?_ (ih (pos + 1) (by omega))
    · show decide (text.length ≤ pos) = false; simp; omega
    · show text[pos]? = _; simp [hlt]
    · show (if pos < text.length then _ else _) = _; simp [hlt]

theorem Reads.unique {σ} [DataSource σ] {s : σ} {t u : List Ch} (h : Reads s t)
    (h' : Reads s u) : t = u := by
  induction h generalizing u with
  | done he => cases h' with
    | done => rfl
    | read he' => rw [he] at he'; cases he'
  | read he hn ha _ ih => cases h' with
    | done he' => rw [he] at he'; cases he'
    | read he' hn' ha' hr =>
      rw [hn] at hn'; rw [ha] at ha'
      cases hn'; cases ha'; rw [ih hr]

theorem DsSim.reads {σ τ} [DataSource σ] [DataSource τ] {R : σ → τ → Prop} (hR : DsSim R)
    {s : σ} {c : τ} (h : R s c) {t : List Ch} (hr : Reads c t) : Reads s t := by
  induction hr generalizing s with
  | done he => exact .done (by rw [hR.empty h]; exact he)
  | read he hn ha _ ih =>
    have h2 := hR.advance h
    rw [ha] at h2
    generalize hx : DataSource.advance s = x at h2
    cases h2 with
    | some h2 =>
      exact .read (by rw [hR.empty h]; exact he) (by rw [hR.next h]; exact hn) hx (ih h2)

/-! ### Balanced operation sequences on a cursor -/

theorem Cursor.step_text {c c' : Cursor} {op : DsOp} (h : c.step op = some c') :
    c'.text = c.text ++ addedText [op] := by
  cases op with
  | add b f =>
    simp only [Cursor.step] at h
    split at h
    · cases h
    · cases h; simp [Cursor.feed, addedText]
  | advance =>
    simp only [Cursor.step, DataSource.advance] at h
    split at h
    · cases h; simp [addedText]
    · cases h
  | prepare => cases h; simp [DataSource.prepare, addedText]
  | commit =>
    simp only [Cursor.step, DataSource.commit] at h
    split at h
    · cases h
    · cases h; simp [addedText]
  | cancel =>
    simp only [Cursor.step, DataSource.cancel] at h
    split at h
    · cases h
    · cases h; simp [addedText]

theorem Cursor.steps_text {c c' : Cursor} {ops : List DsOp}
    (h : ops.foldlM Cursor.step c = some c') : c'.text = c.text ++ addedText ops := by
  induction ops generalizing c with
  | nil => simp [addedText] at h ⊢; rw [h]
  | cons op ops ih =>
    simp only [List.foldlM_cons] at h
    cases h1 : c.step op with
    | none => rw [h1] at h; cases h
    | some c1 =>
      rw [h1] at h
      have := ih h
      rw [this, step_text h1, List.append_assoc, ← ContainerSeq.addedText_append]; rfl

theorem foldlM_append_some {α β} {f : β → α → Option β} {l m : List α} {b b'' : β}
    (h : (l ++ m).foldlM f b = some b'') :
    ∃ b', l.foldlM f b = some b' ∧ m.foldlM f b' = some b'' := by
  rw [List.foldlM_append] at h
  cases h1 : l.foldlM f b with
  | none => rw [h1] at h; cases h
  | some b' => rw [h1] at h; exact ⟨b', rfl, h⟩

theorem Balanced.saved {ops : List DsOp} (hb : Balanced ops) {c c' : Cursor}
    (h : ops.foldlM Cursor.step c = some c') : c'.saved = c.saved := by
  induction hb generalizing c c' with
  | nil => cases h; rfl
  | add b f =>
    simp only [List.foldlM_cons, Cursor.step] at h
    split at h
    · cases h
    · cases h; rfl
  | advance =>
    simp only [List.foldlM_cons, Cursor.step, DataSource.advance] at h
    split at h
    · cases h; rfl
    · cases h
  | append _ _ ih1 ih2 =>
    obtain ⟨c1, h1, h2⟩ := foldlM_append_some h
    rw [ih2 h2, ih1 h1]
  | commit _ ih =>
    obtain ⟨c1, h1, h2⟩ := foldlM_append_some h
    have := ih (c := DataSource.prepare c) h1
    simp only [List.foldlM_cons, List.foldlM_nil, Cursor.step, DataSource.commit, this] at h2
    simp only [DataSource.prepare] at h2
    cases h2; rfl
  | cancel _ ih =>
    obtain ⟨c1, h1, h2⟩ := foldlM_append_some h
    have := ih (c := DataSource.prepare c) h1
    simp only [List.foldlM_cons, List.foldlM_nil, Cursor.step, DataSource.cancel, this] at h2
    simp only [DataSource.prepare] at h2
    cases h2; rfl

theorem Cursor.pos_le {ops : List DsOp} {c c' : Cursor}
    (hc : c.pos ≤ c.text.length ∧ ∀ p ∈ c.saved, p ≤ c.text.length)
    (h : ops.foldlM Cursor.step c = some c') :
    c'.pos ≤ c'.text.length ∧ ∀ p ∈ c'.saved, p ≤ c'.text.length := by
  induction ops generalizing c with
  | nil => cases h; exact hc
  | cons op ops ih =>
    simp only [List.foldlM_cons] at h
    cases h1 : c.step op with
    | none => rw [h1] at h; cases h
    | some c1 =>
      rw [h1] at h
      refine ih ?_ h
      obtain ⟨hc1, hc2⟩ := hc
      cases op with
      | add b f =>
        simp only [Cursor.step] at h1
        split at h1
        · cases h1
        · cases h1
          simp only [Cursor.feed, List.length_append]
          exact ⟨by omega, fun p hp => by have := hc2 p hp; omega⟩
      | advance =>
        simp only [Cursor.step, DataSource.advance] at h1
        split at h1
        · cases h1; exact ⟨by simpa, hc2⟩
        · cases h1
      | prepare =>
        cases h1
        exact ⟨hc1, fun p hp => by
          rcases List.mem_cons.mp hp with rfl | hp
          · exact hc1
          · exact hc2 p hp⟩
      | commit =>
        simp only [Cursor.step, DataSource.commit] at h1
        split at h1
        · cases h1
        · rename_i p ps hs
          cases h1
          exact ⟨hc2 p (by simp [hs]), fun q hq => hc2 q (by simp [hs]; exact .inr hq)⟩
      | cancel =>
        simp only [Cursor.step, DataSource.cancel] at h1
        split at h1
        · cases h1
        · rename_i p ps hs
          cases h1
          exact ⟨hc1, fun q hq => hc2 q (by simp [hs]; exact .inr hq)⟩

/-! ### Retained buffers -/

theorem neededFrom_ge (hs : List (List Ch)) (p : Nat) (h : hs.flatten.length ≤ p) :
    neededFrom p hs = [] := by
  induction hs generalizing p with
  | nil => rfl
  | cons b bs ih =>
    simp only [List.flatten_cons, List.length_append] at h
    simp only [neededFrom]
    rw [if_pos (by omega), ih _ (by omega)]

theorem neededFrom_at (hs : List (List Ch)) (i off : Nat) (hi : i < hs.length)
    (ho : off < hs[i].length) : neededFrom (ContainerSeq.start hs i + off) hs = hs.drop i := by
  induction hs generalizing i with
  | nil => simp at hi
  | cons b bs ih =>
    cases i with
    | zero =>
      have : ¬ b.length ≤ off := by simpa using ho
      simp [ContainerSeq.start, neededFrom, this]
    | succ i =>
      have e : ContainerSeq.start (b :: bs) (i + 1) = b.length + ContainerSeq.start bs i := by
        simp [ContainerSeq.start]
      simp only [neededFrom]
      rw [if_pos (by omega), e]
      have : b.length + ContainerSeq.start bs i + off - b.length
          = ContainerSeq.start bs i + off := by omega
      rw [this, ih i (by simpa using hi) (by simpa using ho)]
      simp

theorem ContainerSeq.Sim.retained {hs s c} (h : ContainerSeq.Sim hs s c) :
    s.buffers.map Buffer.data = neededFrom c.oldest hs := by
  rw [h.bufs, ContainerSeq.mkBufs_map]
  obtain ⟨ps, hst, hsv⟩ := h.stack
  unfold Cursor.oldest
  cases hrb : s.rollback with
  | nil =>
    rw [hrb] at hst; cases hst
    simp only [List.reverse_nil, List.append_nil] at hsv
    rcases h.pos with ⟨h1, _, h3⟩ | ⟨i, off, he, hk, hi, ho, hp⟩
    · have : c.saved.getLast?.getD c.pos = hs.flatten.length := by
        rw [hsv, h3]
        cases s.emptyRollbacks with
        | zero => rfl
        | succ n => rw [List.getLast?_replicate]; simp
      rw [this, neededFrom_ge _ _ (Nat.le_refl _)]
      simp [ContainerSeq.keepIdx, hrb, h1]
    · simp only [Prod.mk.injEq] at he
      have hemp : s.emptyRollbacks = 0 := by
        by_cases h0 : s.emptyRollbacks = 0
        · exact h0
        · have := h.empties h0; rw [he.2] at this; cases this
      rw [hemp] at hsv; simp at hsv
      rw [hsv]
      simp only [List.getLast?_nil, Option.getD_none]
      rw [hp, neededFrom_at _ _ _ hi ho]
      simp [ContainerSeq.keepIdx, hrb, he.2]
  | cons e es =>
    rw [hrb] at hst
    cases hst with
    | @cons _ p _ ps' hve _ =>
      obtain ⟨i, off, rfl, hk, hi, ho, rfl⟩ := hve
      rw [hsv]
      simp only [List.reverse_cons, ← List.append_assoc, List.getLast?_append,
        List.getLast?_singleton, Option.some_or, Option.getD_some]
      rw [neededFrom_at _ _ _ hi ho]
      simp [ContainerSeq.keepIdx, hrb]

/-- The older rollback points do not matter to a balanced sequence of operations. -/
theorem Balanced.other_saved {ops : List DsOp} (hb : Balanced ops) {c c' : Cursor}
    (h : ops.foldlM Cursor.step c = some c') (S : List Nat) :
    ops.foldlM Cursor.step { c with saved := S } = some { c' with saved := S } := by
  induction hb generalizing c c' S with
  | nil => cases h; rfl
  | add b f =>
    simp only [List.foldlM_cons, List.foldlM_nil, Cursor.step] at h ⊢
    split at h
    · cases h
    · rename_i hf
      cases h
      rw [if_neg hf]; rfl
  | advance =>
    simp only [List.foldlM_cons, List.foldlM_nil, Cursor.step, DataSource.advance] at h ⊢
    split at h
    · rename_i hf
      cases h
      rw [if_pos hf]; rfl
    · cases h
  | append _ _ ih1 ih2 =>
    obtain ⟨c1, h1, h2⟩ := foldlM_append_some h
    rw [List.foldlM_append, ih1 h1 S]
    exact ih2 h2 S
  | @commit l hl ih =>
    obtain ⟨c1, h1, h2⟩ := foldlM_append_some h
    have hs := hl.saved (c := DataSource.prepare c) h1
    have := ih (c := DataSource.prepare c) h1 (c.pos :: S)
    rw [List.foldlM_append, List.foldlM_cons]
    simp only [Cursor.step, Option.bind_eq_bind, Option.bind_some]
    rw [show (DataSource.prepare { c with saved := S } : Cursor)
      = { (DataSource.prepare c : Cursor) with saved := c.pos :: S } from rfl, this]
    simp only [List.foldlM_cons, List.foldlM_nil, Cursor.step, DataSource.commit, hs] at h2
    simp only [DataSource.prepare] at h2
    cases h2
    rfl
  | @cancel l hl ih =>
    obtain ⟨c1, h1, h2⟩ := foldlM_append_some h
    have hs := hl.saved (c := DataSource.prepare c) h1
    have := ih (c := DataSource.prepare c) h1 (c.pos :: S)
    rw [List.foldlM_append, List.foldlM_cons]
    simp only [Cursor.step, Option.bind_eq_bind, Option.bind_some]
    rw [show (DataSource.prepare { c with saved := S } : Cursor)
      = { (DataSource.prepare c : Cursor) with saved := c.pos :: S } from rfl, this]
    simp only [List.foldlM_cons, List.foldlM_nil, Cursor.step, DataSource.cancel, hs] at h2
    simp only [DataSource.prepare] at h2
    cases h2
    rfl

theorem arrivals_append (l m : List DsOp) : arrivals (l ++ m) = arrivals l ++ arrivals m := by
  induction l with
  | nil => rfl
  | cons op l ih => cases op <;> simp [arrivals, ih]

/-- The arrivals alone. -/
theorem arrivals_steps {ops : List DsOp} {c c' : Cursor}
    (h : ops.foldlM Cursor.step c = some c') :
    ∀ (p : Nat) (S : List Nat), (arrivals ops).foldlM Cursor.step { c with pos := p, saved := S } =
      some { c' with pos := p, saved := S } := by
  intro p S
  induction ops generalizing c with
  | nil => cases h; rfl
  | cons op ops ih =>
    rw [List.foldlM_cons] at h
    cases hs : c.step op with
    | none => rw [hs] at h; cases h
    | some c1 =>
      rw [hs] at h
      have := ih h
      have hsame : ∀ (op : DsOp), c.step op = some c1 → (∀ b f, op ≠ .add b f) →
          c1.text = c.text ∧ c1.final = c.final := by
        intro op hs ho
        cases op with
        | add b f => exact absurd rfl (ho b f)
        | advance =>
          simp only [Cursor.step, DataSource.advance] at hs
          split at hs
          · cases hs; exact ⟨rfl, rfl⟩
          · cases hs
        | prepare => cases hs; exact ⟨rfl, rfl⟩
        | commit =>
          simp only [Cursor.step, DataSource.commit] at hs
          split at hs <;> cases hs
          exact ⟨rfl, rfl⟩
        | cancel =>
          simp only [Cursor.step, DataSource.cancel] at hs
          split at hs <;> cases hs
          exact ⟨rfl, rfl⟩
      have keep : (∀ b f, op ≠ .add b f) →
          (arrivals ops).foldlM Cursor.step { c with pos := p, saved := S } =
            some { c' with pos := p, saved := S } := by
        intro ho
        obtain ⟨h1, h2⟩ := hsame op hs ho
        rw [show ({ c with pos := p, saved := S } : Cursor) = { c1 with pos := p, saved := S } by
          rw [Cursor.mk.injEq]; exact ⟨h1.symm, rfl, rfl, h2.symm⟩]
        exact this
      cases op with
      | add b f =>
        simp only [arrivals, List.foldlM_cons, Cursor.step] at hs ⊢
        split at hs
        · cases hs
        · rename_i hf
          cases hs
          rw [if_neg hf]
          exact this
      | advance => exact keep (by simp)
      | prepare => exact keep (by simp)
      | commit => exact keep (by simp)
      | cancel => exact keep (by simp)

/-- What the cursor is after a rollback. -/
theorem after_commit {mid : List DsOp} (hb : Balanced mid) {c c' : Cursor}
    (h : (DsOp.prepare :: mid ++ [DsOp.commit]).foldlM Cursor.step c = some c') :
    (arrivals mid).foldlM Cursor.step c = some c' := by
  obtain ⟨c1, h1, h2⟩ := foldlM_append_some h
  have hs := hb.saved (c := DataSource.prepare c) h1
  have := arrivals_steps (c := DataSource.prepare c) (ops := mid) h1 c.pos c.saved
  simp only [List.foldlM_cons, List.foldlM_nil, Cursor.step, DataSource.commit, hs] at h2
  simp only [DataSource.prepare] at h2
  cases h2
  exact this

/-- What the cursor is after a cancelled rollback point. -/
theorem after_cancel {mid : List DsOp} (hb : Balanced mid) {c c' : Cursor}
    (h : (DsOp.prepare :: mid ++ [DsOp.cancel]).foldlM Cursor.step c = some c') :
    mid.foldlM Cursor.step c = some c' := by
  obtain ⟨c1, h1, h2⟩ := foldlM_append_some h
  have hs := hb.saved (c := DataSource.prepare c) h1
  have := hb.other_saved (c := DataSource.prepare c) h1 c.saved
  simp only [List.foldlM_cons, List.foldlM_nil, Cursor.step, DataSource.cancel, hs] at h2
  simp only [DataSource.prepare] at h2
  cases h2
  exact this

theorem SingleForward.sim_steps {s c} (h : Rel s c) (ops : List DsOp) :
    Option.Rel Rel (ops.foldlM SingleForward.step s) (ops.foldlM Cursor.step c) := by
  induction ops generalizing s c with
  | nil => exact .some h
  | cons op ops ih =>
    simp only [List.foldlM_cons]
    have h1 : Option.Rel Rel (s.step op) (c.step op) := by
      cases op with
      | add b f =>
        have : c.final = true := h.2.2.2.2.2.2
        simp only [SingleForward.step, Cursor.step, this, if_true]
        exact .none
      | advance => exact dsSim.advance h
      | prepare => exact .some (dsSim.prepare h)
      | commit => exact dsSim.commit h
      | cancel => exact dsSim.cancel h
    generalize s.step op = s1 at h1 ⊢
    generalize c.step op = c1 at h1 ⊢
    cases h1 with
    | none => exact .none
    | some h1 => exact ih h1

/-- Reading from an iterator-pair source is reading from the cursor. -/
theorem SingleForward.after_reads (t : List Ch) (ops : List DsOp) (r : List Ch) :
    (∃ s, SingleForward.after t ops = some s ∧ Reads s r) ↔
    ∃ c, ops.foldlM Cursor.step (Cursor.whole t) = some c ∧ r = c.text.drop c.pos := by
  have h := SingleForward.sim_steps (SingleForward.rel_make t) ops
  change Option.Rel _ (SingleForward.after t ops) _ at h
  generalize SingleForward.after t ops = x at h ⊢
  generalize ops.foldlM Cursor.step (Cursor.whole t) = y at h ⊢
  cases h with
  | none => simp
  | @some s c h =>
    have := SingleForward.dsSim.reads h c.reads_drop
    constructor
    · rintro ⟨_, e, hr⟩
      cases e
      exact ⟨_, rfl, hr.unique this⟩
    · rintro ⟨_, e, rfl⟩
      cases e
      exact ⟨_, rfl, this⟩

end Abu
