import Verif.Spec.Copies
import Verif.Proofs.Objects
/-
Copies of parser objects.
-/
namespace Abu

/-- Where the objects are for the copy. -/
def copyPlace (k n : Nat) : Place := fun o => if o < k then (o, []) else (o - k + n, [])

theorem Ref.copyAt_move (k n : Nat) (r : Ref) : r.copyAt k n = r.move (copyPlace k n) := by
  cases r with
  | nil => rfl
  | «at» o p t =>
    simp only [Ref.copyAt, Ref.move, copyPlace]
    split <;> rfl

theorem PState.copyAt_move (k n : Nat) : ∀ st : PState, st.copyAt k n = st.move (copyPlace k n)
  | .seq _ c => by simp only [PState.copyAt, PState.move, PState.copyAt_move k n c]
  | .alt _ c => by simp only [PState.copyAt, PState.move, PState.copyAt_move k n c]
  | .rep _ c => by simp only [PState.copyAt, PState.move, PState.copyAt_move k n c]
  | .wrap c => by simp only [PState.copyAt, PState.move, PState.copyAt_move k n c]
  | .buffered b c => by
    simp only [PState.copyAt, PState.move, PState.copyAt_move k n c, Ref.copyAt_move]
  | .skip _ s c => by
    simp only [PState.copyAt, PState.move, PState.copyAt_move k n c, PState.copyAt_move k n s]
  | .except _ c => by simp only [PState.copyAt, PState.move, PState.copyAt_move k n c]
  | .list _ c => by simp only [PState.copyAt, PState.move, PState.copyAt_move k n c]
  | .recurSome c => by simp only [PState.copyAt, PState.move, PState.copyAt_move k n c]
  | .unit => rfl
  | .strLit _ => rfl
  | .symbol _ _ => rfl
  | .uint _ => rfl
  | .int _ _ _ => rfl
  | .recurNone => rfl

theorem copyPlace_ok {k n : Nat} (h : k ≤ n) : (copyPlace k n).Ok n (n + (n - k)) where
  new o ho := by
    simp only [copyPlace, if_neg (show ¬ o < k by omega)]
    congr 1
    omega
  old o ho := by
    simp only [copyPlace]
    split <;> simp only <;> omega
  disjoint o o' hne := by
    left
    simp only [copyPlace]
    split <;> split <;> simp only <;> omega

theorem copyPlace_memR {k : Nat} {m : Mem} (h : k ≤ m.objs.length) :
    MemR (copyPlace k m.objs.length) m.objs.length (m.objs.length + (m.objs.length - k)) m (m.copyFrom k) where
  len := by simp only [Mem.copyFrom, List.length_append, List.length_drop]; omega
  le := Nat.le_refl _
  val o v hv := by
    have ho := (List.getElem?_eq_some_iff.1 hv).1
    unfold copyPlace
    by_cases hk : o < k
    · simp only [if_pos hk, Mem.look, Mem.read, Mem.copyFrom]
      rw [List.getElem?_append_left ho, hv]; rfl
    · simp only [if_neg hk, Mem.look, Mem.read, Mem.copyFrom]
      rw [List.getElem?_append_right (by omega), List.getElem?_drop,
        show k + (o - k + m.objs.length - m.objs.length) = o by omega, hv]
      rfl
  log := rfl

theorem Ref.Inside.move {k n : Nat} {d : Ref} (h : d.Inside k) : d.move (copyPlace k n) = d := by
  cases d with
  | nil => rfl
  | «at» o p t => simp only [Ref.move, copyPlace, if_pos (h o p t rfl), List.nil_append]

theorem Ref.Inside.below {k : Nat} {d : Ref} (h : d.Inside k) : d.Below k := by
  cases d with
  | nil => trivial
  | «at» o p t => exact h o p t rfl

/-- Where the objects are for the original: `n` objects were there, now there are `n'`. -/
def keepPlace (n n' : Nat) : Place := fun o => if o < n then (o, []) else (o - n + n', [])

theorem keepPlace_ok {n n' : Nat} (h : n ≤ n') : (keepPlace n n').Ok n n' where
  new o ho := by simp only [keepPlace, if_neg (show ¬ o < n by omega)]
  old o ho := by
    simp only [keepPlace, if_pos ho]
    omega
  disjoint o o' hne := by
    left
    simp only [keepPlace]
    split <;> split <;> simp only <;> omega

theorem keepPlace_memR {k : Nat} {m : Mem} :
    MemR (keepPlace m.objs.length (m.objs.length + (m.objs.length - k))) m.objs.length
      (m.objs.length + (m.objs.length - k)) m (m.copyFrom k) where
  len := by simp only [Mem.copyFrom, List.length_append, List.length_drop]; omega
  le := Nat.le_refl _
  val o v hv := by
    have ho := (List.getElem?_eq_some_iff.1 hv).1
    unfold keepPlace
    simp only [if_pos ho, Mem.look, Mem.read, Mem.copyFrom]
    rw [List.getElem?_append_left ho, hv]; rfl
  log := rfl

theorem Ref.move_keep {n n' : Nat} {r : Ref} (h : r.Below n) : r.move (keepPlace n n') = r := by
  cases r with
  | nil => rfl
  | «at» o p t => simp only [Ref.move, keepPlace, if_pos (show o < n from h), List.nil_append]

theorem PState.move_keep {n n' : Nat} : ∀ {st : PState}, st.In (Ref.Below n) → st.move (keepPlace n n') = st
  | .seq _ c, h => by simp only [PState.move, PState.move_keep (st := c) h]
  | .alt _ c, h => by simp only [PState.move, PState.move_keep (st := c) h]
  | .rep _ c, h => by simp only [PState.move, PState.move_keep (st := c) h]
  | .wrap c, h => by simp only [PState.move, PState.move_keep (st := c) h]
  | .buffered b c, h => by simp only [PState.move, PState.move_keep (st := c) h.2, Ref.move_keep h.1]
  | .skip _ s c, h => by simp only [PState.move, PState.move_keep (st := c) h.2, PState.move_keep (st := s) h.1]
  | .except _ c, h => by simp only [PState.move, PState.move_keep (st := c) h]
  | .list _ c, h => by simp only [PState.move, PState.move_keep (st := c) h]
  | .recurSome c, h => by simp only [PState.move, PState.move_keep (st := c) h]
  | .unit, _ => rfl
  | .strLit _, _ => rfl
  | .symbol _ _, _ => rfl
  | .uint _, _ => rfl
  | .int _ _ _, _ => rfl
  | .recurNone, _ => rfl

/-! ### The copy goes on, and so does the original -/

section
variable {env : Env} {p : Pat} {dst : Ref} {k n n' : Nat} {φ : Place}

theorem MemR.same_objs {m M : Mem} (hk : k ≤ n) (hφ : ∀ o, o < k → φ o = (o, [])) (h : MemR φ n n' m M) :
    ∀ o, o < k → M.objs[o]? = m.objs[o]? := by
  intro o ho
  have hl := h.le
  have hv := List.getElem?_eq_getElem (l := m.objs) (i := o) (by omega)
  have := h.val o _ hv
  simp only [hφ o ho, Mem.look, Mem.read] at this
  rw [hv]
  split at this
  · cases this
  · rename_i v hv'
    rw [hv']
    cases this
    rfl

theorem Evals.copied {P : Prog} (hφ : φ.Ok n n') (hd : dst.move φ = dst)
    {st : PState} {ds : ContainerSeq} {m M : Mem} (h : MemR φ n n' m M) {o}
    (he : Evals env P dst dst st ⟨ds, m⟩ o) :
    ∃ o', Evals env P dst dst (st.move φ) ⟨ds, M⟩ o' ∧
      MoveOut φ n n' (fun x => (x.1, x.2.move φ)) o o' := by
  obtain ⟨hn, f, rfl⟩ := he
  have := consume_move hφ (env := env) f P dst dst dst st (ds := ds) (.inl hd.symm) h
  rw [hd] at this
  refine ⟨_, ⟨fun hf => hn ?_, f, rfl⟩, this⟩
  generalize run env f P dst dst st (⟨ds, m⟩ : World ContainerSeq Mem) = x at *
  generalize run env f P dst dst (st.move φ) (⟨ds, M⟩ : World ContainerSeq Mem) = y at *
  cases this with
  | error e => exact hf
  | ok => cases hf

/-- Object `who` is in state `st` and reads `ds`, the source of object 0. -/
structure CopySide (θ : Nat → CopyObj) (who : Nat) (st : PState) (ds : ContainerSeq) : Prop where
  who : ∃ src, θ who = .live st src 0
  zero : ∃ st0, θ 0 = .live st0 (.own ds) 0

theorem CopySide.add {θ : Nat → CopyObj} {who : Nat} {st st0 : PState} {ds : ContainerSeq}
    (h : CopySide θ who st ds) (h0 : θ 0 = .live st0 (.own ds) 0) (ds' : ContainerSeq) :
    CopySide (setCopy θ 0 (.live st0 (.own ds') 0)) who st ds' where
  who := by
    obtain ⟨src, h1⟩ := h.who
    simp only [setCopy]
    split
    · rename_i e
      subst e
      rw [h0] at h1
      cases h1
      exact ⟨_, rfl⟩
    · exact ⟨src, h1⟩
  zero := ⟨st0, by simp [setCopy]⟩

theorem CopySide.more {θ : Nat → CopyObj} {who : Nat} {st0 : PState} {src : OwnSource}
    (st' : PState) (ds' : ContainerSeq) :
    CopySide (if who = 0 then setCopy θ who (.live st' (.own ds') 0)
         else setCopy (setCopy θ who (.live st' src 0)) 0 (.live st0 (.own ds') 0)) who st' ds' := by
  split
  · rename_i e
    subst e
    exact ⟨⟨.own ds', by simp [setCopy]⟩, ⟨st', by simp [setCopy]⟩⟩
  · rename_i e
    exact ⟨⟨src, by simp [setCopy, e]⟩, ⟨st0, by simp [setCopy]⟩⟩

theorem session_copied {who : Nat} (hk : k ≤ n) (hφ : φ.Ok n n') (hid : ∀ o, o < k → φ o = (o, []))
    (hd : dst.move φ = dst) {st : PState} {w : World ContainerSeq Mem} {ops : List SOp} {v}
    (hs : Session ContainerSeq.addBuffer env (topParser p) dst st w ops v) :
    ∀ {θ : Nat → CopyObj} {M : Mem}, MemR φ n n' w.mem M → CopySide θ who (st.move φ) w.ds →
      ∃ v', Copies env p dst k θ M (ops.map (SOp.by 0 who)) v' ∧ SameEnd who k ops v v' := by
  induction hs with
  | nil _ =>
    intro θ M hm h0
    exact ⟨_, .nil, .unanswered hm.log (hm.same_objs hk hid)⟩
  | addBad h =>
    intro θ M hm h0
    obtain ⟨st0, h0⟩ := h0.zero
    exact ⟨_, .addBad h0 (by simp only [OwnSource.add, h, Option.map_none]), .error⟩
  | @add st w b f ops ds v h _ ih =>
    intro θ M hm hc
    obtain ⟨st0, h0⟩ := hc.zero
    obtain ⟨v', hv, he⟩ := ih (M := M) hm (hc.add h0 ds)
    refine ⟨v', .add h0 (by simp only [OwnSource.add, h, Option.map_some]) hv, ?_⟩
    cases he with
    | error => exact .error
    | unanswered h1 h2 => exact .unanswered h1 h2
    | @answered r m rest θ M before left h1 h2 h3 =>
      exact .answered (before := .add b f :: before) h1 h2 (by rw [h3]; rfl)
  | error h =>
    intro θ M hm hc
    obtain ⟨src, h1⟩ := hc.who
    obtain ⟨st0, h0⟩ := hc.zero
    obtain ⟨o', h2, h3⟩ := h.copied hφ hd hm
    cases h3
    exact ⟨_, .error h1 h0 h2, .error⟩
  | @verdict st w ops r st' w' rest h hr hrest =>
    intro θ M hm hc
    obtain ⟨src, h1⟩ := hc.who
    obtain ⟨st0, h0⟩ := hc.zero
    obtain ⟨o', h2, h3⟩ := h.copied hφ hd hm
    cases h3 with
    | ok _ _ hm' =>
      exact ⟨_, .answer h1 h0 h2 hr hrest, .answered (before := []) hm'.log (hm'.same_objs hk hid) rfl⟩
  | @more st w ops st' w' v h _ ih =>
    intro θ M hm hc
    obtain ⟨src, h1⟩ := hc.who
    obtain ⟨st0, h0⟩ := hc.zero
    obtain ⟨o', h2, h3⟩ := h.copied hφ hd hm
    cases h3 with
    | @ok _ ds' m' M' hm' =>
      obtain ⟨v', hv, he⟩ := ih (M := M') hm' (CopySide.more (θ := θ) (st0 := st0) (src := src) (st'.move φ) ds')
      refine ⟨v', .more h1 h0 h2 hv, ?_⟩
      cases he with
      | error => exact .error
      | unanswered h1 h2 => exact .unanswered h1 h2
      | @answered r m rest θ M before left h1 h2 h3 =>
        exact .answered (before := .consume :: before) h1 h2 (by rw [h3]; rfl)

/-- As long as object 0 has not answered, the program is where the single object is. -/
theorem session_prefix {st : PState} {w : World ContainerSeq Mem} {ops : List SOp} {v}
    (hs : Session ContainerSeq.addBuffer env (topParser p) dst st w ops v) {ops2 : List SOp} {v2}
    {N j : Nat} (hj : j ≠ 0) (hb : dst.Below N) (hN : N ≤ w.mem.objs.length) (hst : st.In (Ref.Below w.mem.objs.length)) :
    ∀ {θ : Nat → CopyObj} {m1 rest}, v = .ok (.PARTIAL, m1, rest) → θ 0 = .live st (.own w.ds) 0 →
      θ j = .absent → Session ContainerSeq.addBuffer env (topParser p) dst st w (ops ++ ops2) v2 →
      ∃ θ1 st1 w1, θ1 0 = .live st1 (.own w1.ds) 0 ∧ θ1 j = .absent ∧ N ≤ w1.mem.objs.length ∧
        st1.In (Ref.Below w1.mem.objs.length) ∧
        Session ContainerSeq.addBuffer env (topParser p) dst st1 w1 ops2 v2 ∧
        ∀ more v', Copies env p dst k θ1 w1.mem more v' →
          Copies env p dst k θ w.mem (ops.map (SOp.by 0 0) ++ more) v' := by
  induction hs with
  | @nil st w _ _ =>
    intro θ m1 rest _ h0 h1 h2
    exact ⟨θ, st, w, h0, h1, hN, hst, h2, fun _ _ h => h⟩
  | addBad h => intro θ m1 rest hv; cases hv
  | @add st w b f ops ds v h _ ih =>
    intro θ m1 rest hv h0 h1 h2
    cases h2 with
    | addBad h3 => rw [h] at h3; cases h3
    | add h3 h2 =>
      rw [h] at h3
      cases h3
      obtain ⟨θ1, st1, w1, a1, a2, a3, ab, a4, a5⟩ := ih hN hst (θ := setCopy θ 0 (.live st (.own ds) 0)) hv (by simp [setCopy])
        (by simp [setCopy, hj, h1]) h2
      exact ⟨θ1, st1, w1, a1, a2, a3, ab, a4, fun more v' h' =>
        .add h0 (by simp only [OwnSource.add, h, Option.map_some]) (a5 more v' h')⟩
  | error h => intro θ m1 rest hv; cases hv
  | verdict h hr _ => intro θ m1 rest hv; cases hv; exact absurd rfl hr
  | @more st w ops st' w' v h _ ih =>
    intro θ m1 rest hv h0 h1 h2
    cases h2 with
    | error h3 => cases h.unique h3
    | verdict h3 hr _ => cases h.unique h3; exact absurd rfl hr
    | more h3 h2 =>
      cases h.unique h3
      obtain ⟨_, f, hf⟩ := h
      have hlen := run_below (env := env) f (dst := dst) (bnd := dst)
        (fun n hn => ⟨.inl (hb.mono (Nat.le_trans hN hn)), .inl (hb.mono (Nat.le_trans hN hn))⟩) hst hf
      obtain ⟨θ1, st1, w1, a1, a2, a3, ab, a4, a5⟩ := ih (Nat.le_trans hN hlen.2) hlen.1
        (θ := setCopy θ 0 (.live st' (.own w'.ds) 0)) hv (by simp [setCopy]) (by simp [setCopy, hj, h1]) h2
      exact ⟨θ1, st1, w1, a1, a2, a3, ab, a4, fun more v' h' =>
        .more h0 h0 h3 (by simpa using a5 more v' h')⟩

theorem copied_prefix {m : Mem} (hd : dst.Inside m.objs.length) {ops1 ops2 : List SOp} {m1 : Mem} {rest1 : List Ch}
    (h1 : MakeParserRun env p dst m ops1 (.ok (.PARTIAL, m1, rest1))) {v : Verdict}
    (h : MakeParserRun env p dst m (ops1 ++ ops2) v) {j : Nat} (hj : j ≠ 0) :
    ∃ θ1 st1, ∃ w1 : World ContainerSeq Mem, θ1 0 = .live st1 (.own w1.ds) 0 ∧ θ1 j = .absent ∧
      m.objs.length ≤ w1.mem.objs.length ∧ st1.In (Ref.Below w1.mem.objs.length) ∧
      Session ContainerSeq.addBuffer env (topParser p) dst st1 w1 ops2 v ∧
      ∀ more v', Copies env p dst m.objs.length θ1 w1.mem more v' →
        CopyProgram env p dst m (ops1.map (SOp.by 0 0) ++ more) v' := by
  cases h1 with
  | @run st w _ h0 hs =>
    cases h with
    | construct h' => rw [h0] at h'; cases h'
    | run h' h =>
      rw [h0] at h'
      cases h'
      have hb := construct_below (fun n hn => .inl (hd.below.mono hn)) h0
      obtain ⟨θ1, st1, w1, a1, a2, a3, ab, a4, a5⟩ := session_prefix (k := m.objs.length) hs hj hd.below hb.2 hb.1
        (θ := fun i => if i = 0 then .live st (.own w.ds) 0 else .absent) rfl rfl (by simp [hj]) h
      exact ⟨θ1, st1, w1, a1, a2, a3, ab, a4, fun more v' h' => .run h0 (a5 more v' h')⟩

/-! ### The copy alone -/

theorem Copies.append {θ : Nat → CopyObj} {m : Mem} {a b : List CopyOp} {v : CopyEnd}
    (h : Copies env p dst k θ m (a ++ b) v) :
    (Copies env p dst k θ m a v ∧ ∀ θ' m', v ≠ .ok (none, θ', m')) ∨
      ∃ θ' m', Copies env p dst k θ m a (.ok (none, θ', m')) ∧ Copies env p dst k θ' m' b v := by
  induction a generalizing θ m with
  | nil => exact .inr ⟨θ, m, .nil, h⟩
  | cons x a ih =>
    cases h with
    | copy h1 h2 h3 h =>
      exact (ih h).imp (fun h => ⟨.copy h1 h2 h3 h.1, h.2⟩)
        fun ⟨θ', m', h, h'⟩ => ⟨θ', m', .copy h1 h2 h3 h, h'⟩
    | destroy h1 h =>
      exact (ih h).imp (fun h => ⟨.destroy h1 h.1, h.2⟩) fun ⟨θ', m', h, h'⟩ => ⟨θ', m', .destroy h1 h, h'⟩
    | addBad h1 h2 => exact .inl ⟨.addBad h1 h2, fun _ _ h => by cases h⟩
    | add h1 h2 h =>
      exact (ih h).imp (fun h => ⟨.add h1 h2 h.1, h.2⟩) fun ⟨θ', m', h, h'⟩ => ⟨θ', m', .add h1 h2 h, h'⟩
    | dangling h1 h2 => exact .inl ⟨.dangling h1 h2, fun _ _ h => by cases h⟩
    | error h1 h2 h3 => exact .inl ⟨.error h1 h2 h3, fun _ _ h => by cases h⟩
    | answer h1 h2 h3 h4 h5 => exact .inl ⟨.answer h1 h2 h3 h4 h5, fun _ _ h => by cases h⟩
    | more h1 h2 h3 h =>
      exact (ih h).imp (fun h => ⟨.more h1 h2 h3 h.1, h.2⟩)
        fun ⟨θ', m', h, h'⟩ => ⟨θ', m', .more h1 h2 h3 h, h'⟩

/-- Every object reads the source of object 0, and only object 0 has a source that works. -/
structure CopyInv (θ : Nat → CopyObj) : Prop where
  reads : ∀ i st src r, θ i = .live st src r → r = 0
  copied : ∀ i st s r, θ i = .live st (.own s) r → i = 0
  first : θ 0 ≠ .absent

theorem copy_not_own (src : OwnSource) (s : ContainerSeq) : src.copy ≠ .own s := by
  cases src <;> simp [OwnSource.copy]

theorem add_own {src src1 : OwnSource} {b f s} (h : src.add b f = some src1) (h1 : src1 = .own s) : ∃ s', src = .own s' := by
  cases src with
  | own s' => exact ⟨s', rfl⟩
  | copied fl =>
    simp only [OwnSource.add] at h
    split at h
    · cases h
    · split at h
      · cases h; cases h1
      · cases h

theorem CopyInv.set {θ : Nat → CopyObj} (h : CopyInv θ) {i st src r} (hr : r = 0)
    (ho : ∀ s, src = .own s → i = 0) : CopyInv (setCopy θ i (.live st src r)) where
  reads j st' src' r' hj := by
    simp only [setCopy] at hj
    split at hj
    · cases hj; exact hr
    · exact h.reads j _ _ _ hj
  copied j st' s r' hj := by
    simp only [setCopy] at hj
    split at hj
    · rename_i e
      cases hj
      rw [e]; exact ho _ rfl
    · exact h.copied j _ _ _ hj
  first := by
    simp only [setCopy]
    split
    · simp
    · exact h.first

theorem CopyInv.gone {θ : Nat → CopyObj} (h : CopyInv θ) {i} : CopyInv (setCopy θ i .gone) where
  reads j st' src' r' hj := by
    simp only [setCopy] at hj
    split at hj
    · cases hj
    · exact h.reads j _ _ _ hj
  copied j st' s r' hj := by
    simp only [setCopy] at hj
    split at hj
    · cases hj
    · exact h.copied j _ _ _ hj
  first := by
    simp only [setCopy]
    split
    · simp
    · exact h.first

theorem Copies.inv {θ : Nat → CopyObj} {m : Mem} {ops : List CopyOp} {v : CopyEnd}
    (h : Copies env p dst k θ m ops v) (hi : CopyInv θ) : ∀ {θ' m'}, v = .ok (none, θ', m') → CopyInv θ' := by
  induction h with
  | nil => intro θ' m' hv; cases hv; exact hi
  | copy h1 h2 h3 _ ih =>
    exact ih (hi.set (hi.reads _ _ _ _ h2) fun s hs => absurd hs (copy_not_own _ _))
  | destroy h1 _ ih => exact ih hi.gone
  | addBad => intro θ' m' hv; cases hv
  | add h1 h2 _ ih =>
    refine ih (hi.set (hi.reads _ _ _ _ h1) fun s hs => ?_)
    obtain ⟨s', rfl⟩ := add_own h2 hs
    exact hi.copied _ _ _ _ h1
  | dangling => intro θ' m' hv; cases hv
  | error => intro θ' m' hv; cases hv
  | answer => intro θ' m' hv; cases hv
  | more h1 h2 h3 _ ih =>
    have hr := hi.reads _ _ _ _ h1
    subst hr
    apply ih
    split
    · rename_i e; exact hi.set rfl fun _ _ => e
    · refine CopyInv.set (CopyInv.set hi rfl fun s hs => ?_) (hi.reads _ _ _ _ h2) fun _ _ => rfl
      rw [hs] at h1
      exact hi.copied _ _ _ _ h1

/-- The first object. -/
theorem CopyInv.start (st : PState) (ds : ContainerSeq) :
    CopyInv (fun i => if i = 0 then .live st (.own ds) 0 else .absent) where
  reads i st' src r hi := by
    split at hi
    · cases hi; rfl
    · cases hi
  copied i st' s r hi := by
    split at hi
    · assumption
    · cases hi
  first := by simp

/-- Without the original no object can be used. -/
theorem Copies.gone_error {θ : Nat → CopyObj} {m : Mem} {ops : List CopyOp} {v : CopyEnd}
    (h : Copies env p dst k θ m ops v) (hi : CopyInv θ) (h0 : θ 0 = .gone) (j : Nat) (hj : .consume j ∈ ops) :
    ∀ x, v ≠ .ok x := by
  induction h with
  | nil => cases hj
  | @copy θ m i j st src r ops v h1 h2 h3 _ ih =>
    have hj0 : j ≠ 0 := fun e => hi.first (e ▸ h3)
    cases hj with
    | tail _ hj =>
      exact ih (hi.set (hi.reads _ _ _ _ h2) fun s hs => absurd hs (copy_not_own _ _))
        (by simp [setCopy, Ne.symm hj0, h0]) hj
  | destroy h1 _ ih =>
    cases hj with
    | tail _ hj => exact ih hi.gone (by simp only [setCopy, h0]; split <;> rfl) hj
  | addBad => intro x h; cases h
  | @add θ m i st src r b f ops src1 v h1 h2 _ ih =>
    cases hj with
    | tail _ hj =>
      refine ih (hi.set (hi.reads _ _ _ _ h1) fun s hs => ?_) ?_ hj
      · obtain ⟨s', rfl⟩ := add_own h2 hs
        exact hi.copied _ _ _ _ h1
      · simp only [setCopy]
        split
        · rename_i e; rw [e, h1] at h0; cases h0
        · exact h0
  | dangling => intro x h; cases h
  | error => intro x h; cases h
  | answer h1 h2 => have := hi.reads _ _ _ _ h1; subst this; rw [h0] at h2; cases h2
  | more h1 h2 => have := hi.reads _ _ _ _ h1; subst this; rw [h0] at h2; cases h2

theorem SameEnd.noError {who k : Nat} {ops : List SOp} {x : Res × Mem × List Ch} {e : Err} :
    ¬ SameEnd who k ops (.ok x) (.error e) := nofun

end
/-! ### What can be copied -/

theorem Pat.copyables_mem {ps : List Pat} (h : Pat.copyables ps = true) {q : Pat} (hq : q ∈ ps) :
    q.copyable = true := by
  induction ps with
  | nil => cases hq
  | cons p ps ih =>
    simp only [Pat.copyables, Bool.and_eq_true] at h
    rcases List.mem_cons.1 hq with rfl | hq
    · exact h.1
    · exact ih h.2 hq

theorem Pat.HasRecur.not_copyable {p : Pat} (h : p.HasRecur) : p.copyable = false := by
  induction h with
  | seq hm _ ih =>
    rw [Bool.eq_false_iff]
    intro hc
    rw [Pat.copyables_mem (by simpa [Pat.copyable] using hc) hm] at ih
    cases ih
  | alt hm _ ih =>
    rw [Bool.eq_false_iff]
    intro hc
    rw [Pat.copyables_mem (by simpa [Pat.copyable] using hc) hm] at ih
    cases ih
  | _ => simp_all [Pat.copyable]

mutual
theorem Pat.copyable_of : ∀ p : Pat, ¬ p.HasRecur → p.copyable = true
  | .recur _ _, h => absurd .recur h
  | .seq ps, h => by
    simp only [Pat.copyable]; exact Pat.copyables_of ps fun q hq hr => h (.seq hq hr)
  | .alt ps, h => by
    simp only [Pat.copyable]; exact Pat.copyables_of ps fun q hq hr => h (.alt hq hr)
  | .rep _ _ q, h => by simp only [Pat.copyable]; exact Pat.copyable_of q fun hr => h (.rep hr)
  | .opt q, h => by simp only [Pat.copyable]; exact Pat.copyable_of q fun hr => h (.opt hr)
  | .not q, h => by simp only [Pat.copyable]; exact Pat.copyable_of q fun hr => h (.not hr)
  | .discard q, h => by simp only [Pat.copyable]; exact Pat.copyable_of q fun hr => h (.discard hr)
  | .lexeme q, h => by simp only [Pat.copyable]; exact Pat.copyable_of q fun hr => h (.lexeme hr)
  | .bindDst q, h => by simp only [Pat.copyable]; exact Pat.copyable_of q fun hr => h (.bindDst hr)
  | .construct _ q, h => by
    simp only [Pat.copyable]; exact Pat.copyable_of q fun hr => h (.construct hr)
  | .action _ q, h => by simp only [Pat.copyable]; exact Pat.copyable_of q fun hr => h (.action hr)
  | .except q q', h => by
    simp only [Pat.copyable, Bool.and_eq_true]
    exact ⟨Pat.copyable_of q fun hr => h (.exceptOp hr), Pat.copyable_of q' fun hr => h (.exceptNeg hr)⟩
  | .list q q', h => by
    simp only [Pat.copyable, Bool.and_eq_true]
    exact ⟨Pat.copyable_of q fun hr => h (.listOp hr), Pat.copyable_of q' fun hr => h (.listSep hr)⟩
  | .withSkipper q q', h => by
    simp only [Pat.copyable, Bool.and_eq_true]
    exact ⟨Pat.copyable_of q fun hr => h (.skipped hr), Pat.copyable_of q' fun hr => h (.skipper hr)⟩
  | .char _, _ => rfl
  | .charSymbol _, _ => rfl
  | .strLit _, _ => rfl
  | .symbol _, _ => rfl
  | .int _ _ _, _ => rfl
  | .uint _ _ _, _ => rfl
  | .eoi, _ => rfl
  | .pass, _ => rfl
  | .fail, _ => rfl
theorem Pat.copyables_of : ∀ ps : List Pat, (∀ q ∈ ps, ¬ q.HasRecur) → Pat.copyables ps = true
  | [], _ => rfl
  | p :: ps, h => by
    simp only [Pat.copyables, Bool.and_eq_true]
    exact ⟨Pat.copyable_of p (h p (by simp)), Pat.copyables_of ps fun q hq => h q (by simp [hq])⟩
end

theorem Copies.unique {env p dst k θ m ops v} (h : Copies env p dst k θ m ops v) :
    ∀ {v'}, Copies env p dst k θ m ops v' → v = v' := by
  induction h with
  | nil => intro v' h; cases h; rfl
  | copy _ h1 h2 _ ih =>
    intro v' h
    cases h with
    | copy _ h1' _ h => rw [h1] at h1'; cases h1'; exact ih h
  | destroy h1 _ ih =>
    intro v' h
    cases h with
    | destroy h1' h => exact ih h
  | addBad h1 h2 =>
    intro v' h
    cases h with
    | addBad => rfl
    | add h1' h2' _ => rw [h1] at h1'; cases h1'; rw [h2] at h2'; cases h2'
  | add h1 h2 _ ih =>
    intro v' h
    cases h with
    | addBad h1' h2' => rw [h1] at h1'; cases h1'; rw [h2] at h2'; cases h2'
    | add h1' h2' h => rw [h1] at h1'; cases h1'; rw [h2] at h2'; cases h2'; exact ih h
  | dangling h1 h2 =>
    intro v' h
    cases h with
    | dangling => rfl
    | error h1' h2' _ => rw [h1] at h1'; cases h1'; rw [h2] at h2'; cases h2'
    | answer h1' h2' _ _ _ => rw [h1] at h1'; cases h1'; rw [h2] at h2'; cases h2'
    | more h1' h2' _ _ => rw [h1] at h1'; cases h1'; rw [h2] at h2'; cases h2'
  | error h1 h2 h3 =>
    intro v' h
    cases h with
    | dangling h1' h2' => rw [h1] at h1'; cases h1'; rw [h2] at h2'; cases h2'
    | error h1' h2' h3' =>
      rw [h1] at h1'; cases h1'; rw [h2] at h2'; cases h2'; cases h3.unique h3'; rfl
    | answer h1' h2' h3' _ _ =>
      rw [h1] at h1'; cases h1'; rw [h2] at h2'; cases h2'; cases h3.unique h3'
    | more h1' h2' h3' _ =>
      rw [h1] at h1'; cases h1'; rw [h2] at h2'; cases h2'; cases h3.unique h3'
  | answer h1 h2 h3 h4 h5 =>
    intro v' h
    cases h with
    | dangling h1' h2' => rw [h1] at h1'; cases h1'; rw [h2] at h2'; cases h2'
    | error h1' h2' h3' =>
      rw [h1] at h1'; cases h1'; rw [h2] at h2'; cases h2'; cases h3.unique h3'
    | answer h1' h2' h3' _ h5' =>
      rw [h1] at h1'; cases h1'; rw [h2] at h2'; cases h2'; cases h3.unique h3'
      rw [h5.unique h5']
    | more h1' h2' h3' _ =>
      rw [h1] at h1'; cases h1'; rw [h2] at h2'; cases h2'; cases h3.unique h3'; exact absurd rfl h4
  | more h1 h2 h3 _ ih =>
    intro v' h
    cases h with
    | dangling h1' h2' => rw [h1] at h1'; cases h1'; rw [h2] at h2'; cases h2'
    | error h1' h2' h3' =>
      rw [h1] at h1'; cases h1'; rw [h2] at h2'; cases h2'; cases h3.unique h3'
    | answer h1' h2' h3' h4' _ =>
      rw [h1] at h1'; cases h1'; rw [h2] at h2'; cases h2'; cases h3.unique h3'; exact absurd rfl h4'
    | more h1' h2' h3' h =>
      rw [h1] at h1'; cases h1'; rw [h2] at h2'; cases h2'; cases h3.unique h3'; exact ih h

end Abu
