import Verif.Proofs.Number
/-
Memory after one sub-object got a value.
-/
namespace Abu

/-- The objects of `m` are as before. -/
def Grows (m m' : Mem) : Prop := ∀ o, o < m.objs.length → m'.objs[o]? = m.objs[o]?

/-- The objects of `m` are as before except that the sub-object at `p` of object `o` is now `v`. -/
def Sets (m : Mem) (o : Nat) (p : List Nat) (v : Val) (m' : Mem) : Prop :=
  ∃ w w', m.objs[o]? = some w ∧ w.update (fun _ => .ok v) p = .ok w' ∧ m'.objs[o]? = some w' ∧
    ∀ o', o' < m.objs.length → o' ≠ o → m'.objs[o']? = m.objs[o']?

/-- There is a sub-object at `p` of object `o`. -/
def Has (m : Mem) (o : Nat) (p : List Nat) : Prop :=
  ∃ w v, m.objs[o]? = some w ∧ w.get p = .ok v

theorem lt_of_getElem? {α : Type} {l : List α} {n a} (h : l[n]? = some a) : n < l.length :=
  (List.getElem?_eq_some_iff.1 h).1

theorem Grows.refl (m : Mem) : Grows m m := fun _ _ => rfl

theorem Grows.lt {m m' o} (h : Grows m m') (ho : o < m.objs.length) : o < m'.objs.length := by
  have := h o ho
  rw [List.getElem?_eq_getElem ho] at this
  exact lt_of_getElem? this

theorem Grows.trans {m m1 m2} (h : Grows m m1) (h' : Grows m1 m2) : Grows m m2 :=
  fun o ho => (h' o (h.lt ho)).trans (h o ho)

theorem Val.get_of_update {f : Val → Except Err Val} : ∀ {p : List Nat} {w w' : Val},
    w.update f p = .ok w' → ∃ a b, w.get p = .ok a ∧ f a = .ok b ∧ w'.get p = .ok b
  | [], w, w', h => ⟨w, w', rfl, h, rfl⟩
  | i :: p, .tup vs, w', h => by
    simp only [Val.update] at h
    cases hi : vs[i]? with
    | none => rw [hi] at h; cases h
    | some v =>
      rw [hi] at h
      simp only at h
      cases hu : v.update f p with
      | error e => rw [hu] at h; cases h
      | ok v' =>
        rw [hu] at h
        cases h
        obtain ⟨a, b, h1, h2, h3⟩ := Val.get_of_update hu
        refine ⟨a, b, by simp only [Val.get, hi]; exact h1, h2, ?_⟩
        simp only [Val.get, List.getElem?_set_self (lt_of_getElem? hi)]
        exact h3
  | _ :: _, .nil, _, h => by cases h
  | _ :: _, .indet, _, h => by cases h
  | _ :: _, .num _, _, h => by cases h
  | _ :: _, .coll _, _, h => by cases h
  | _ :: _, .obj _ _, _, h => by cases h

theorem Val.update_of_get {f : Val → Except Err Val} {b : Val} : ∀ {p : List Nat} {w a : Val},
    w.get p = .ok a → f a = .ok b → w.update f p = w.update (fun _ => .ok b) p ∧
      ∃ w', w.update f p = .ok w'
  | [], w, a, h, hf => by cases h; exact ⟨hf, b, hf⟩
  | i :: p, .tup vs, a, h, hf => by
    simp only [Val.get] at h
    cases hi : vs[i]? with
    | none => rw [hi] at h; cases h
    | some v =>
      rw [hi] at h
      obtain ⟨h1, w', h2⟩ := Val.update_of_get h hf
      simp only [Val.update, hi, ← h1, h2]
      exact ⟨trivial, _, rfl⟩
  | _ :: _, .nil, _, h, _ => by cases h
  | _ :: _, .indet, _, h, _ => by cases h
  | _ :: _, .num _, _, h, _ => by cases h
  | _ :: _, .coll _, _, h, _ => by cases h
  | _ :: _, .obj _ _, _, h, _ => by cases h

/-- The second update wins. -/
theorem Val.update_update {a b : Val} : ∀ {p : List Nat} {w w1 : Val},
    w.update (fun _ => .ok a) p = .ok w1 →
    w1.update (fun _ => .ok b) p = w.update (fun _ => .ok b) p
  | [], w, w1, _ => rfl
  | i :: p, .tup vs, w1, h => by
    simp only [Val.update] at h
    cases hi : vs[i]? with
    | none => rw [hi] at h; cases h
    | some v =>
      rw [hi] at h
      simp only at h
      cases hu : v.update (fun _ => .ok a) p with
      | error e => rw [hu] at h; cases h
      | ok v' =>
        rw [hu] at h
        cases h
        have := Val.update_update (b := b) hu
        simp only [Val.update, List.getElem?_set_self (lt_of_getElem? hi), hi, this]
        cases v.update (fun _ => .ok b) p with
        | error e => rfl
        | ok v2 => simp
  | _ :: _, .nil, _, h => by cases h
  | _ :: _, .indet, _, h => by cases h
  | _ :: _, .num _, _, h => by cases h
  | _ :: _, .coll _, _, h => by cases h
  | _ :: _, .obj _ _, _, h => by cases h

section
variable {m m1 m2 : Mem} {o : Nat} {p : List Nat} {v a b : Val}

theorem Sets.has (h : Sets m o p v m1) : Has m o p := by
  obtain ⟨w, w', h1, h2, _, _⟩ := h
  obtain ⟨a, _, h3, _, _⟩ := Val.get_of_update h2
  exact ⟨w, a, h1, h3⟩

/-- What can be read afterwards. -/
theorem Sets.read (h : Sets m o p v m1) (ty : Ty) : m1.read (.at o p ty) = .ok v := by
  obtain ⟨w, w', h1, h2, h3, _⟩ := h
  obtain ⟨a, b, _, h5, h6⟩ := Val.get_of_update h2
  cases h5
  simp only [Mem.read, h3, h6]

theorem Sets.has' (h : Sets m o p v m1) : Has m1 o p := by
  obtain ⟨w, w', h1, h2, h3, _⟩ := h
  obtain ⟨a, b, _, h5, h6⟩ := Val.get_of_update h2
  exact ⟨w', b, h3, h6⟩

theorem Sets.trans (h : Sets m o p a m1) (h' : Sets m1 o p b m2) : Sets m o p b m2 := by
  obtain ⟨w, w1, h1, h2, h3, h4⟩ := h
  obtain ⟨w1', w2, h1', h2', h3', h4'⟩ := h'
  rw [h3] at h1'
  cases h1'
  refine ⟨w, w2, h1, by rw [← Val.update_update h2]; exact h2', h3', fun o' ho hne => ?_⟩
  have := h4 o' ho hne
  rw [← this]
  rw [List.getElem?_eq_getElem ho] at this
  exact h4' o' (lt_of_getElem? this) hne

theorem Sets.grows (h : Sets m o p v m1) (h' : Grows m1 m2) : Sets m o p v m2 := by
  obtain ⟨w, w1, h1, h2, h3, h4⟩ := h
  refine ⟨w, w1, h1, h2, by rw [h' o (lt_of_getElem? h3)]; exact h3, fun o' ho hne => ?_⟩
  have := h4 o' ho hne
  rw [← this]
  rw [List.getElem?_eq_getElem ho] at this
  exact h' o' (lt_of_getElem? this)

theorem Grows.sets (h : Grows m m1) (ho : o < m.objs.length) (h' : Sets m1 o p v m2) :
    Sets m o p v m2 := by
  obtain ⟨w, w1, h1, h2, h3, h4⟩ := h'
  refine ⟨w, w1, by rw [← h o ho]; exact h1, h2, h3, fun o' ho' hne => ?_⟩
  rw [h4 o' (h.lt ho') hne, h o' ho']

/-- Changes to an object that was not there before. -/
theorem Grows.fresh (h : Grows m m1) (ho : m.objs.length ≤ o) (h' : Sets m1 o p v m2) : Grows m m2 := by
  obtain ⟨w, w1, h1, h2, h3, h4⟩ := h'
  intro o' ho'
  rw [h4 o' (h.lt ho') (by omega), h o' ho']

theorem Has.lt (h : Has m o p) : o < m.objs.length := by
  obtain ⟨w, _, h, _⟩ := h; exact lt_of_getElem? h

theorem Has.grows (h : Has m o p) (h' : Grows m m1) : Has m1 o p := by
  obtain ⟨w, v, h1, h2⟩ := h
  exact ⟨w, v, by rw [h' o (lt_of_getElem? h1)]; exact h1, h2⟩

/-- Writing to a sub-object. -/
theorem modify_sets {f : Val → Except Err Val} (hr : m.read (.at o p .nil) = .ok a) (hf : f a = .ok b) :
    ∃ m1, m.modify o p f = .ok m1 ∧ Sets m o p b m1 := by
  simp only [Mem.read] at hr
  cases ho : m.objs[o]? with
  | none => rw [ho] at hr; cases hr
  | some w =>
    rw [ho] at hr
    obtain ⟨h1, w', h2⟩ := Val.update_of_get hr hf
    refine ⟨⟨m.objs.set o w', m.log⟩, by simp only [Mem.modify, ho, h2], w, w', ho, by rw [← h1]; exact h2, ?_,
      fun o' ho' hne => ?_⟩
    · simp [lt_of_getElem? ho]
    · simp [Ne.symm hne]

theorem Has.read (h : Has m o p) : ∃ v, ∀ ty, m.read (.at o p ty) = .ok v := by
  obtain ⟨w, v, h1, h2⟩ := h
  exact ⟨v, fun ty => by simp only [Mem.read, h1, h2]⟩

/-! ### Allocation -/

theorem alloc_grows (ty : Ty) : Grows m (m.alloc ty).2 := by
  intro o ho
  cases ty <;> simp [Mem.alloc, List.getElem?_append_left ho]

theorem alloc_int : m.alloc .int = (.at m.objs.length [] .int, ⟨m.objs ++ [.indet], m.log⟩) := rfl

theorem alloc_has {w : Val} : Has ⟨m.objs ++ [w], m.log⟩ m.objs.length [] :=
  ⟨w, w, by simp, rfl⟩

/-! ### Numbers -/

theorem zero_sets {k} (h : Has m o p) : ∃ m1, m.zero (.at o p (.num k)) = .ok m1 ∧ Sets m o p (.num 0) m1 := by
  obtain ⟨v, hv⟩ := h.read
  exact modify_sets (hv .nil) rfl

theorem mul_sets {k x y} {c : Int} (h : Sets m o p (.num x) m1) (hs : k.store (x * c) = .ok y) :
    ∃ m2, m1.mul c (.at o p (.num k)) = .ok m2 ∧ Sets m o p (.num y) m2 := by
  obtain ⟨m2, h1, h2⟩ := modify_sets (b := .num y) (f := fun v => match v with
    | .num i => match k.store (i * c) with
      | .error e => .error e
      | .ok j => .ok (.num j)
    | .indet => .error .ubUninit
    | _ => .error .noCompile) (h.read .nil) (by simp only [hs])
  exact ⟨m2, h1, h.trans h2⟩

theorem add_sets {k x y} {c : Int} (h : Sets m o p (.num x) m1) (hs : k.store (x + c) = .ok y) :
    ∃ m2, m1.add c (.at o p (.num k)) = .ok m2 ∧ Sets m o p (.num y) m2 := by
  obtain ⟨m2, h1, h2⟩ := modify_sets (b := .num y) (f := fun v => match v with
    | .num i => match k.store (i + c) with
      | .error e => .error e
      | .ok j => .ok (.num j)
    | .indet => .error .ubUninit
    | _ => .error .noCompile) (h.read .nil) (by simp only [hs])
  exact ⟨m2, h1, h.trans h2⟩

theorem mulAdd_sets {k x y} {c d : Int} (h : Sets m o p (.num x) m1) (hs : k.accum c d x = .ok y) :
    ∃ m2, m1.mulAdd c d (.at o p (.num k)) = .ok m2 ∧ Sets m o p (.num y) m2 := by
  simp only [NumKind.accum] at hs
  cases h1 : k.store (x * c) with
  | error e => rw [h1] at hs; cases hs
  | ok z =>
    rw [h1] at hs
    obtain ⟨m2, h2, h3⟩ := mul_sets h h1
    simp only [Mem.mulAdd, h2]
    exact add_sets h3 hs

theorem opRun_digits_sets {k B} : ∀ {ds : List Ch} {x y : Int} {m1 : Mem}, Sets m o p (.num x) m1 →
    k.accums (B : Nat) (ds.map (digitValue B)) x = .ok y →
    ∃ m2, opRun (digitOps B (.at o p (.num k)) ds) m1 = .ok m2 ∧ Sets m o p (.num y) m2
  | [], x, y, m1, h, hs => by cases hs; exact ⟨m1, rfl, h⟩
  | c :: ds, x, y, m1, h, hs => by
    simp only [List.map_cons, NumKind.accums] at hs
    cases h1 : k.accum B (digitValue B c) x with
    | error e => rw [h1] at hs; cases hs
    | ok z =>
      rw [h1] at hs
      obtain ⟨m2, h2, h3⟩ := mulAdd_sets h h1
      obtain ⟨m3, h4, h5⟩ := opRun_digits_sets h3 hs
      refine ⟨m3, ?_, h5⟩
      simp only [digitOps, List.map_cons, opRun]
      rw [show Store.op (MemOp.mulAdd B (digitValue B c) (.at o p (.num k))) m1 = .ok m2 from h2]
      exact h4

theorem opRun_neg_sets {k neg x y} (h : Sets m o p (.num x) m1) (hs : k.finish neg x = .ok y) :
    ∃ m2, opRun (negOps neg (.at o p (.num k))) m1 = .ok m2 ∧ Sets m o p (.num y) m2 := by
  cases neg with
  | false => cases hs; exact ⟨m1, rfl, h⟩
  | true =>
    obtain ⟨m2, h1, h2⟩ := mul_sets h hs
    refine ⟨m2, ?_, h2⟩
    simp only [negOps, if_true, opRun]
    rw [show Store.op (MemOp.neg (.at o p (.num k))) m1 = .ok m2 from h1]

end
end Abu
