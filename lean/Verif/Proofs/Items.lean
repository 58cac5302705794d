import Verif.Proofs.Assigns
/-
The parsers of the items of repetitions and lists, compared with the same patterns alone.
-/
namespace Abu

/-! ### Requirements -/

mutual
/-- Whether parsers have to consume only matters at compile time. -/
theorem elab_consumes (a f c c' rc : Bool) (sk : Prog) : ∀ p : Pat,
    elabP sk ⟨a, f, c, rc⟩ p = elabP sk ⟨a, f, c', rc⟩ p
  | .seq ps => rfl
  | .alt ps => by
    cases rc <;> exact congrArg (fun x => adapt _ _ _ (.alt x)) (elabs_consumes _ _ c c' _ sk ps)
  | .rep mn mx p => congrArg (fun x => adapt _ _ _ (.rep mn mx x)) (elab_consumes _ _ c c' _ sk p)
  | .opt p => congrArg (fun x => adapt _ _ _ (.opt x)) (elab_consumes _ _ c c' _ sk p)
  | .not p => congrArg (fun x => adapt _ _ _ (.not x)) (elab_consumes _ _ c c' _ sk p)
  | .discard p => by
    cases rc <;> exact congrArg (fun x => adapt _ _ _ (.discard x)) (elab_consumes _ _ c c' _ sk p)
  | .lexeme p => by
    cases rc <;> exact congrArg (fun x => adapt _ _ _ (.lexeme x)) (elab_consumes _ _ c c' _ .fail p)
  | .bindDst p => by
    cases rc <;> exact congrArg (fun x => adapt _ _ _ (.bindDst x)) (elab_consumes _ _ c c' _ sk p)
  | .construct tys p => by
    cases rc <;> exact congrArg (fun x => adapt _ _ _ (.construct tys x)) (elab_consumes _ _ c c' _ sk p)
  | .action act p => by
    cases rc <;> exact congrArg (fun x => adapt _ _ _ (.action act x)) (elab_consumes _ _ c c' _ sk p)
  | .except op neg => by
    cases rc <;> exact congrArg (fun x => adapt _ _ _ (.except x _)) (elab_consumes _ _ c c' _ sk op)
  | .list op sep => rfl
  | .withSkipper p s => by
    cases rc <;> exact congrArg (fun x => adapt _ _ _ (.withSkipper x)) (elab_consumes _ _ c c' _ _ p)
  | .recur _ _ => rfl
  | .char _ => rfl
  | .charSymbol _ => rfl
  | .strLit _ => rfl
  | .symbol _ => rfl
  | .int .. => rfl
  | .uint .. => rfl
  | .eoi => rfl
  | .pass => rfl
  | .fail => rfl
theorem elabs_consumes (a f c c' rc : Bool) (sk : Prog) : ∀ ps : List Pat,
    elabPs sk ⟨a, f, c, rc⟩ ps = elabPs sk ⟨a, f, c', rc⟩ ps
  | [] => rfl
  | p :: ps => by
    rw [elabPs, elabPs, elab_consumes a f c c' rc sk p, elabs_consumes a f c c' rc sk ps]
end

/-- The `CleanFailure` adapter. -/
theorem elab_addClean {p : Pat} (h : p.FAILS_CLEANLY = false) (a c : Bool) :
    elabP .fail ⟨a, true, c, false⟩ p = .clean (elabP .fail ⟨a, false, c, false⟩ p) := by
  cases p <;> simp only [Pat.FAILS_CLEANLY, Bool.true_eq_false] at h <;>
    cases a <;> simp [elabP, adapt, Req.needsClean, Req.needsAtomic, Req.lower, Req.derive, Req.skipper,
      Prog.isFail, Pat.FAILS_CLEANLY, Pat.ATOMIC, h]

/-- The `Atomic` adapter. -/
theorem elab_addAtomic {p : Pat} (h : p.ATOMIC = false) (c : Bool) (hb : ∀ q, p ≠ .bindDst q) :
    elabP .fail ⟨true, false, c, false⟩ p = .atomic (elabP .fail ⟨false, false, c, false⟩ p) := by
  cases p <;> simp only [Pat.ATOMIC, Bool.true_eq_false] at h <;>
    simp [elabP, adapt, Req.needsClean, Req.needsAtomic, Req.lower, Req.derive, Req.skipper,
      Prog.isFail, Pat.FAILS_CLEANLY, Pat.ATOMIC, h]

theorem elab_false (p : Pat) (c : Bool) : elabP .fail ⟨false, false, c, false⟩ p = topParser p :=
  elab_consumes _ _ _ _ _ _ p

theorem cons_of_snoc (L : List Nat) (i : Nat) : ∃ a L', L ++ [i] = a :: L' := by
  cases L with
  | nil => exact ⟨i, [], rfl⟩
  | cons a K => exact ⟨a, _, rfl⟩

/-- A parser that also has to fail cleanly. -/
theorem Does.cleaner {env : Env} {T : List Ch} : ∀ (p : Pat) {a c0 c : Bool} {dst bnd : Ref} {i : Nat}
    {m : Mem} {r i1 L m'}, p.unskipped = true → r ≠ .PARTIAL →
    Does env (elabP .fail ⟨a, false, c0, false⟩ p) dst bnd T i m r i1 L m' →
    ∃ i2 L2, Does env (elabP .fail ⟨a, true, c, false⟩ p) dst bnd T i m r i2 L2 m' ∧
      (r = .SUCCESS → i2 = i1) := by
  intro p a c0 c dst bnd i m r i1 L m' hp hr h
  rw [elab_consumes _ _ c0 c] at h
  cases hfc : p.FAILS_CLEANLY with
  | false =>
    rw [elab_addClean hfc]
    obtain ⟨x, L', hL⟩ := cons_of_snoc L i
    cases r with
    | SUCCESS => exact ⟨i1, L', h.clean_succ hL, fun _ => rfl⟩
    | FAILURE => exact ⟨x, L', h.clean_fail hL, fun h => by cases h⟩
    | PARTIAL => exact absurd rfl hr
  | true =>
    cases p with
    | discard p =>
      obtain ⟨i2, L2, h2, h3⟩ := Does.cleaner p (a := a) (c0 := c) (c := c) hp hr
        (Does.undiscard (by cases a <;> exact h))
      exact ⟨i2, L2, by cases a <;> exact h2.discard, h3⟩
    | lexeme p =>
      obtain ⟨i2, L2, h2, h3⟩ := Does.cleaner p (a := a) (c0 := c) (c := c) hp hr
        (Does.unlexeme (by cases a <;> exact h))
      exact ⟨i2, L2, by cases a <;> exact h2.lexeme, h3⟩
    | bindDst p =>
      cases a with
      | false =>
        obtain ⟨i2, L2, h2, h3⟩ := Does.cleaner p (a := false) (c0 := c) (c := c) hp hr (Does.unbindDst h)
        exact ⟨i2, L2, h2.bindDst, h3⟩
      | true =>
        obtain ⟨m1, h1, h4, h5⟩ := Does.unatomic h
        obtain ⟨i2, L2, h2, h3⟩ := Does.cleaner p (a := false) (c0 := c) (c := c) hp hr (Does.unbindDst h1)
        cases r with
        | SUCCESS => exact ⟨i2, L2, Does.atomic h2.bindDst (h4 rfl), h3⟩
        | FAILURE => rw [h5 (by simp)]; exact ⟨i2, L2, Does.atomic_fail h2.bindDst, h3⟩
        | PARTIAL => exact absurd rfl hr
    | construct tys p =>
      have h : Does env (.construct tys (elabP .fail ⟨false, false, c, false⟩ p)) dst bnd T i m r i1 L m' := by
        cases a <;> exact h
      obtain ⟨m1, h1, h4, h5⟩ := h.unconstr
      obtain ⟨i2, L2, h2, h3⟩ := Does.cleaner p (a := false) (c0 := c) (c := c) hp hr h1
      refine ⟨i2, L2, ?_, h3⟩
      suffices Does env (.construct tys (elabP .fail ⟨false, true, c, false⟩ p)) dst bnd T i m r i2 L2 m' by
        cases a <;> exact this
      cases r with
      | SUCCESS => exact Does.constr h2 (h4 rfl)
      | FAILURE => rw [h5 (by simp)]; exact Does.constr_fail h2
      | PARTIAL => exact absurd rfl hr
    | action act p =>
      have h : Does env (.action act (elabP .fail ⟨false, false, c, false⟩ p)) dst bnd T i m r i1 L m' := by
        cases a <;> exact h
      obtain ⟨m1, h1, h4, h5⟩ := h.unaction
      obtain ⟨i2, L2, h2, h3⟩ := Does.cleaner p (a := false) (c0 := c) (c := c) hp hr h1
      refine ⟨i2, L2, ?_, h3⟩
      suffices Does env (.action act (elabP .fail ⟨false, true, c, false⟩ p)) dst bnd T i m r i2 L2 m' by
        cases a <;> exact this
      cases r with
      | SUCCESS => exact Does.action h2 (h4 rfl)
      | FAILURE => rw [h5 (by simp)]; exact Does.action_fail h2
      | PARTIAL => exact absurd rfl hr
    | withSkipper => simp [Pat.unskipped] at hp
    | alt ps => exact ⟨i1, L, by cases a <;> exact h, fun _ => rfl⟩
    | not p => exact ⟨i1, L, by cases a <;> exact h, fun _ => rfl⟩
    | opt p => exact ⟨i1, L, by cases a <;> exact h, fun _ => rfl⟩
    | list p q => exact ⟨i1, L, by cases a <;> exact h, fun _ => rfl⟩
    | char => exact ⟨i1, L, h, fun _ => rfl⟩
    | charSymbol => exact ⟨i1, L, h, fun _ => rfl⟩
    | eoi => exact ⟨i1, L, h, fun _ => rfl⟩
    | pass => exact ⟨i1, L, h, fun _ => rfl⟩
    | fail => exact ⟨i1, L, h, fun _ => rfl⟩
    | int b mn mx =>
      refine ⟨i1, L, ?_, fun _ => rfl⟩
      simpa [elabP, adapt, Req.needsClean, Req.needsAtomic, Req.skipper, hfc] using h
    | uint b mn mx =>
      refine ⟨i1, L, ?_, fun _ => rfl⟩
      simpa [elabP, adapt, Req.needsClean, Req.needsAtomic, Req.skipper, hfc] using h
    | _ => simp [Pat.FAILS_CLEANLY] at hfc

/-! ### Elements of collections -/

/-- What is appended to a collection. -/
def gained (r : Res) (v : Val) : List Val := if r = .SUCCESS then [v] else []

/-- What `A` does to an object that holds one of the `start` values, `B` does to a new element of a
collection. -/
def Lifts (env : Env) (T : List Ch) (ty : Ty) (start : Val → Prop) (A B : Prog) : Prop :=
  ∀ ⦃u i log b r i' L⦄ ⦃m' : Mem⦄ ⦃v⦄, start u → r ≠ .PARTIAL →
    Does env A (.at 0 [] ty) b T i ⟨[u], log⟩ r i' L m' →
    (r = .SUCCESS → m'.look 0 [] = .ok v ∧ ty.Holds v) →
    ∀ (M : Mem) o q us bnd, M.look o q = .ok (.coll us) → M.log = log →
      ∃ M', Does env B (.at o q (.coll ty)) bnd T i M r i' L M' ∧
        M'.look o q = .ok (.coll (us ++ gained r v)) ∧ M'.log = m'.log

/-- One by one. -/
inductive LiftsAll (env : Env) (T : List Ch) (ty : Ty) : List Prog → List Prog → Prop
  | nil : LiftsAll env T ty [] []
  | cons {A B As Bs} : Lifts env T ty (fun _ => True) A B → LiftsAll env T ty As Bs →
      LiftsAll env T ty (A :: As) (B :: Bs)

section
variable {env : Env} {T : List Ch} {ty : Ty} {start : Val → Prop} {A B : Prog}

theorem Lifts.clean (h : Lifts env T ty start A B) : Lifts env T ty start (.clean A) (.clean B) := by
  intro u i log b r i' L m' v hu hr hd hv M o q us bnd hM hl
  obtain ⟨i1, L1, a, hd1, hL, rfl⟩ := hd.unclean hr
  obtain ⟨M', h1, h2⟩ := h hu hr hd1 hv M o q us bnd hM hl
  refine ⟨M', ?_, h2⟩
  cases r with
  | SUCCESS => exact h1.clean_succ hL
  | FAILURE => exact h1.clean_fail hL
  | PARTIAL => exact absurd rfl hr

theorem Lifts.lexeme (h : Lifts env T ty start A B) : Lifts env T ty start (.lexeme A) (.lexeme B) := by
  intro u i log b r i' L m' v hu hr hd hv M o q us bnd hM hl
  obtain ⟨M', h1, h2⟩ := h hu hr hd.unlexeme hv M o q us bnd hM hl
  exact ⟨M', h1.lexeme, h2⟩

theorem push_look {m : Mem} {o q us e} (h : m.look o q = .ok (.coll us)) :
    ∃ m', (m.modify o q fun
      | .coll vs => .ok (.coll (vs ++ [e]))
      | _ => .error .noCompile) = .ok m' ∧ m'.look o q = .ok (.coll (us ++ [e])) ∧ m'.log = m.log :=
  modify_look_same h rfl

theorem assign_inv {m m' : Mem} {ty : Ty} {w v} (hty : ∀ t, ty ≠ .coll t)
    (h : m.assign (.at 0 [] ty) w = .ok m') (hv : m'.look 0 [] = .ok v) : ty.convert w = .ok v := by
  have key : ∀ x, m.modify 0 [] (fun _ => .ok x) = .ok m' → v = x := by
    intro x hx
    unfold Mem.modify at hx
    split at hx
    · cases hx
    · simp only [Val.update] at hx
      cases hx
      rw [look_nil] at hv
      rename_i heq
      rw [List.getElem?_eq_some_iff] at heq
      obtain ⟨hlt, _⟩ := heq
      rw [List.getElem?_set_self hlt] at hv
      exact (Option.some.inj hv).symm
  cases ty with
  | coll t => exact absurd rfl (hty t)
  | _ =>
    simp only [Mem.assign] at h
    split at h
    · cases h
    · rename_i x hc
      rw [hc, key _ h]

theorem assign_push {m : Mem} {ty : Ty} {w v o q us} (hc : ty.convert w = .ok v)
    (h : m.look o q = .ok (.coll us)) :
    ∃ m', m.assign (.at o q (.coll ty)) w = .ok m' ∧ m'.look o q = .ok (.coll (us ++ [v])) ∧
      m'.log = m.log := by
  simp only [Mem.assign, hc]
  exact push_look h

theorem Lifts.assigning (hA : A.assigning = true) (hty : ∀ t, ty ≠ .coll t) :
    Lifts env T ty start A A := by
  intro u i log b r i' L m' v hu hr hd hv M o q us bnd hM hl
  rcases hd.assigns hA with ⟨e1, rfl, e3⟩ | ⟨rfl, w, e2, e3⟩
  · refine ⟨M, e3 _ _ _, ?_, hl⟩
    simp only [gained, if_neg e1, List.append_nil]
    exact hM
  · obtain ⟨M', h1, h2, h3⟩ := assign_push (assign_inv hty e2 (hv rfl).1) hM
    refine ⟨M', e3 _ _ _ _ h1, h2, ?_⟩
    rw [h3, hl, assign_log e2]

theorem holds_ne_indet {ty : Ty} {v} (h : ty.Holds v) : v ≠ .indet := by
  intro e
  subst e
  cases ty <;> exact h

/-- The object after the existing ones is new. -/
theorem Place.new_ok {k} : (Place.one k [] (k + 1)).Ok 1 (k + 1) := Place.one_ok (Nat.lt_succ_self k)

/-- In a buffer of type `ty`. -/
theorem Does.buffered {u : Val} {i log b r i' L} {m' : Mem} (hq : A.quiet = true) (he : env.quiet)
    (hd : Does env A (.at 0 [] ty) b T i ⟨[u], log⟩ r i' L m') {M : Mem} (hl : M.log = log) (bnd : Ref) :
    ∃ M', Does env A (.at M.objs.length [] ty) bnd T i ⟨M.objs ++ [u], M.log⟩ r i' L M' ∧
      (∀ v, m'.look 0 [] = .ok v → M'.look M.objs.length [] = .ok v) ∧ M'.log = m'.log ∧
      ∀ o q x, M.look o q = .ok x → M'.look o q = .ok x := by
  have hlook : Mem.look ⟨M.objs ++ [u], M.log⟩ M.objs.length [] = .ok u := look_nil.2 (by simp)
  obtain ⟨M', h1, h2⟩ := hd.move (bnd' := bnd) (Place.one_ok (look_lt hlook)) (MemR.one hlook hl)
    (.inr ⟨hq, he.prog⟩)
  have h1 : Does env A (.at M.objs.length [] ty) bnd T i ⟨M.objs ++ [u], M.log⟩ r i' L M' := by
    simpa [Ref.move, Place.one] using h1
  refine ⟨M', h1, ?_, h2.log, ?_⟩
  · intro v hv
    have := h2.val 0 v (look_nil.1 hv)
    simpa [Place.one] using this
  · intro o q x hx
    have hlt := look_lt hx
    exact h1.keeps (.inl (.inl (by omega))) hq he (look_append hx)

theorem Lifts.atomic (hq : A.quiet = true) (he : env.quiet) (hn : ty ≠ .nil)
    (hs : ∀ {u i log b r i' L m'}, start u → Does env A (.at 0 [] ty) b T i ⟨[u], log⟩ r i' L m' →
      Does env A (.at 0 [] ty) b T i ⟨[ty.defaultInit], log⟩ r i' L m') :
    Lifts env T ty start A (.atomic A) := by
  intro u i log b r i' L m' v hu hr hd hv M o q us bnd hM hl
  obtain ⟨M1, h1, h2, h3, h4⟩ := (hs hu hd).buffered hq he hl bnd
  have hal := alloc_eq (m := M) hn
  have h1' : Does env A (M.alloc (Ref.at o q (.coll ty)).valueType).1 bnd T i
      (M.alloc (Ref.at o q (.coll ty)).valueType).2 r i' L M1 := by
    simp only [Ref.valueType, hal]; exact h1
  cases r with
  | PARTIAL => exact absurd rfl hr
  | FAILURE =>
    refine ⟨M1, .atomic_fail h1', ?_, h3⟩
    simpa [gained] using h4 _ _ _ hM
  | SUCCESS =>
    obtain ⟨hv1, hh⟩ := hv rfl
    obtain ⟨M2, e1, e2, e3⟩ := assign_push (Ty.convert_of_holds hh) (h4 _ _ _ hM)
    refine ⟨M2, .atomic h1' ?_, e2, e3.trans h3⟩
    have hrd : M1.read (M.alloc (Ref.at o q (.coll ty)).valueType).1 = .ok v := by
      simp only [Ref.valueType, hal]; exact h2 v hv1
    have hne := holds_ne_indet hh
    simp only [Mem.assignFrom, hrd]
    cases v <;> first | exact absurd rfl hne | exact e1

/-- Number parsers begin with 0. -/
theorem Does.zeroed (hm : ∀ d b, ∃ st, Abu.mk A d b = .mem (.zero d) (.pure st)) {u u2 : Val} {i log b r i' L} {m' : Mem}
    (hd : Does env A (.at 0 [] ty) b T i ⟨[u], log⟩ r i' L m') :
    Does env A (.at 0 [] ty) b T i ⟨[u2], log⟩ r i' L m' := by
  obtain ⟨st, m1, hb, hr⟩ := hd
  refine ⟨st, m1, fun call S => ?_, hr⟩
  have h0 := hb call S
  obtain ⟨st1, hm⟩ := hm (.at 0 [] ty) b
  rw [hm] at h0 ⊢
  rw [← h0]
  simp only [exec, cw, Store.op, Mem.run, Mem.zero, Mem.onNum]
  cases ty <;> rfl

/-- Parts of memory that matter. -/
theorem Does.small {M : Mem} {u : Val} {o q i b r i' L} {M' : Mem} (hq : A.quiet = true) (he : env.quiet)
    (hd : Does env A (.at o q ty) b T i M r i' L M') (hu : M.look o q = .ok u) (b2 : Ref) :
    ∃ m', Does env A (.at 0 [] ty) b2 T i ⟨[u], M.log⟩ r i' L m' ∧ m'.log = M'.log ∧
      ∃ w, m'.look 0 [] = .ok w ∧ M'.look o q = .ok w := by
  have hd' : Does env A ((Ref.at 0 [] ty).move (Place.one o q M.objs.length)) b T i M r i' L M' := by
    simpa [Ref.move, Place.one] using hd
  obtain ⟨m', h1, h2⟩ := hd'.unmove (Place.one_ok (look_lt hu)) (MemR.one hu rfl)
    (.inr ⟨hq, he.prog⟩)
  have hlt : 0 < m'.objs.length := h2.le
  obtain ⟨w, hw⟩ : ∃ w, m'.objs[0]? = some w := ⟨_, List.getElem?_eq_getElem hlt⟩
  refine ⟨m', h1, h2.log.symm, w, look_nil.2 hw, ?_⟩
  have := h2.val 0 w hw
  simpa [Place.one] using this

theorem Does.small_nil {M : Mem} {i b r i' L} {M' : Mem} (hq : A.quiet = true) (he : env.quiet)
    (hd : Does env A .nil b T i M r i' L M') (b2 : Ref) :
    ∃ m', Does env A .nil b2 T i ⟨[], M.log⟩ r i' L m' ∧ m'.log = M'.log := by
  obtain ⟨m', h1, h2⟩ := Does.unmove (dst := .nil) (bnd := b2) hd Place.none_ok (MemR.none_start rfl)
    (.inr ⟨hq, he.prog⟩)
  exact ⟨m', h1, h2.log.symm⟩

/-- Into a new object, whatever there is besides. -/
theorem Does.landed {M : Mem} {i b r i' L} {m' : Mem} {m : Mem} {lt : Ty} (hq : A.quiet = true) (he : env.quiet)
    (hd : Does env A (m.alloc lt).1 b T i (m.alloc lt).2 r i' L m') (hl : M.log = m.log) (bnd : Ref) :
    ∃ M', Does env A (M.alloc lt).1 bnd T i (M.alloc lt).2 r i' L M' ∧ M'.log = m'.log ∧
      (∀ o q x, M.look o q = .ok x → M'.look o q = .ok x) ∧
      (∀ v, m'.read (m.alloc lt).1 = .ok v → M'.read (M.alloc lt).1 = .ok v) := by
  by_cases hn : lt = .nil
  · subst hn
    simp only [Mem.alloc] at hd ⊢
    obtain ⟨m1, h1, h2⟩ := hd.small_nil hq he bnd
    obtain ⟨M', h3, h4⟩ := h1.move (bnd' := bnd) Place.none_ok (MemR.none_start hl)
      (.inr ⟨hq, he.prog⟩)
    refine ⟨M', h3, h4.log.trans h2, ?_, ?_⟩
    · intro o q x hx
      exact h3.keeps (.inl trivial) hq he hx
    · intro v hv; exact hv
  · rw [alloc_eq hn] at hd ⊢
    rw [alloc_eq hn]
    obtain ⟨m1, h1, h2, w, h3, h4⟩ := hd.small hq he (u := lt.defaultInit) (look_nil.2 (by simp)) bnd
    obtain ⟨M', e1, e2, e3, e4⟩ := h1.buffered hq he hl bnd
    refine ⟨M', e1, e3.trans h2, e4, ?_⟩
    intro v hv
    have : v = w := by
      have hv : m'.look m.objs.length [] = .ok v := hv
      rw [h4] at hv
      cases hv; rfl
    subst this
    exact e2 _ h3

theorem Lifts.action {a : Act} (hq : A.quiet = true) (he : env.quiet) (ha : a.param = false)
    (hv : a.void = false) (hty : ∀ t, ty ≠ .coll t) :
    Lifts env T ty start (.action a A) (.action a A) := by
  intro u i log b r i' L m' v hu hr hd hv1 M o q us bnd hM hl
  obtain ⟨m1, h1, h2, h3⟩ := hd.unaction
  obtain ⟨M1, e1, e2, e3, e4⟩ := h1.landed hq he hl bnd
  cases r with
  | PARTIAL => exact absurd rfl hr
  | FAILURE =>
    refine ⟨M1, .action_fail e1, ?_, ?_⟩
    · simpa [gained] using e3 _ _ _ hM
    · rw [e2, h3 (by simp)]
  | SUCCESS =>
    have h2 := h2 rfl
    obtain ⟨x, hx, hne, hlog⟩ := act_log h2
    rw [act_plain ha hx hne, hv] at h2
    have hc := assign_inv hty h2 (hv1 rfl).1
    obtain ⟨M2, f1, f2, f3⟩ := assign_push (m := { M1 with log := M1.log ++ [⟨a.id, x⟩] }) hc
      (e3 _ _ _ hM)
    refine ⟨M2, .action e1 ?_, f2, ?_⟩
    · rw [act_plain ha (e4 _ hx) hne, hv, e2]
      rw [e2] at f1
      exact f1
    · rw [f3, hlog, e2]

theorem Lifts.except {N : Prog} (h : Lifts env T ty start A B) (hqA : A.quiet = true)
    (hqN : N.quiet = true) (he : env.quiet) :
    Lifts env T ty start (.except A N) (.except B N) := by
  intro u i log b r i' L m' v hu hr hd hv M o q us bnd hM hl
  have key : ∀ {r i1 L1 m1}, Does env N .nil b T i ⟨[u], log⟩ r i1 L1 m1 →
      ∃ M1, Does env N .nil bnd T i M r i1 L1 M1 ∧ M1.log = m1.log ∧ M1.look o q = .ok (.coll us) := by
    intro r i1 L1 m1 h1
    obtain ⟨m2, h2, h3⟩ := h1.small_nil hqN he bnd
    obtain ⟨M', h4, h5⟩ := h2.move (bnd' := bnd) Place.none_ok (MemR.none_start hl)
      (.inr ⟨hqN, he.prog⟩)
    exact ⟨M', h4, h5.log.trans h3, h4.keeps (.inl trivial) hqN he hM⟩
  rcases hd.unexcept hr with ⟨rfl, h1⟩ | ⟨i1, L1, m1, L2, h1, h2, rfl⟩
  · obtain ⟨M1, e1, e2, e3⟩ := key h1
    exact ⟨M1, .except_neg e1, by simpa [gained] using e3, e2⟩
  · obtain ⟨M1, e1, e2, e3⟩ := key h1
    have hu1 : m1.look 0 [] = .ok u := h1.keeps (.inl trivial) hqN he rfl
    obtain ⟨m3, f1, f2, w, f3, f4⟩ := h2.small hqA he hu1 b
    obtain ⟨M', g1, g2, g3⟩ := h hu hr f1 (fun e => by
      obtain ⟨a1, a2⟩ := hv e
      rw [f4] at a1
      cases a1
      exact ⟨f3, a2⟩) M1 o q us bnd e3 e2
    exact ⟨M', .except_op e1 g1, g2, g3.trans f2⟩

theorem Lifts.alts {As Bs : List Prog} (hq : Prog.quiets As = true) (he : env.quiet)
    (h : LiftsAll env T ty As Bs) {b r i' L}
    {M0 m' : Mem} {i E v} (hr : r ≠ .PARTIAL)
    (hd : AltDoes env (.at 0 [] ty) b T As i E M0 r i' L m')
    (hv : r = .SUCCESS → m'.look 0 [] = .ok v ∧ ty.Holds v) :
    ∀ {u} (_ : M0.look 0 [] = .ok u) (M : Mem) o q us bnd, M.look o q = .ok (.coll us) →
      M.log = M0.log →
      ∃ M', AltDoes env (.at o q (.coll ty)) bnd T Bs i E M r i' L M' ∧
        M'.look o q = .ok (.coll (us ++ gained r v)) ∧ M'.log = m'.log := by
  induction hd generalizing Bs with
  | @here Q Ps i E m i' L m' h1 =>
    intro u hu M o q us bnd hM hl
    simp only [Prog.quiets, Bool.and_eq_true] at hq
    cases h with
    | cons hQ hPs =>
      obtain ⟨m3, f1, f2, w, f3, f4⟩ := h1.small hq.1 he hu b
      obtain ⟨M', g1, g2, g3⟩ := hQ trivial hr f1 (fun e => by
        obtain ⟨a1, a2⟩ := hv e
        rw [f4] at a1
        cases a1
        exact ⟨f3, a2⟩) M o q us bnd hM hl
      exact ⟨M', .here g1, g2, g3.trans f2⟩
  | @last Q i E m i' L m' h1 =>
    intro u hu M o q us bnd hM hl
    simp only [Prog.quiets, Bool.and_eq_true] at hq
    cases h with
    | cons hQ hPs =>
      cases hPs
      obtain ⟨m3, f1, f2, w, f3, f4⟩ := h1.small hq.1 he hu b
      obtain ⟨M', g1, g2, g3⟩ := hQ trivial hr f1 (v := v) (fun e => by cases e) M o q us bnd hM hl
      exact ⟨M', .last g1, g2, g3.trans f2⟩
  | @cons Q Ps i E m r i1 L m1 i' L' m' h1 hrest ih =>
    intro u hu M o q us bnd hM hl
    simp only [Prog.quiets, Bool.and_eq_true] at hq
    cases h with
    | cons hQ hPs =>
      obtain ⟨m3, f1, f2, w, f3, f4⟩ := h1.small hq.1 he hu b
      obtain ⟨M1, g1, g2, g3⟩ := hQ trivial (by simp) f1 (v := v) (fun e => by cases e) M o q us bnd hM hl
      obtain ⟨M', k1, k2, k3⟩ := ih hq.2 hPs hr hv f4 M1 o q us bnd (by simpa [gained] using g2)
        (g3.trans f2)
      exact ⟨M', .cons g1 k1, k2, k3⟩

theorem Lifts.alt {As Bs : List Prog} (hq : Prog.quiets As = true) (he : env.quiet)
    (h : LiftsAll env T ty As Bs) :
    Lifts env T ty (fun _ => True) (.alt As) (.alt Bs) := by
  intro u i log b r i' L m' v _ hr hd hv M o q us bnd hM hl
  obtain ⟨M', h1, h2⟩ := Lifts.alts hq he h hr (hd.unalt hr) hv (u := u) rfl M o q us bnd hM hl
  exact ⟨M', h1.does, h2⟩

theorem Lifts.weaken {start' : Val → Prop} (h : Lifts env T ty start A B) (hs : ∀ u, start' u → start u) :
    Lifts env T ty start' A B := fun _ _ _ _ _ _ _ _ _ hu => h (hs _ hu)

theorem Pat.single_of_assigns : ∀ (p : Pat), p.assigns = true → p.single = true
  | .lexeme p, h => Pat.single_of_assigns p h
  | .except p _, h => Pat.single_of_assigns p h
  | .char _, _ => rfl
  | .charSymbol _, _ => rfl
  | .symbol _, _ => rfl
  | .int .., _ => rfl
  | .uint .., _ => rfl
  | .action _ _, h => h
  | .alt _, h => h

mutual
theorem lifts_pat (he : env.quiet) (hn : ty ≠ .nil) : ∀ (p : Pat) {f c : Bool}, p.single = true →
    p.quiet = true → (p.assigns = true → ∀ t, ty ≠ .coll t) →
    Lifts env T ty (fun u => p.assigns = true ∨ u = ty.defaultInit)
      (elabP .fail ⟨false, f, c, false⟩ p) (elabP .fail ⟨true, f, c, false⟩ p) := by
  intro p f c hs hq hty
  have noFc : p.FAILS_CLEANLY = false →
      Lifts env T ty (fun u => p.assigns = true ∨ u = ty.defaultInit)
        (elabP .fail ⟨false, false, c, false⟩ p) (elabP .fail ⟨true, false, c, false⟩ p) →
      Lifts env T ty (fun u => p.assigns = true ∨ u = ty.defaultInit)
        (elabP .fail ⟨false, f, c, false⟩ p) (elabP .fail ⟨true, f, c, false⟩ p) := by
    intro hfc h
    cases f with
    | false => exact h
    | true => rw [elab_addClean hfc, elab_addClean hfc]; exact h.clean
  have atomic : p.ATOMIC = false → (∀ q, p ≠ .bindDst q) → 
      ((∀ q, p ≠ .bindDst q) → p.FAILS_CLEANLY = true →
        elabP .fail ⟨false, true, c, false⟩ p = elabP .fail ⟨false, false, c, false⟩ p ∧
        elabP .fail ⟨true, true, c, false⟩ p = elabP .fail ⟨true, false, c, false⟩ p) →
      (∀ {u i log b r i' L m'}, (p.assigns = true ∨ u = ty.defaultInit) →
        Does env (elabP .fail ⟨false, false, c, false⟩ p) (.at 0 [] ty) b T i ⟨[u], log⟩ r i' L m' →
        Does env (elabP .fail ⟨false, false, c, false⟩ p) (.at 0 [] ty) b T i ⟨[ty.defaultInit], log⟩ r i' L m') →
      Lifts env T ty (fun u => p.assigns = true ∨ u = ty.defaultInit)
        (elabP .fail ⟨false, f, c, false⟩ p) (elabP .fail ⟨true, f, c, false⟩ p) := by
    intro hat hb hsame hst
    have h0 : Lifts env T ty (fun u => p.assigns = true ∨ u = ty.defaultInit)
        (elabP .fail ⟨false, false, c, false⟩ p) (elabP .fail ⟨true, false, c, false⟩ p) := by
      rw [elab_addAtomic hat c hb]
      exact Lifts.atomic (elab_quiet p hq rfl) he hn hst
    cases hfc : p.FAILS_CLEANLY with
    | false => exact noFc hfc h0
    | true =>
      cases f with
      | false => exact h0
      | true => rw [(hsame hb hfc).1, (hsame hb hfc).2]; exact h0
  cases p with
  | char s => exact Lifts.assigning rfl (hty rfl)
  | charSymbol s => exact Lifts.assigning rfl (hty rfl)
  | symbol s => exact noFc rfl (Lifts.assigning rfl (hty rfl))
  | int b mn mx =>
    refine atomic rfl (by intro q h; cases h) (fun _ hfc => ?_) (fun _ hd => ?_)
    · simp [elabP, adapt, Req.needsClean, Req.needsAtomic, Req.skipper, hfc]
    · exact Does.zeroed (A := .int b mn mx) (fun d b => ⟨_, by simp only [Abu.mk]; rfl⟩) hd
  | uint b mn mx =>
    refine atomic rfl (by intro q h; cases h) (fun _ hfc => ?_) (fun _ hd => ?_)
    · simp [elabP, adapt, Req.needsClean, Req.needsAtomic, Req.skipper, hfc]
    · exact Does.zeroed (A := .uint b mn mx) (fun d b => ⟨_, by simp only [Abu.mk]; rfl⟩) hd
  | seq ps =>
    refine atomic rfl (by intro q h; cases h) (fun _ hfc => by cases hfc) (fun hu hd => ?_)
    rcases hu with hu | rfl
    · cases hu
    · exact hd
  | rep mn mx q =>
    refine atomic rfl (by intro q h; cases h) (fun _ hfc => by cases hfc) (fun hu hd => ?_)
    rcases hu with hu | rfl
    · cases hu
    · exact hd
  | list q s =>
    refine atomic rfl (by intro q h; cases h) (fun _ hfc => ⟨rfl, rfl⟩) (fun hu hd => ?_)
    rcases hu with hu | rfl
    · cases hu
    · exact hd
  | recur id n =>
    refine atomic rfl (by intro q h; cases h) (fun _ hfc => by cases hfc) (fun hu hd => ?_)
    rcases hu with hu | rfl
    · cases hu
    · exact hd
  | bindDst q =>
    have h : Lifts env T ty (fun u => (Pat.bindDst q).assigns = true ∨ u = ty.defaultInit)
        (.bindDst (elabP .fail ⟨false, f, c, false⟩ q))
        (.atomic (.bindDst (elabP .fail ⟨false, f, c, false⟩ q))) := by
      refine Lifts.atomic ?_ he hn (fun hu hd => ?_)
      · exact elab_quiet q hq rfl
      · rcases hu with hu | rfl
        · cases hu
        · exact hd
    cases f <;> exact h
  | lexeme q =>
    have h := lifts_pat he hn q (f := f) (c := c) hs hq hty
    cases f <;> exact h.lexeme
  | action a q =>
    simp only [Pat.quiet, Bool.and_eq_true, Bool.not_eq_true'] at hq
    have hs : a.void = false := by simpa [Pat.single, Pat.assigns] using hs
    have h : Lifts env T ty (fun u => (Pat.action a q).assigns = true ∨ u = ty.defaultInit)
        (.action a (elabP .fail ⟨false, f, c, false⟩ q)) (.action a (elabP .fail ⟨false, f, c, false⟩ q)) :=
      Lifts.action (elab_quiet q hq.2 rfl) he hq.1 hs (hty (by simp [Pat.assigns, hs]))
    cases f <;> exact h
  | except q s =>
    simp only [Pat.quiet, Bool.and_eq_true] at hq
    have h := lifts_pat he hn q (f := false) (c := c) hs hq.1 hty
    exact noFc rfl (h.except (elab_quiet q hq.1 rfl) (elab_quiet s hq.2 rfl) he)
  | alt ps =>
    have h := lifts_pats he hn ps (c := c) hs hq (hty hs)
    have h : Lifts env T ty (fun u => (Pat.alt ps).assigns = true ∨ u = ty.defaultInit)
        (.alt (elabPs .fail ⟨false, true, c, false⟩ ps)) (.alt (elabPs .fail ⟨true, true, c, false⟩ ps)) :=
      (Lifts.alt (elabs_quiet ps hq rfl) he h).weaken fun _ _ => trivial
    cases f <;> exact h
  | _ => cases hs
theorem lifts_pats (he : env.quiet) (hn : ty ≠ .nil) : ∀ (ps : List Pat) {c : Bool}, Pat.allAssign ps = true →
    Pat.quiets ps = true → (∀ t, ty ≠ .coll t) →
    LiftsAll env T ty (elabPs .fail ⟨false, true, c, false⟩ ps) (elabPs .fail ⟨true, true, c, false⟩ ps)
  | [], _, _, _, _ => .nil
  | p :: ps, c, hs, hq, hty => by
    simp only [Pat.allAssign, Pat.quiets, Bool.and_eq_true] at hs hq
    exact .cons ((lifts_pat he hn p (Pat.single_of_assigns p hs.1) hq.1 fun _ => hty).weaken
      fun _ _ => .inl hs.1) (lifts_pats he hn ps hs.2 hq.2 hty)
end

/-- What `p` does alone it does to a new element of a collection. -/
theorem Alone.item {p : Pat} {log log' : List LogEntry} {i r v rest} {M : Mem} {o q us}
    (h : Alone env p ty ty.defaultInit log (T.drop i) r v log' rest) (hr : r ≠ .PARTIAL)
    (hh : r = .SUCCESS → ty.Holds v) (hs : p.single = true) (hk : p.unskipped = true)
    (hq : p.quiet = true) (he : env.quiet) (hn : ty ≠ .nil)
    (hty : p.assigns = true → ∀ t, ty ≠ .coll t) (f c : Bool)
    (hM : M.look o q = .ok (.coll us)) (hl : M.log = log) (bnd : Ref) :
    ∃ i' L M', Does env (elabP .fail ⟨true, f, c, false⟩ p) (.at o q (.coll ty)) bnd T i M r i' L M' ∧
      (r = .SUCCESS → T.drop i' = rest) ∧ M'.look o q = .ok (.coll (us ++ gained r v)) ∧
      M'.log = log' := by
  obtain ⟨m', ⟨hp, _⟩, hv', hl'⟩ := h
  obtain ⟨i', L, hd, hrest, _⟩ := hp.does rfl
  rw [← elab_false p c] at hd
  obtain ⟨M', h1, h2, h3⟩ := lifts_pat he hn p hs hq hty (.inr rfl) hr hd
    (fun e => ⟨look_nil.2 hv', hh e⟩) M o q us bnd hM hl
  cases f with
  | false => exact ⟨i', L, M', h1, fun _ => hrest, h2, h3.trans hl'⟩
  | true =>
    obtain ⟨i2, L2, h4, h5⟩ := Does.cleaner (c := c) p hk hr h1
    exact ⟨i2, L2, M', h4, fun e => by rw [h5 e]; exact hrest, h2, h3.trans hl'⟩

theorem enough_reach (mn n : Nat) : enough n mn = reach mn n := rfl

theorem Matches.rep {p : Pat} {o q bnd} {mn mx : Nat} {c : Bool} (hs : p.single = true) (hk : p.unskipped = true)
    (hq : p.quiet = true) (he : env.quiet) (hn : ty ≠ .nil)
    (hty : p.assigns = true → ∀ t, ty ≠ .coll t) (f : Bool) {log t vs log1 t1 log2}
    (h : Matches env p ty log t vs log1 t1) (hb : mx = 0 ∨ mn ≤ mx) :
    ∀ {n i : Nat} {M : Mem} {us}, T.drop i = t → M.look o q = .ok (.coll us) → M.log = log →
      Stops env p ty mx (n + vs.length) log1 t1 log2 → (mx = 0 ∨ n < mx) →
      ∃ i' M', RepDoes env (elabP .fail ⟨true, f, c, false⟩ p) (.at o q (.coll ty)) bnd T mn mx n i M
          (reach mn (n + vs.length)) i' M' ∧
        (mx ≠ 0 → n + vs.length = mx → T.drop i' = t1) ∧ M'.look o q = .ok (.coll (us ++ vs)) ∧ M'.log = log2 := by
  induction h with
  | @nil log t =>
    intro n i M us ht hM hl hst hlt
    subst ht
    cases hst with
    | max h1 h2 => simp only [List.length_nil] at h2; omega
    | fails h1 h2 =>
      obtain ⟨i', L, M', e1, _, e3, e4⟩ := h2.item (by simp) (by simp) hs hk hq he hn hty f c hM hl bnd
      refine ⟨i', M', .stop e1, ?_, by simpa [gained] using e3, e4⟩
      intro h3 h4
      simp only [List.length_nil] at h1 h4
      omega
  | @cons log t v log1 t1 vs log2 t2 h1 hh hrest ih =>
    intro n i M us ht hM hl hst hlt
    subst ht
    obtain ⟨i1, L, M1, e1, e2, e3, e4⟩ := h1.item (by simp) (fun _ => hh) hs hk hq he hn hty f c hM hl bnd
    have e2 := e2 rfl
    by_cases hmax : mx ≠ 0 ∧ n + 1 = mx
    · have hv : vs = [] := by
        cases vs with
        | nil => rfl
        | cons a as =>
          cases hst with
          | max a1 a2 => simp only [List.length_cons] at a2; omega
          | fails a1 a2 => simp only [List.length_cons] at a1; omega
      subst hv
      cases hrest
      have hr : reach mn (n + [v].length) = .SUCCESS := by
        unfold reach
        rw [if_pos]
        simp only [List.length_cons, List.length_nil]
        omega
      rw [hr]
      refine ⟨i1, M1, .max e1 hmax.1 hmax.2, fun _ _ => e2, by simpa [gained] using e3, ?_⟩
      cases hst with
      | max a1 a2 => exact e4
      | fails a1 a2 => simp only [List.length_cons, List.length_nil] at a1; omega
    · obtain ⟨i', M', f1, f2, f3, f4⟩ := ih (n := n + 1) (us := us ++ [v]) e2
        (by simpa [gained] using e3) e4
        (by rw [Nat.add_right_comm]; exact hst) (by omega)
      rw [show n + 1 + vs.length = n + (v :: vs).length by simp only [List.length_cons]; omega] at f1 f2
      exact ⟨i', M', .more e1 hmax f1, f2, by simpa using f3, f4⟩

theorem Alone.rep {p : Pat} {mn mx : Nat} (hs : p.single = true) (hk : p.unskipped = true)
    (hq : p.quiet = true) (he : env.quiet) (hn : ty ≠ .nil)
    (hty : p.assigns = true → ∀ t, ty ≠ .coll t) {us log t vs log1 t1 log2}
    (h : Matches env p ty log t vs log1 t1) (hst : Stops env p ty mx vs.length log1 t1 log2)
    (hb : mx = 0 ∨ mn ≤ mx) :
    ∃ rest, Alone env (.rep mn mx p) (.coll ty) (.coll us) log t (reach mn vs.length)
        (.coll (us ++ vs)) log2 rest ∧ (mx ≠ 0 → vs.length = mx → rest = t1) := by
  obtain ⟨i', M', h1, h2, h3, h4⟩ := h.rep (T := t) (o := 0) (q := []) (bnd := .at 0 [] (.coll ty)) (c := false) hs hk hq he hn hty
    (mn != mx || mx == 0) hb (n := 0) (i := 0) (M := ⟨[.coll us], log⟩) (us := us) rfl rfl rfl
    (by rw [Nat.zero_add]; exact hst) (by omega)
  rw [Nat.zero_add] at h1 h2
  obtain ⟨L, hd⟩ := h1.does
  exact ⟨_, Does.alone hd h3 h4 rfl, h2⟩

theorem Separated.list {op sep : Pat} {o q bnd} (hs : op.single = true) (hk : op.unskipped = true)
    (hq : op.quiet = true) (hqs : sep.quiet = true) (he : env.quiet) (hn : ty ≠ .nil)
    (hty : op.assigns = true → ∀ t, ty ≠ .coll t) {log t vs log1 t1 log2}
    (h : Separated env op sep ty log t vs log1 t1) (hst : NoMore env op sep ty log1 t1 log2) :
    ∀ {i : Nat} {E : List Nat} {M : Mem} {us}, E ≠ [] → T.drop i = t → M.look o q = .ok (.coll us) → M.log = log →
      ∃ i' M', ListDoes env (elabP .fail ⟨true, false, false, false⟩ op) (topParser sep)
          (.at o q (.coll ty)) bnd T true i E M i' M' ∧
        M'.look o q = .ok (.coll (us ++ vs)) ∧ M'.log = log2 := by
  have pop : ∀ (L E : List Nat), E ≠ [] → ∃ a E', L ++ E = a :: E' := by
    intro L E hE
    cases L with
    | nil => cases E with
      | nil => exact absurd rfl hE
      | cons a E => exact ⟨a, E, rfl⟩
    | cons a L => exact ⟨a, L ++ E, rfl⟩
  induction h with
  | @nil log t =>
    intro i E M us hE ht hM hl
    subst ht
    cases hst with
    | sep h1 =>
      obtain ⟨i1, L, M1, e1, _, _, e2, e3⟩ := h1.does hqs he hl bnd
      obtain ⟨a, E', hp⟩ := pop L E hE
      refine ⟨a, M1, .sepFail e1 hp, ?_, e2⟩
      rw [(e3 o q (look_lt hM)).2, hM, List.append_nil]
    | item h1 h2 =>
      obtain ⟨i1, L, M1, e1, er, _, e2, e3⟩ := h1.does hqs he hl bnd
      subst er
      have hM1 : M1.look o q = .ok (.coll us) := by rw [(e3 o q (look_lt hM)).2, hM]
      obtain ⟨i2, L2, M2, f1, _, f3, f4⟩ := h2.item (by simp) (by simp) hs hk hq he hn hty false false hM1 e2 bnd
      obtain ⟨a, E', hp⟩ := pop L2 (L ++ E) (by simp [hE])
      exact ⟨a, M2, .sepSucc e1 (.opFail f1 hp), by simpa [gained] using f3, f4⟩
  | @cons log t log1 t1 v log2 t2 vs log3 t3 h1 h2 hh hrest ih =>
    intro i E M us hE ht hM hl
    subst ht
    obtain ⟨i1, L, M1, e1, er, _, e2, e3⟩ := h1.does hqs he hl bnd
    subst er
    have hM1 : M1.look o q = .ok (.coll us) := by rw [(e3 o q (look_lt hM)).2, hM]
    obtain ⟨i2, L2, M2, f1, f2, f3, f4⟩ := h2.item (by simp) (fun _ => hh) hs hk hq he hn hty false false hM1 e2 bnd
    obtain ⟨a, E', hp⟩ := pop L2 (L ++ E) (by simp [hE])
    obtain ⟨i3, M3, g1, g2, g3⟩ := ih hst (E := i2 :: E') (us := us ++ [v]) (by simp) (f2 rfl)
      (by simpa [gained] using f3) f4
    exact ⟨i3, M3, .sepSucc e1 (.opSucc f1 hp g1), by simpa using g2, g3⟩

theorem Alone.list {op sep : Pat} (hs : op.single = true) (hk : op.unskipped = true)
    (hq : op.quiet = true) (hqs : sep.quiet = true) (he : env.quiet) (hn : ty ≠ .nil)
    (hty : op.assigns = true → ∀ t, ty ≠ .coll t) {us log t v log0 t0 vs log1 t1 log2}
    (h0 : Alone env op ty ty.defaultInit log t .SUCCESS v log0 t0) (hh : ty.Holds v)
    (h : Separated env op sep ty log0 t0 vs log1 t1) (hst : NoMore env op sep ty log1 t1 log2) :
    ∃ rest, Alone env (.list op sep) (.coll ty) (.coll us) log t .SUCCESS
        (.coll (us ++ v :: vs)) log2 rest := by
  obtain ⟨i1, L, M1, e1, e2, e3, e4⟩ := Alone.item (T := t) (i := 0) (M := ⟨[.coll us], log⟩) (o := 0) (q := [])
    h0 (by simp) (fun _ => hh) hs hk hq he hn hty
    false false rfl rfl (.at 0 [] (.coll ty))
  obtain ⟨a, E', hp⟩ := cons_of_snoc L 0
  obtain ⟨i3, M3, g1, g2, g3⟩ := h.list (bnd := .at 0 [] (.coll ty)) hs hk hq hqs he hn hty hst
    (E := i1 :: E') (us := us ++ [v]) (by simp) (e2 rfl) (by simpa [gained] using e3) e4
  obtain ⟨L3, hd⟩ := ListDoes.does (.opSucc e1 hp g1)
  exact ⟨_, Does.alone hd (by simpa using g2) g3 rfl⟩

theorem Alone.list_empty {op sep : Pat} (hs : op.single = true) (hk : op.unskipped = true)
    (hq : op.quiet = true) (he : env.quiet) (hn : ty ≠ .nil)
    (hty : op.assigns = true → ∀ t, ty ≠ .coll t) {us log t v log0 t0}
    (h0 : Alone env op ty ty.defaultInit log t .FAILURE v log0 t0) :
    ∃ rest, Alone env (.list op sep) (.coll ty) (.coll us) log t .SUCCESS (.coll us) log0 rest := by
  obtain ⟨i1, L, M1, e1, e2, e3, e4⟩ := Alone.item (T := t) (i := 0) (M := ⟨[.coll us], log⟩) (o := 0) (q := [])
    h0 (by simp) (by simp) hs hk hq he hn hty
    false false rfl rfl (.at 0 [] (.coll ty))
  obtain ⟨a, E', hp⟩ := cons_of_snoc L 0
  obtain ⟨L3, hd⟩ := ListDoes.does (sep := topParser sep) (.opFail e1 hp)
  exact ⟨_, Does.alone hd (by simpa [gained] using e3) e4 rfl⟩

end

end Abu
