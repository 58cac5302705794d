import Verif.Spec.Filled
import Verif.Model.Api
import Verif.Proofs.Exec
import Verif.Proofs.Overwrite
/-
Parsers that never read what was not initialised.
-/
namespace Abu

/-! ### Values -/

theorem wholes_iff {vs : List Val} : Val.wholes vs = true ↔ ∀ v ∈ vs, v.whole = true := by
  induction vs with
  | nil => simp [Val.wholes]
  | cons v vs ih => simp [Val.wholes, ih]

mutual
theorem valueInit_whole : (t : Ty) → t.valueInit.whole = true
  | .nil => rfl
  | .num _ => rfl
  | .coll _ => rfl
  | .tup ts => by rw [Ty.valueInit, Val.whole]; exact valueInits_whole ts
  | .user _ => rfl
theorem valueInits_whole : (ts : List Ty) → Val.wholes (Ty.valueInits ts) = true
  | [] => rfl
  | t :: ts => by
    rw [Ty.valueInits, Val.wholes, valueInit_whole t, valueInits_whole ts]; rfl
end

theorem defaultInit_whole {t : Ty} (h : t.scalar = false) : t.defaultInit.whole = true := by
  cases t with
  | num k => cases h
  | _ => exact valueInit_whole _

/-- A value that can be in memory: initialised, or an uninitialised scalar. -/
def Val.sound (v : Val) : Prop := v = .indet ∨ v.whole = true

theorem defaultInit_sound (t : Ty) : t.defaultInit.sound := by
  cases t <;> first | exact .inl rfl | exact .inr (valueInit_whole _)

/-- An outcome that is not a read of an uninitialised value and satisfies a condition. -/
def Sober {α : Type} (Q : α → Prop) : Except Err α → Prop
  | .error e => e ≠ .ubUninit
  | .ok a => Q a

theorem Sober.imp {α : Type} {Q Q' : α → Prop} {x : Except Err α} (h : Sober Q x)
    (hq : ∀ a, Q a → Q' a) : Sober Q' x := by
  cases x with
  | error e => exact h
  | ok a => exact hq a h

theorem convert_sober (t : Ty) {v : Val} (h : v.whole = true) :
    Sober (fun v' => v'.whole = true) (t.convert v) := by
  have hn := valueInit_whole t
  cases t <;> cases v <;>
    first
    | (cases h; done)
    | exact h
    | exact hn
    | rfl
    | (intro h; cases h; done)
    | skip
  simp only [Ty.convert]
  split
  · exact h
  · intro h; cases h

theorem update_sober {f : Val → Except Err Val}
    (hf : ∀ v, v.whole = true → Sober (fun v' => v'.whole = true) (f v)) :
    ∀ (path : List Nat) (v : Val), v.whole = true →
      Sober (fun v' => v'.whole = true) (Val.update f path v)
  | [], v, h => hf v h
  | i :: path, v, h => by
    cases v with
    | tup vs =>
      rw [Val.update]
      cases hi : vs[i]? with
      | none => intro h; cases h
      | some x =>
        have hx : x.whole = true := wholes_iff.1 h x (List.mem_of_getElem? hi)
        have := update_sober hf path x hx
        dsimp only
        cases hu : Val.update f path x with
        | error e => rw [hu] at this; exact this
        | ok x' =>
          rw [hu] at this
          show Val.wholes (vs.set i x') = true
          rw [wholes_iff]
          intro y hy
          rcases List.mem_or_eq_of_mem_set hy with h1 | h1
          · exact wholes_iff.1 h y h1
          · exact h1 ▸ this
    | _ => intro h; cases h

theorem update_fine_indet {f : Val → Except Err Val}
    (hf : Sober (fun v' => v'.whole = true) (f .indet)) (path : List Nat) :
    Sober (fun v' => v'.whole = true) (Val.update f path .indet) := by
  cases path with
  | nil => exact hf
  | cons i path => intro h; cases h

theorem get_whole : ∀ (path : List Nat) (v v' : Val), v.whole = true → Val.get path v = .ok v' →
    v'.whole = true
  | [], v, v', h, hg => by cases hg; exact h
  | i :: path, v, v', h, hg => by
    cases v with
    | tup vs =>
      rw [Val.get] at hg
      cases hi : vs[i]? with
      | none => rw [hi] at hg; cases hg
      | some x =>
        rw [hi] at hg
        exact get_whole path x v' (wholes_iff.1 h x (List.mem_of_getElem? hi)) hg
    | _ => cases hg

theorem update_same : ∀ (path : List Nat) (v b : Val), Val.get path v = .ok b →
    Val.update (fun old => old.overwrite b) path v = .ok v
  | [], v, b, hg => by cases hg; exact overwrite_same _
  | i :: path, v, b, hg => by
    cases v with
    | tup vs =>
      rw [Val.get] at hg
      rw [Val.update]
      cases hi : vs[i]? with
      | none => rw [hi] at hg; cases hg
      | some x =>
        rw [hi] at hg
        dsimp only at hg ⊢
        rw [update_same path x b hg]
        dsimp only
        congr 2
        rw [List.getElem?_eq_some_iff] at hi
        obtain ⟨h1, h2⟩ := hi
        rw [← h2, List.set_getElem_self]
    | _ => cases hg

/-! ### Memory -/

/-- All there is in memory is sound, and actions were given initialised values. -/
def Mem.Sound (m : Mem) : Prop := (∀ v ∈ m.objs, v.sound) ∧ ∀ e ∈ m.log, e.arg.whole = true

/-- What is initialised stays so. -/
def Mem.Later (m m' : Mem) : Prop :=
  ∀ (o : Nat) (v : Val), m.objs[o]? = some v → v.whole = true →
    ∃ v', m'.objs[o]? = some v' ∧ v'.whole = true

theorem Mem.Later.refl (m : Mem) : m.Later m := fun _ v h hv => ⟨v, h, hv⟩

theorem Mem.Later.trans {a b c : Mem} (h : a.Later b) (h' : b.Later c) : a.Later c := by
  intro o v hv hw
  obtain ⟨v1, h1, h2⟩ := h o v hv hw
  exact h' o v1 h1 h2

theorem Mem.Filled.later {m m' : Mem} {r : Ref} (h : m.Filled r) (hl : m.Later m') :
    m'.Filled r := by
  cases r with
  | nil => exact h
  | «at» o p t => obtain ⟨v, hv, hw⟩ := h; exact hl o v hv hw

/-- Only scalars may be uninitialised. -/
def Mem.Sane (m : Mem) (r : Ref) : Prop := r.ty.scalar = false → m.Filled r

theorem Mem.Sane.later {m m' : Mem} {r : Ref} (h : m.Sane r) (hl : m.Later m') : m'.Sane r :=
  fun hs => (h hs).later hl

/-- Good result of a memory operation on `m` that writes to `r`. -/
def Mem.Wrote (m : Mem) (r : Ref) (m' : Mem) : Prop := m'.Sound ∧ m.Later m' ∧ m'.Filled r

theorem set_sound {m : Mem} {o : Nat} {v v' : Val} (hm : m.Sound) (ho : m.objs[o]? = some v)
    (hv : v'.whole = true) (path : List Nat) (ty : Ty) :
    m.Wrote (.at o path ty) { m with objs := m.objs.set o v' } := by
  have hlt : o < m.objs.length := by
    rw [List.getElem?_eq_some_iff] at ho; exact ho.1
  refine ⟨⟨?_, hm.2⟩, ?_, ?_⟩
  · intro x hx
    rcases List.mem_or_eq_of_mem_set hx with h1 | h1
    · exact hm.1 x h1
    · exact .inr (h1 ▸ hv)
  · intro q x hx hw
    by_cases hq : q = o
    · subst hq
      exact ⟨v', by simp [List.getElem?_set_self hlt], hv⟩
    · exact ⟨x, by rw [← hx]; exact List.getElem?_set_ne (Ne.symm hq), hw⟩
  · exact ⟨v', by simp [List.getElem?_set_self hlt], hv⟩

theorem modify_sober {m : Mem} (hm : m.Sound) {o : Nat} {path : List Nat} {ty : Ty}
    {f : Val → Except Err Val} (hf : ∀ v, v.whole = true → Sober (fun v' => v'.whole = true) (f v))
    (hi : m.Filled (.at o path ty) ∨ Sober (fun v' => v'.whole = true) (f .indet)) :
    Sober (m.Wrote (.at o path ty)) (m.modify o path f) := by
  rw [Mem.modify]
  cases ho : m.objs[o]? with
  | none => intro h; cases h
  | some v =>
    have hu : Sober (fun v' => v'.whole = true) (Val.update f path v) := by
      rcases hm.1 v (List.mem_of_getElem? ho) with h | h
      · subst h
        rcases hi with h | h
        · obtain ⟨v, h1, h2⟩ := h
          rw [ho] at h1
          cases h1
          cases h2
        · exact update_fine_indet h path
      · exact update_sober hf path v h
    dsimp only
    cases hx : Val.update f path v with
    | error e => rw [hx] at hu; exact hu
    | ok v' => rw [hx] at hu; exact set_sound hm ho hu path ty

theorem wrote_nil {m : Mem} (hm : m.Sound) : m.Wrote .nil m := ⟨hm, .refl m, trivial⟩

theorem assign_sober {m : Mem} (hm : m.Sound) (r : Ref) {v : Val} (hv : v.whole = true) :
    Sober (m.Wrote r) (m.assign r v) := by
  cases r with
  | nil => exact wrote_nil hm
  | «at» o path t =>
    have hc : ∀ t : Ty, ∀ x : Val, Sober (fun v' => v'.whole = true) (t.convert v) := fun t _ =>
      convert_sober t hv
    have key : ∀ t : Ty, Sober (m.Wrote (.at o path t))
        (match t.convert v with
        | .error e => .error e
        | .ok v' => m.modify o path fun _ => .ok v') := by
      intro t
      have := hc t .nil
      cases hx : t.convert v with
      | error e => rw [hx] at this; exact this
      | ok v' =>
        rw [hx] at this
        exact modify_sober hm (fun _ _ => this) (.inr this)
    cases t with
    | coll t =>
      rw [Mem.assign]
      have := hc t .nil
      cases hx : t.convert v with
      | error e => rw [hx] at this; exact this
      | ok e =>
        rw [hx] at this
        refine modify_sober hm ?_ (.inr (by intro h; cases h))
        intro x hw
        cases x with
        | coll vs =>
          show Val.wholes (vs ++ [e]) = true
          rw [wholes_iff]
          intro y hy
          rcases List.mem_append.1 hy with h | h
          · exact wholes_iff.1 hw y h
          · cases List.mem_singleton.1 h; exact this
        | _ => intro h; cases h
    | _ => exact key _

theorem onNum_sober {m : Mem} (hm : m.Sound) (r : Ref) {f : NumKind → Val → Except Err Val}
    (hf : ∀ k v, v.whole = true → Sober (fun v' => v'.whole = true) (f k v))
    (hi : m.Filled r ∨ ∀ k, Sober (fun v' => v'.whole = true) (f k .indet)) :
    Sober (m.Wrote r) (m.onNum r f) := by
  cases r with
  | nil => exact wrote_nil hm
  | «at» o path t =>
    cases t with
    | num k =>
      exact modify_sober hm (hf k) (hi.imp id fun h => h k)
    | _ => intro h; cases h

theorem zero_sober {m : Mem} (hm : m.Sound) (r : Ref) : Sober (m.Wrote r) (m.zero r) :=
  onNum_sober hm r (fun _ _ _ => rfl) (.inr fun _ => rfl)

theorem store_sober (k : NumKind) (i : Int) : Sober (fun _ => True) (k.store i) := by
  cases k with
  | ideal => trivial
  | unsigned w => trivial
  | signed w =>
    simp only [NumKind.store]
    split
    · trivial
    · split
      · trivial
      · intro h; cases h

theorem arith_sober {m : Mem} (hm : m.Sound) {r : Ref} (hr : m.Filled r) (g : Int → Int) :
    Sober (m.Wrote r) (m.onNum r fun k v =>
      match v with
      | .num i => match k.store (g i) with
        | .error e => .error e
        | .ok j => .ok (.num j)
      | .indet => .error .ubUninit
      | _ => .error .noCompile) := by
  refine onNum_sober hm r ?_ (.inl hr)
  intro k v hv
  cases v with
  | num i =>
    have := store_sober k (g i)
    dsimp only
    cases hx : k.store (g i) with
    | error e => rw [hx] at this; exact this
    | ok j => rfl
  | indet => cases hv
  | _ => intro h; cases h

theorem mul_sober {m : Mem} (hm : m.Sound) {r : Ref} (hr : m.Filled r) (b : Int) :
    Sober (m.Wrote r) (m.mul b r) := arith_sober hm hr fun i => i * b

theorem add_sober {m : Mem} (hm : m.Sound) {r : Ref} (hr : m.Filled r) (d : Int) :
    Sober (m.Wrote r) (m.add d r) := arith_sober hm hr fun i => i + d

theorem Mem.Wrote.trans {a b c : Mem} {r r' : Ref} (h : a.Wrote r b) (h' : b.Wrote r' c) :
    a.Wrote r' c := ⟨h'.1, h.2.1.trans h'.2.1, h'.2.2⟩

theorem mulAdd_sober {m : Mem} (hm : m.Sound) {r : Ref} (hr : m.Filled r) (b d : Int) :
    Sober (m.Wrote r) (m.mulAdd b d r) := by
  rw [Mem.mulAdd]
  have := mul_sober hm hr b
  cases hx : m.mul b r with
  | error e => rw [hx] at this; exact this
  | ok m1 =>
    rw [hx] at this
    exact (add_sober this.1 this.2.2 d).imp fun _ h => Mem.Wrote.trans this h

theorem get_error : ∀ (path : List Nat) (v : Val), Val.get path v ≠ .error .ubUninit
  | [], v, h => by cases h
  | i :: path, v, h => by
    cases v with
    | tup vs =>
      rw [Val.get] at h
      cases hi : vs[i]? with
      | none => rw [hi] at h; cases h
      | some x => rw [hi] at h; exact get_error path x h
    | _ => cases h

theorem read_error {m : Mem} {r : Ref} {e : Err} (h : m.read r = .error e) : e ≠ .ubUninit := by
  rintro rfl
  cases r with
  | nil => cases h
  | «at» o path t =>
    rw [Mem.read] at h
    cases ho : m.objs[o]? with
    | none => rw [ho] at h; cases h
    | some v => rw [ho] at h; exact get_error path v h

theorem read_sober {m : Mem} {r : Ref} (hr : m.Filled r) :
    Sober (fun v => v.whole = true) (m.read r) := by
  cases hx : m.read r with
  | error e => exact read_error hx
  | ok x =>
    cases r with
    | nil => cases hx; rfl
    | «at» o path t =>
      obtain ⟨v, h1, h2⟩ := hr
      rw [Mem.read, h1] at hx
      exact get_whole path v x h2 hx

theorem assignFrom_sober {m : Mem} (hm : m.Sound) (dst : Ref) {buf : Ref} (hb : m.Filled buf) :
    Sober (m.Wrote dst) (m.assignFrom dst buf) := by
  rw [Mem.assignFrom]
  have := read_sober hb
  cases hx : m.read buf with
  | error e => rw [hx] at this; exact this
  | ok v =>
    rw [hx] at this
    cases v with
    | indet => cases this
    | _ => exact assign_sober hm dst this

theorem makeFrom_sober (t : Ty) {args : List Val} (h : Val.wholes args = true) :
    Sober (fun v => v.whole = true) (t.makeFrom args) := by
  unfold Ty.makeFrom
  split
  · exact h
  · rfl
  · exact h
  · rfl
  · rfl
  · intro h; cases h

theorem construct_sober {m : Mem} (hm : m.Sound) (dst : Ref) {buf : Ref} (hb : m.Filled buf) :
    Sober (m.Wrote dst) (m.construct dst buf) := by
  rw [Mem.construct]
  have := read_sober hb
  cases hx : m.read buf with
  | error e => rw [hx] at this; exact this
  | ok v =>
    rw [hx] at this
    cases v with
    | tup args =>
      cases dst with
      | nil =>
        have h1 := makeFrom_sober .nil this
        dsimp only
        cases hy : Ty.nil.makeFrom args with
        | error e => rw [hy] at h1; exact h1
        | ok _ => exact wrote_nil hm
      | «at» o path t =>
        have h1 := makeFrom_sober t this
        dsimp only
        cases hy : t.makeFrom args with
        | error e => rw [hy] at h1; exact h1
        | ok v => rw [hy] at h1; exact assign_sober hm _ h1
    | _ => intro h; cases h

theorem act_end_sober {m m2 : Mem} {a : Act} (dst : Ref) {res : Val} (hres : res.whole = true)
    (h : m2.Sound) (hl : m.Later m2) :
    Sober (fun m' => m'.Sound ∧ m.Later m' ∧ (a.void = false → m'.Filled dst))
      (if a.void then .ok m2 else m2.assign dst res) := by
  by_cases hvd : a.void = true
  · rw [if_pos hvd]
    exact ⟨h, hl, fun h => by rw [hvd] at h; cases h⟩
  · rw [if_neg hvd]
    exact (assign_sober h dst hres).imp fun m3 h3 => ⟨h3.1, hl.trans h3.2.1, fun _ => h3.2.2⟩

theorem act_sober {m : Mem} (hm : m.Sound) {a : Act} (ha : a.Tame) {land : Ref} (dst bnd : Ref)
    (hl : m.Filled land) :
    Sober (fun m' => m'.Sound ∧ m.Later m' ∧ (a.void = false → m'.Filled dst))
      (m.act a land dst bnd) := by
  have hr := read_sober hl
  cases hx : m.read land with
  | error e => rw [hx] at hr; simp only [Mem.act, hx]; exact hr
  | ok v =>
    rw [hx] at hr
    have hv : v.whole = true := hr
    have hne : v ≠ .indet := by rintro rfl; cases hv
    have hm1 : Mem.Sound { m with log := m.log ++ [⟨a.id, v⟩] } := by
      refine ⟨hm.1, fun e he => ?_⟩
      rcases List.mem_append.1 he with h | h
      · exact hm.2 e h
      · cases List.mem_singleton.1 h; exact hv
    have hl1 : m.Later { m with log := m.log ++ [⟨a.id, v⟩] } := fun o v h hw => ⟨v, h, hw⟩
    cases hp : a.param with
    | false =>
      have h1 := (ha m.log v .nil hv).1
      have := act_end_sober (a := a) dst h1 hm1 hl1
      cases v with
      | indet => exact absurd rfl hne
      | _ => simp only [Mem.act, hx, hp]; exact this
    | true =>
      cases hb : m.read bnd with
      | error e =>
        have := read_error hb
        cases v with
        | indet => exact absurd rfl hne
        | _ => simp only [Mem.act, hx, hp, if_true, hb]; exact this
      | ok b =>
        obtain ⟨h1, h2⟩ := ha m.log v b hv
        cases bnd with
        | nil =>
          have := act_end_sober (a := a) dst h1 hm1 hl1
          cases v with
          | indet => exact absurd rfl hne
          | _ => simp only [Mem.act, hx, hp, if_true, hb]; exact this
        | «at» o path t =>
          have h3 : Sober (fun m2 => m2.Sound ∧ m.Later m2)
              (Mem.modify { m with log := m.log ++ [⟨a.id, v⟩] } o path
                  (fun old => old.overwrite (a.fn m.log v b).2)) := by
            rcases h2 with h2 | h2
            · have h2' : ∀ old : Val, Sober (fun v' => v'.whole = true) (old.overwrite (a.fn m.log v b).2) :=
                fun old => by rw [overwrite_whole (by intro h; rw [h] at h2; cases h2)]; exact h2
              exact (modify_sober (ty := t) (f := fun old => old.overwrite (a.fn m.log v b).2) hm1
                (fun _ _ => h2' _) (.inr (h2' _))).imp
                fun m2 h => ⟨h.1, hl1.trans h.2.1⟩
            · rw [h2]
              rw [Mem.read] at hb
              rw [Mem.modify]
              dsimp only
              cases ho : m.objs[o]? with
              | none => intro h; cases h
              | some x =>
                rw [ho] at hb
                dsimp only at hb ⊢
                rw [update_same path x b hb]
                dsimp only
                rw [List.getElem?_eq_some_iff] at ho
                obtain ⟨ho1, ho2⟩ := ho
                rw [← ho2, List.set_getElem_self]
                exact ⟨hm1, hl1⟩
          have h4 : Sober (fun m' => m'.Sound ∧ m.Later m' ∧ (a.void = false → m'.Filled dst))
              (match Mem.modify { m with log := m.log ++ [⟨a.id, v⟩] } o path
                  (fun old => old.overwrite (a.fn m.log v b).2) with
              | .error e => .error e
              | .ok m2 => if a.void then .ok m2 else m2.assign dst (a.fn m.log v b).1) := by
            cases hz : Mem.modify { m with log := m.log ++ [⟨a.id, v⟩] } o path
                  (fun old => old.overwrite (a.fn m.log v b).2) with
            | error e => rw [hz] at h3; exact h3
            | ok m2 => rw [hz] at h3; exact act_end_sober dst h1 h3.1 h3.2
          cases v with
          | indet => exact absurd rfl hne
          | _ => simp only [Mem.act, hx, hp, if_true, hb]; exact h4

theorem alloc_sober {m : Mem} (hm : m.Sound) (t : Ty) :
    (m.alloc t).2.Sound ∧ m.Later (m.alloc t).2 ∧ (m.alloc t).2.Sane (m.alloc t).1 ∧
      (m.alloc t).1.ty = t := by
  have key : ∀ t : Ty, Mem.Sound { m with objs := m.objs ++ [t.defaultInit] } ∧
      m.Later { m with objs := m.objs ++ [t.defaultInit] } ∧
      Mem.Sane { m with objs := m.objs ++ [t.defaultInit] } (.at m.objs.length [] t) := by
    intro t
    refine ⟨⟨?_, hm.2⟩, ?_, ?_⟩
    · intro v hv
      rcases List.mem_append.1 hv with h | h
      · exact hm.1 v h
      · cases List.mem_singleton.1 h; exact defaultInit_sound t
    · intro o v ho hw
      refine ⟨v, ?_, hw⟩
      rw [List.getElem?_append_left (by rw [List.getElem?_eq_some_iff] at ho; exact ho.1)]
      exact ho
    · intro hs
      exact ⟨t.defaultInit, by simp, defaultInit_whole hs⟩
  cases t with
  | nil => exact ⟨hm, .refl m, fun _ => trivial, rfl⟩
  | _ => exact ⟨(key _).1, (key _).2.1, (key _).2.2, rfl⟩

end Abu
