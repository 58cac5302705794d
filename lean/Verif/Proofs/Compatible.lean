import Verif.Spec.Compatible
import Verif.Model.Api
import Verif.Proofs.Exec
import Verif.Proofs.Overwrite
/-
Values of the right types: operations on memory.
-/
namespace Abu

/-! ### Outcomes -/

/-- Errors that types do not exclude. -/
def Err.Allowed (N : NumKind → Prop) (e : Err) : Prop :=
  e ≠ .noCompile ∧ e ≠ .ubDangling ∧ e ≠ .ubRecur ∧ e ≠ .ubAssume ∧ e ≠ .ubCounter ∧ e ≠ .ubStack ∧
    (e = .ubOverflow → ∃ k, N k ∧ ¬ k.noOverflow)

/-- An outcome that is no error excluded by types and satisfies a condition. -/
def Fit (N : NumKind → Prop) {α : Type} (Q : α → Prop) : Except Err α → Prop
  | .error e => e.Allowed N
  | .ok a => Q a

variable {N : NumKind → Prop}

theorem Fit.imp {α : Type} {Q Q' : α → Prop} {x : Except Err α} (h : Fit N Q x)
    (hq : ∀ a, Q a → Q' a) : Fit N Q' x := by
  cases x with
  | error e => exact h
  | ok a => exact hq a h

theorem allowed_uninit : Err.Allowed N .ubUninit := by simp [Err.Allowed]
theorem allowed_stuck : Err.Allowed N .stuck := by simp [Err.Allowed]
theorem allowed_data : Err.Allowed N .ubData := by simp [Err.Allowed]
theorem allowed_fuel : Err.Allowed N .fuel := by simp [Err.Allowed]

/-! ### Values -/

theorem wrap_inRange (k : NumKind) (i : Int) : k.inRange (k.wrap i) := by
  cases k with
  | ideal => trivial
  | unsigned w =>
    have h : (0 : Int) < 2 ^ w := Int.pow_pos (by decide)
    exact ⟨Int.emod_nonneg _ (by omega), Int.emod_lt_of_pos _ h⟩
  | signed w =>
    have h : (0 : Int) < 2 ^ w := Int.pow_pos (by decide)
    have h1 := Int.emod_nonneg (i + 2 ^ (w - 1)) (b := 2 ^ w) (by omega)
    have h2 := Int.emod_lt_of_pos (i + 2 ^ (w - 1)) h
    show -2 ^ (w - 1) ≤ (i + 2 ^ (w - 1)) % 2 ^ w - 2 ^ (w - 1) ∧
      (i + 2 ^ (w - 1)) % 2 ^ w - 2 ^ (w - 1) < 2 ^ (w - 1)
    cases w with
    | zero => simp
    | succ w =>
      rw [Nat.add_sub_cancel] at *
      have h3 : (2 : Int) ^ (w + 1) = 2 * 2 ^ w := by rw [Int.pow_succ, Int.mul_comm]
      omega

theorem zero_inRange (k : NumKind) : k.inRange 0 := by
  cases k with
  | ideal => trivial
  | unsigned w =>
    have h : (0 : Int) < 2 ^ w := Int.pow_pos (by decide)
    exact ⟨Int.le_refl 0, h⟩
  | signed w =>
    have h : (0 : Int) < 2 ^ (w - 1) := Int.pow_pos (by decide)
    show -2 ^ (w - 1) ≤ (0 : Int) ∧ (0 : Int) < 2 ^ (w - 1)
    omega

theorem store_fit {k : NumKind} (hk : N k) (i : Int) : Fit N (fun j => k.inRange j) (k.store i) := by
  cases k with
  | ideal => trivial
  | unsigned w => exact wrap_inRange (.unsigned w) i
  | signed w =>
    simp only [NumKind.store]
    split
    · exact wrap_inRange (.signed w) i
    · split
      · assumption
      · refine ⟨by decide, by decide, by decide, by decide, by decide, by decide, fun _ => ⟨_, hk, ?_⟩⟩
        show ¬ w < 32
        assumption

mutual
theorem valueInit_has : (t : Ty) → t.has t.valueInit
  | .nil => by rw [Ty.valueInit, Ty.has]; trivial
  | .num k => by rw [Ty.valueInit, Ty.has]; exact zero_inRange k
  | .coll t => by rw [Ty.valueInit, Ty.has]; intro v h; cases h
  | .tup ts => by rw [Ty.valueInit, Ty.has]; exact valueInits_has ts
  | .user n => by rw [Ty.valueInit, Ty.has]
theorem valueInits_has : (ts : List Ty) → Ty.hasAll ts (Ty.valueInits ts)
  | [] => by rw [Ty.valueInits, Ty.hasAll]; trivial
  | t :: ts => by rw [Ty.valueInits, Ty.hasAll]; exact ⟨valueInit_has t, valueInits_has ts⟩
end

theorem defaultInit_holds (t : Ty) : t.holds t.defaultInit := by
  cases t with
  | num k => exact .inr ⟨rfl, rfl⟩
  | _ => exact .inl (valueInit_has _)

theorem has_not_indet {t : Ty} : ¬ t.has .indet := by
  cases t <;> simp [Ty.has]

theorem Ty.holds.has {t : Ty} {v : Val} (h : t.holds v) (hv : v ≠ .indet) : t.has v :=
  h.resolve_right fun h => hv h.2

theorem nil_takes (v : Val) : Ty.nil.Takes v := by
  show Ty.nil.has .nil
  simp [Ty.has]

/-- A value of the type can be assigned. -/
theorem has_takes {t : Ty} {v : Val} (h : t.has v) : t.Takes v := by
  cases t with
  | nil => exact nil_takes v
  | num k =>
    cases v <;> simp only [Ty.has] at h
    next i => exact (by rw [Ty.has]; exact wrap_inRange k i : Ty.has (.num k) (.num (k.wrap i)))
  | coll t => cases v <;> simp only [Ty.has] at h <;> exact (by rw [Ty.has]; exact h : Ty.has (.coll t) (.coll _))
  | tup ts => cases v <;> simp only [Ty.has] at h <;> exact (by rw [Ty.has]; exact h : Ty.has (.tup ts) (.tup _))
  | user n =>
    cases v <;> simp only [Ty.has] at h
    subst h
    simp only [Ty.Takes, Ty.convert, if_true]
    rw [Ty.has]

theorem num_takes {N' : NumKind → Prop} {t : Ty} (h : t.Digits N') (i : Int) : t.Takes (.num i) := by
  cases t with
  | nil => exact nil_takes _
  | num k => exact (by rw [Ty.has]; exact wrap_inRange k i : Ty.has (.num k) (.num (k.wrap i)))
  | _ => cases h

/-! ### Parts -/

theorem hasAll_get : ∀ {ts : List Ty} {vs : List Val} {i : Nat} {t : Ty}, Ty.hasAll ts vs →
    ts[i]? = some t → ∃ v, vs[i]? = some v ∧ t.has v
  | [], _, _, _, _, h => by cases h
  | _ :: _, [], _, _, h, _ => by simp [Ty.hasAll] at h
  | s :: ts, v :: vs, 0, t, h, ht => by
    rw [Ty.hasAll] at h
    cases ht
    exact ⟨v, rfl, h.1⟩
  | s :: ts, v :: vs, i + 1, t, h, ht => by
    rw [Ty.hasAll] at h
    simp only [List.getElem?_cons_succ] at ht ⊢
    exact hasAll_get h.2 ht

theorem hasAll_set : ∀ {ts : List Ty} {vs : List Val} {i : Nat} {t : Ty} {v : Val}, Ty.hasAll ts vs →
    ts[i]? = some t → t.has v → Ty.hasAll ts (vs.set i v)
  | [], _, _, _, _, _, h, _ => by cases h
  | _ :: _, [], _, _, _, h, _, _ => by simp [Ty.hasAll] at h
  | s :: ts, v :: vs, 0, t, x, h, ht, hx => by
    rw [Ty.hasAll] at h
    cases ht
    rw [List.set, Ty.hasAll]
    exact ⟨hx, h.2⟩
  | s :: ts, v :: vs, i + 1, t, x, h, ht, hx => by
    rw [Ty.hasAll] at h
    rw [List.set, Ty.hasAll]
    simp only [List.getElem?_cons_succ] at ht
    exact ⟨h.1, hasAll_set h.2 ht hx⟩

theorem tup_has {ts : List Ty} {v : Val} (h : (Ty.tup ts).holds v) :
    ∃ vs, v = .tup vs ∧ Ty.hasAll ts vs := by
  rcases h with h | h
  · cases v <;> simp only [Ty.has] at h
    exact ⟨_, rfl, h⟩
  · cases h.1

theorem get_typed : ∀ (path : List Nat) {s t : Ty} {v : Val}, s.part path = some t → s.holds v →
    ∃ x, Val.get path v = .ok x ∧ t.holds x ∧ (path ≠ [] → t.has x)
  | [], s, t, v, h, hv => by cases h; exact ⟨v, rfl, hv, fun h => absurd rfl h⟩
  | i :: path, s, t, v, h, hv => by
    cases s with
    | tup ts =>
      obtain ⟨vs, rfl, hvs⟩ := tup_has hv
      rw [Ty.part] at h
      cases ht : ts[i]? with
      | none => rw [ht] at h; cases h
      | some u =>
        rw [ht] at h
        obtain ⟨x, hx, hux⟩ := hasAll_get hvs ht
        obtain ⟨y, hy, h1, h2⟩ := get_typed path h (.inl hux)
        refine ⟨y, ?_, h1, fun _ => ?_⟩
        · rw [Val.get, hx]; exact hy
        · cases path with
          | nil => cases h; cases hy; exact hux
          | cons j path => exact h2 (by simp)
    | _ => cases h

theorem update_typed {f : Val → Except Err Val} : ∀ (path : List Nat) {s t : Ty} {v : Val},
    s.part path = some t → s.holds v →
    (∀ x, Val.get path v = .ok x → t.holds x → Fit N (fun x' => t.has x' ∨ x' = x) (f x)) →
    Fit N (fun v' => s.has v' ∨ v' = v) (Val.update f path v)
  | [], s, t, v, h, hv, hf => by cases h; exact hf v rfl hv
  | i :: path, s, t, v, h, hv, hf => by
    cases s with
    | tup ts =>
      obtain ⟨vs, rfl, hvs⟩ := tup_has hv
      rw [Ty.part] at h
      cases ht : ts[i]? with
      | none => rw [ht] at h; cases h
      | some u =>
        rw [ht] at h
        obtain ⟨x, hx, hux⟩ := hasAll_get hvs ht
        have := update_typed (f := f) path h (.inl hux) (fun y hy => hf y (by rw [Val.get, hx]; exact hy))
        rw [Val.update, hx]
        dsimp only
        cases hu : Val.update f path x with
        | error e => rw [hu] at this; exact this
        | ok x' =>
          rw [hu] at this
          refine .inl ?_
          rw [Ty.has]
          refine hasAll_set hvs ht ?_
          rcases this with h1 | h1
          · exact h1
          · exact h1 ▸ hux
    | _ => cases h

/-! ### Memory -/

theorem Mem.Typed.get {m : Mem} {Δ : List Ty} (h : m.Typed Δ) {o : Nat} {s : Ty}
    (hs : Δ[o]? = some s) : ∃ v, m.objs[o]? = some v ∧ s.holds v := by
  have h1 : o < m.objs.length := by
    rw [h.1]; exact (List.getElem?_eq_some_iff.1 hs).1
  exact ⟨_, List.getElem?_eq_getElem h1, h.2 o s _ hs (List.getElem?_eq_getElem h1)⟩

theorem modify_typed {m : Mem} {Δ : List Ty} (hm : m.Typed Δ) {o : Nat} {path : List Nat} {t : Ty}
    (hr : (Ref.at o path t).Typed Δ) {f : Val → Except Err Val}
    (hf : ∀ x, m.read (.at o path t) = .ok x → t.holds x → Fit N (fun x' => t.has x' ∨ x' = x) (f x)) :
    Fit N (fun m' => m'.Typed Δ) (m.modify o path f) := by
  obtain ⟨_, s, hs, hp⟩ := hr
  obtain ⟨v, hv, hsv⟩ := hm.get hs
  have := update_typed (f := f) path hp hsv (fun x hx => hf x (by rw [Mem.read, hv]; exact hx))
  rw [Mem.modify, hv]
  dsimp only
  cases hu : Val.update f path v with
  | error e => rw [hu] at this; exact this
  | ok v' =>
    rw [hu] at this
    have hv' : s.holds v' := by
      rcases this with h | h
      · exact .inl h
      · exact h ▸ hsv
    refine ⟨by simp [hm.1], fun q u x hq hx => ?_⟩
    by_cases hqo : q = o
    · subst hqo
      rw [hs] at hq
      cases hq
      have hlt : q < m.objs.length := (List.getElem?_eq_some_iff.1 hv).1
      simp only [List.getElem?_set_self hlt, Option.some.injEq] at hx
      exact hx ▸ hv'
    · exact hm.2 q u x hq (by rw [← hx]; exact (List.getElem?_set_ne (Ne.symm hqo)).symm)

theorem read_typed {m : Mem} {Δ : List Ty} (hm : m.Typed Δ) {r : Ref} (hr : r.Typed Δ) :
    ∃ v, m.read r = .ok v ∧ r.ty.holds v := by
  cases r with
  | nil => exact ⟨.nil, rfl, .inl (by show Ty.nil.has .nil; simp [Ty.has])⟩
  | «at» o path t =>
    obtain ⟨_, s, hs, hp⟩ := hr
    obtain ⟨v, hv, hsv⟩ := hm.get hs
    obtain ⟨x, hx, h, _⟩ := get_typed path hp hsv
    exact ⟨x, by rw [Mem.read, hv]; exact hx, h⟩

theorem assign_typed {m : Mem} {Δ : List Ty} (hm : m.Typed Δ) {r : Ref} (hr : r.Typed Δ) {v : Val}
    (hv : r.ty.Receives v) : Fit N (fun m' => m'.Typed Δ) (m.assign r v) := by
  cases r with
  | nil => exact hm
  | «at» o path t =>
    have key : ∀ t : Ty, (Ref.at o path t).Typed Δ → t.Takes v → Fit N (fun m' => m'.Typed Δ)
        (match t.convert v with
        | .error e => .error e
        | .ok v' => m.modify o path fun _ => .ok v') := by
      intro t hr hv
      unfold Ty.Takes at hv
      cases hx : t.convert v with
      | error e => rw [hx] at hv; subst hv; exact allowed_uninit
      | ok v' =>
        rw [hx] at hv
        exact modify_typed hm hr fun _ _ _ => .inl hv
    cases t with
    | coll t =>
      have hv : t.Takes v := hv
      rw [Mem.assign]
      unfold Ty.Takes at hv
      cases hx : t.convert v with
      | error e => rw [hx] at hv; subst hv; exact allowed_uninit
      | ok e =>
        rw [hx] at hv
        refine modify_typed hm hr fun x _ hx => ?_
        rcases hx with hx | hx
        · cases x <;> simp only [Ty.has] at hx
          refine .inl ?_
          rw [Ty.has]
          intro y hy
          rcases List.mem_append.1 hy with h | h
          · exact hx y h
          · cases List.mem_singleton.1 h; exact hv
        · cases hx.1
    | _ => exact key _ hr hv

theorem onNum_typed {m : Mem} {Δ : List Ty} (hm : m.Typed Δ) {r : Ref} (hr : r.Typed Δ)
    (hd : r.ty.Digits N) {f : NumKind → Val → Except Err Val}
    (hf : ∀ k x, N k → (Ty.num k).holds x → Fit N (fun x' => (Ty.num k).has x') (f k x)) :
    Fit N (fun m' => m'.Typed Δ) (m.onNum r f) := by
  cases r with
  | nil => exact hm
  | «at» o path t =>
    cases t with
    | num k => exact modify_typed hm hr fun x _ hx => (hf k x hd hx).imp fun _ h => .inl h
    | nil => cases hr.1
    | _ => cases hd

theorem zero_typed {m : Mem} {Δ : List Ty} (hm : m.Typed Δ) {r : Ref} (hr : r.Typed Δ)
    (hd : r.ty.Digits N) : Fit N (fun m' => m'.Typed Δ) (m.zero r) :=
  onNum_typed hm hr hd fun k _ _ _ => by
    show (Ty.num k).has (.num 0)
    rw [Ty.has]
    exact zero_inRange k

theorem arith_typed {m : Mem} {Δ : List Ty} (hm : m.Typed Δ) {r : Ref} (hr : r.Typed Δ)
    (hd : r.ty.Digits N) (g : Int → Int) : Fit N (fun m' => m'.Typed Δ) (m.onNum r fun k v =>
      match v with
      | .num i => match k.store (g i) with
        | .error e => .error e
        | .ok j => .ok (.num j)
      | .indet => .error .ubUninit
      | _ => .error .noCompile) := by
  refine onNum_typed hm hr hd fun k x hk hx => ?_
  rcases hx with hx | hx
  · cases x <;> simp only [Ty.has] at hx
    next i =>
    have := store_fit hk (g i)
    dsimp only
    cases hs : k.store (g i) with
    | error e => rw [hs] at this; exact this
    | ok j => rw [hs] at this; show (Ty.num k).has (.num j); rw [Ty.has]; exact this
  · rw [hx.2]; exact allowed_uninit

theorem mul_typed {m : Mem} {Δ : List Ty} (hm : m.Typed Δ) {r : Ref} (hr : r.Typed Δ)
    (hd : r.ty.Digits N) (b : Int) : Fit N (fun m' => m'.Typed Δ) (m.mul b r) :=
  arith_typed hm hr hd fun i => i * b

theorem mulAdd_typed {m : Mem} {Δ : List Ty} (hm : m.Typed Δ) {r : Ref} (hr : r.Typed Δ)
    (hd : r.ty.Digits N) (b d : Int) : Fit N (fun m' => m'.Typed Δ) (m.mulAdd b d r) := by
  rw [Mem.mulAdd]
  have := mul_typed hm hr hd b
  cases hx : m.mul b r with
  | error e => rw [hx] at this; exact this
  | ok m1 => rw [hx] at this; exact arith_typed this hr hd fun i => i + d

theorem assignFrom_typed {m : Mem} {Δ : List Ty} (hm : m.Typed Δ) {dst buf : Ref}
    (hd : dst.Typed Δ) (hb : buf.Typed Δ) (h : buf.ty = dst.ty.item) :
    Fit N (fun m' => m'.Typed Δ) (m.assignFrom dst buf) := by
  obtain ⟨v, hv, ht⟩ := read_typed hm hb
  rw [Mem.assignFrom, hv]
  cases v with
  | indet => exact allowed_uninit
  | _ =>
    refine assign_typed hm hd (has_takes ?_)
    rw [← h]
    exact ht.has (by simp)

theorem makeFrom_typed {t : Ty} {tys : List Ty} {args : List Val} (ht : t.MadeFrom tys)
    (h : Ty.hasAll tys args) : ∃ v, t.makeFrom args = .ok v ∧ t.Receives v := by
  cases t with
  | nil =>
    cases tys with
    | nil => cases args <;> simp [Ty.hasAll] at h; exact ⟨.nil, rfl, nil_takes _⟩
    | cons t tys =>
      cases tys with
      | cons _ _ => simp [Ty.MadeFrom] at ht
      | nil =>
        match args, h with
        | [v], _ => exact ⟨.nil, rfl, nil_takes _⟩
        | [], h => simp [Ty.hasAll] at h
        | _ :: _ :: _, h => simp [Ty.hasAll] at h
  | num k =>
    match tys, ht with
    | [.num k'], _ =>
      match args, h with
      | [.num i], _ => exact ⟨.num (k.wrap i), rfl, num_takes (t := .num k) (N' := fun _ => True) trivial _⟩
      | [], h => simp [Ty.hasAll] at h
      | _ :: _ :: _, h => simp [Ty.hasAll] at h
      | [.nil], h => simp [Ty.hasAll, Ty.has] at h
      | [.indet], h => simp [Ty.hasAll, Ty.has] at h
      | [.coll _], h => simp [Ty.hasAll, Ty.has] at h
      | [.tup _], h => simp [Ty.hasAll, Ty.has] at h
      | [.obj _ _], h => simp [Ty.hasAll, Ty.has] at h
  | coll t => simp [Ty.MadeFrom] at ht
  | tup ts =>
    have ht : ts = tys := ht
    subst ht
    exact ⟨.tup args, rfl, has_takes (by show (Ty.tup ts).has (.tup args); rw [Ty.has]; exact h)⟩
  | user n => exact ⟨.obj n args, rfl, has_takes (by show (Ty.user n).has (.obj n args); rw [Ty.has])⟩

theorem construct_typed {m : Mem} {Δ : List Ty} (hm : m.Typed Δ) {dst buf : Ref}
    (hd : dst.Typed Δ) (hb : buf.Typed Δ) {tys : List Ty} (h : buf.ty = .tup tys)
    (hf : dst.ty.MadeFrom tys) : Fit N (fun m' => m'.Typed Δ) (m.construct dst buf) := by
  obtain ⟨v, hv, ht⟩ := read_typed hm hb
  rw [h] at ht
  obtain ⟨args, rfl, ha⟩ := tup_has ht
  obtain ⟨x, hx, hr⟩ := makeFrom_typed hf ha
  rw [Mem.construct, hv]
  cases dst with
  | nil => simp only [show Ty.nil.makeFrom args = .ok x from hx]; exact hm
  | «at» o path t =>
    simp only [show t.makeFrom args = .ok x from hx]
    exact assign_typed hm hd hr

theorem act_end_typed {m : Mem} {Δ : List Ty} (hm : m.Typed Δ) {a : Act} {dst : Ref}
    (hd : dst.Typed Δ) {res : Val} (hr : a.void = false → dst.ty.Receives res) :
    Fit N (fun m' => m'.Typed Δ) (if a.void then .ok m else m.assign dst res) := by
  cases hv : a.void with
  | true => exact hm
  | false => exact assign_typed hm hd (hr hv)

theorem act_typed {m : Mem} {Δ : List Ty} (hm : m.Typed Δ) {a : Act} {land dst bnd : Ref}
    (hl : land.Typed Δ) (hd : dst.Typed Δ) (hb : bnd.Typed Δ) (h : land.ty = a.landing)
    (ha : a.Typed bnd.ty dst.ty) : Fit N (fun m' => m'.Typed Δ) (m.act a land dst bnd) := by
  obtain ⟨v, hv, ht⟩ := read_typed hm hl
  by_cases hi : v = .indet
  · subst hi; simp only [Mem.act, hv]; exact allowed_uninit
  rw [h] at ht
  have ht := ht.has hi
  have hm1 : Mem.Typed { m with log := m.log ++ [⟨a.id, v⟩] } Δ := hm
  cases hp : a.param with
  | false =>
    have h1 := ha m.log v .nil ht (by simp [hp])
    have := act_end_typed (N := N) hm1 hd (a := a) h1.1
    cases v with
    | indet => exact absurd rfl hi
    | _ => simp only [Mem.act, hv, hp]; exact this
  | true =>
    obtain ⟨b, hbr, hbt⟩ := read_typed hm hb
    have h1 := ha m.log v b ht (by simpa [hp] using hbt)
    have h2 := h1.2 hp
    cases bnd with
    | nil =>
      have := act_end_typed (N := N) hm1 hd (a := a) h1.1
      cases v with
      | indet => exact absurd rfl hi
      | _ => simp only [Mem.act, hv, hp, if_true, hbr]; exact this
    | «at» o path t =>
      have h3 : Fit N (fun m' => m'.Typed Δ)
          (Mem.modify { m with log := m.log ++ [⟨a.id, v⟩] } o path
            (fun old => old.overwrite (a.fn m.log v b).2)) := by
        refine modify_typed hm1 hb fun x hx _ => ?_
        have hx : m.read (.at o path t) = .ok x := hx
        rw [hbr] at hx
        cases hx
        cases hz : b.overwrite (a.fn m.log v b).2 with
        | error e => cases overwrite_error hz; exact allowed_uninit
        | ok y => cases overwrite_eq hz; exact h2
      have h4 : Fit N (fun m' => m'.Typed Δ)
          (match Mem.modify { m with log := m.log ++ [⟨a.id, v⟩] } o path
              (fun old => old.overwrite (a.fn m.log v b).2) with
          | .error e => .error e
          | .ok m2 => if a.void then .ok m2 else m2.assign dst (a.fn m.log v b).1) := by
        cases hz : Mem.modify { m with log := m.log ++ [⟨a.id, v⟩] } o path
              (fun old => old.overwrite (a.fn m.log v b).2) with
        | error e => rw [hz] at h3; exact h3
        | ok m2 => rw [hz] at h3; exact act_end_typed h3 hd h1.1
      cases v with
      | indet => exact absurd rfl hi
      | _ => simp only [Mem.act, hv, hp, if_true, hbr]; exact h4

/-! ### New objects -/

/-- The types of the objects after an allocation. -/
def growTypes (Δ : List Ty) (t : Ty) : List Ty := if t.isNil then Δ else Δ ++ [t]

theorem growTypes_prefix (Δ : List Ty) (t : Ty) : Δ <+: growTypes Δ t := by
  unfold growTypes
  split
  · exact List.prefix_refl _
  · exact ⟨[t], rfl⟩

theorem Ref.Typed.later {Δ Δ' : List Ty} {r : Ref} (h : r.Typed Δ) (hp : Δ <+: Δ') : r.Typed Δ' := by
  cases r with
  | nil => trivial
  | «at» o path t =>
    obtain ⟨h0, s, hs, h1⟩ := h
    obtain ⟨l, rfl⟩ := hp
    exact ⟨h0, s, by
      rw [List.getElem?_append_left (List.getElem?_eq_some_iff.1 hs).1]; exact hs, h1⟩

theorem alloc_typed {m : Mem} {Δ : List Ty} (hm : m.Typed Δ) (t : Ty) :
    (m.alloc t).2.Typed (growTypes Δ t) ∧ (m.alloc t).1.Typed (growTypes Δ t) ∧
      (m.alloc t).1.ty = t := by
  have key : ∀ t : Ty, t.isNil = false → Mem.Typed { m with objs := m.objs ++ [t.defaultInit] } (Δ ++ [t]) ∧
      (Ref.at m.objs.length [] t).Typed (Δ ++ [t]) := by
    intro t h0
    refine ⟨⟨by simp [hm.1], fun o s v hs hv => ?_⟩, h0, t, by rw [hm.1]; simp, rfl⟩
    dsimp only at hv
    rcases Nat.lt_trichotomy o Δ.length with h | h | h
    · rw [List.getElem?_append_left h] at hs
      rw [List.getElem?_append_left (by rw [hm.1]; exact h)] at hv
      exact hm.2 o s v hs hv
    · subst h
      rw [List.getElem?_append_right (Nat.le_refl _)] at hs
      rw [← hm.1, List.getElem?_append_right (Nat.le_refl _)] at hv
      simp at hs hv
      subst hs; subst hv
      exact defaultInit_holds t
    · rw [List.getElem?_eq_none_iff.2 (by simp; omega)] at hs
      cases hs
  cases t with
  | nil => exact ⟨hm, trivial, rfl⟩
  | _ => exact ⟨(key _ rfl).1, (key _ rfl).2, rfl⟩

end Abu
