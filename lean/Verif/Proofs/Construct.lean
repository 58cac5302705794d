import Verif.Proofs.Action
/-
Parsers of `as<...>()` in terms of the parsers of their operands.
-/
namespace Abu

section
variable {σ : Type} [DataSource σ] {env : Env} {tys : List Ty} {P : Prog} {dst bnd land : Ref}

theorem run_constr (n : Nat) (c : PState) (w : World σ Mem) :
    run env (n + 1) (.construct tys P) dst bnd (.buffered land c) w =
      match run env n P land bnd c w with
      | .error e => .error e
      | .ok ((.SUCCESS, c'), w1) =>
        match w1.mem.construct dst land with
        | .error e => .error e
        | .ok m => .ok ((.SUCCESS, .buffered land c'), ⟨w1.ds, m⟩)
      | .ok ((r, c'), w1) => .ok ((r, .buffered land c'), w1) := by
  rw [run]
  simp only [body, exec]
  cases hr : run env n P land bnd c w with
  | error e => rfl
  | ok x =>
    obtain ⟨⟨r, c'⟩, w1⟩ := x
    cases r with
    | SUCCESS =>
      simp only [exec, Store.op, Mem.run]
      cases w1.mem.construct dst land <;> rfl
    | FAILURE => rfl
    | PARTIAL => rfl

theorem evals_constr {c : PState} {w : World σ Mem} {r st' w'} :
    Evals env (.construct tys P) dst bnd (.buffered land c) w (.ok ((r, st'), w')) ↔
      ∃ c' w1, Evals env P land bnd c w (.ok ((r, c'), w1)) ∧ st' = .buffered land c' ∧
        w'.ds = w1.ds ∧ (r = .SUCCESS → w1.mem.construct dst land = .ok w'.mem) ∧
        (r ≠ .SUCCESS → w'.mem = w1.mem) := by
  constructor
  · rintro ⟨_, n, hn⟩
    cases n with
    | zero => cases hn
    | succ n =>
      rw [run_constr] at hn
      cases hr : run env n P land bnd c w with
      | error e => rw [hr] at hn; cases hn
      | ok x =>
        obtain ⟨⟨r1, c'⟩, w1⟩ := x
        rw [hr] at hn
        have he : Evals env P land bnd c w (.ok ((r1, c'), w1)) := ⟨by simp, n, hr⟩
        cases r1 with
        | SUCCESS =>
          simp only at hn
          cases hm : w1.mem.construct dst land with
          | error e => rw [hm] at hn; cases hn
          | ok m =>
            rw [hm] at hn
            cases hn
            exact ⟨c', w1, he, rfl, rfl, fun _ => hm, fun h => absurd rfl h⟩
        | FAILURE => cases hn; exact ⟨c', w', he, rfl, rfl, (by simp), fun _ => rfl⟩
        | PARTIAL => cases hn; exact ⟨c', w', he, rfl, rfl, (by simp), fun _ => rfl⟩
  · rintro ⟨c', w1, ⟨_, n, hn⟩, rfl, hds, h1, h2⟩
    refine ⟨by simp, n + 1, ?_⟩
    rw [run_constr, hn]
    obtain ⟨ds', m'⟩ := w'
    cases r with
    | SUCCESS =>
      simp only at hds ⊢
      rw [h1 rfl, hds]
    | FAILURE =>
      have h2 := h2 (by simp)
      simp only at hds h2 ⊢
      rw [hds, h2]
    | PARTIAL =>
      have h2 := h2 (by simp)
      simp only at hds h2 ⊢
      rw [hds, h2]

theorem construct_constr {w : World σ Mem} {x} :
    construct (.construct tys P) dst bnd w = .ok x ↔
      ∃ c w1, construct P (w.mem.alloc (.tup tys)).1 bnd ⟨w.ds, (w.mem.alloc (.tup tys)).2⟩ = .ok (c, w1) ∧
        x = (.buffered (w.mem.alloc (.tup tys)).1 c, w1) := by
  unfold construct
  simp only [mk, exec, exec_bind, Store.alloc]
  cases exec _ (mk P (w.mem.alloc (.tup tys)).1 bnd)
    (⟨w.ds, (w.mem.alloc (.tup tys)).2⟩ : World σ Mem) with
  | error e => simp
  | ok y =>
    obtain ⟨c, w1⟩ := y
    constructor
    · intro h; cases h; exact ⟨c, w1, rfl, rfl⟩
    · rintro ⟨c', w1', h, rfl⟩; cases h; rfl

theorem resumes_constr {c : PState} {w : World σ Mem} {r w'} :
    Resumes env (.construct tys P) dst bnd (.buffered land c) w r w' ↔
      ∃ w1, Resumes env P land bnd c w r w1 ∧ w'.ds = w1.ds ∧
        (r = .SUCCESS → w1.mem.construct dst land = .ok w'.mem) ∧
        (r ≠ .SUCCESS → w'.mem = w1.mem) := by
  constructor
  · intro h
    generalize hst : PState.buffered land c = st at h
    induction h generalizing c with
    | last h hr =>
      subst hst
      obtain ⟨c', w1, h1, _, h2⟩ := evals_constr.1 h
      exact ⟨w1, .last h1 hr, h2⟩
    | more h _ ih =>
      subst hst
      obtain ⟨c', w1, h1, rfl, _, _, h3⟩ := evals_constr.1 h
      obtain ⟨w2, h4, h5⟩ := ih rfl
      rw [h3 (by simp)] at h4
      exact ⟨w2, .more h1 h4, h5⟩
  · rintro ⟨w1, h, h2⟩
    induction h with
    | last h hr => exact .last (evals_constr.2 ⟨_, _, h, rfl, h2⟩) hr
    | more h _ ih =>
      exact .more (evals_constr.2 ⟨_, _, h, rfl, rfl, by simp, fun _ => rfl⟩) (ih h2)

theorem used_constr {w : World σ Mem} {r w'} :
    Used env (.construct tys P) dst bnd w r w' ↔
      ∃ w1, Used env P (w.mem.alloc (.tup tys)).1 bnd ⟨w.ds, (w.mem.alloc (.tup tys)).2⟩ r w1 ∧
        w'.ds = w1.ds ∧
        (r = .SUCCESS → w1.mem.construct dst (w.mem.alloc (.tup tys)).1 = .ok w'.mem) ∧
        (r ≠ .SUCCESS → w'.mem = w1.mem) := by
  constructor
  · rintro ⟨st, w0, ds, hc, hr⟩
    obtain ⟨c, w1, hc1, he⟩ := construct_constr.1 hc
    cases he
    obtain ⟨w2, h1, h2⟩ := resumes_constr.1 hr
    exact ⟨w2, ⟨_, _, ds, hc1, h1⟩, h2⟩
  · rintro ⟨w1, ⟨c, w0, ds, hc, hr⟩, h2⟩
    exact ⟨_, _, ds, construct_constr.2 ⟨c, w0, hc, rfl⟩, resumes_constr.2 ⟨w1, hr, h2⟩⟩

theorem waits_constr {c : PState} {w w' : World σ Mem} :
    Waits env (.construct tys P) dst bnd (.buffered land c) w w' ↔ Waits env P land bnd c w w' := by
  constructor
  · intro h
    generalize hst : PState.buffered land c = st at h
    induction h generalizing c with
    | none => exact .none
    | more h _ ih =>
      subst hst
      obtain ⟨c', w1, h1, rfl, _, _, h3⟩ := evals_constr.1 h
      have h4 := ih rfl
      rw [h3 (by simp)] at h4
      exact .more h1 h4
  · intro h
    induction h with
    | none => exact .none
    | more h _ ih =>
      exact .more (evals_constr.2 ⟨_, _, h, rfl, rfl, by simp, fun _ => rfl⟩) ih

theorem suspended_constr {w w' : World σ Mem} :
    Suspended env (.construct tys P) dst bnd w w' ↔
      Suspended env P (w.mem.alloc (.tup tys)).1 bnd ⟨w.ds, (w.mem.alloc (.tup tys)).2⟩ w' := by
  constructor
  · rintro ⟨st, w0, ds, hc, hr⟩
    obtain ⟨c, w1, hc1, he⟩ := construct_constr.1 hc
    cases he
    exact ⟨_, _, ds, hc1, waits_constr.1 hr⟩
  · rintro ⟨c, w0, ds, hc, hr⟩
    exact ⟨_, _, ds, construct_constr.2 ⟨c, w0, hc, rfl⟩, waits_constr.2 hr⟩

end

theorem topParser_constr (tys : List Ty) (p : Pat) : topParser (.construct tys p) = .construct tys (topParser p) := by
  simp [topParser, elabP, Req.needsAtomic, Req.needsClean, DefaultReqs, adapt, Req.skipper,
      Prog.isFail, Req.lower, Req.derive]

theorem MadeFrom.makeFrom {ty args v} (h : MadeFrom ty args v) :
    ty.makeFrom args = .ok v ∧ (∀ t, ty ≠ .coll t) ∧ ty.Holds v := by
  cases h with
  | object => exact ⟨rfl, by simp, rfl⟩
  | tuple => exact ⟨rfl, by simp, trivial⟩
  | number h =>
    have := Ty.convert_of_holds h
    exact ⟨this, by simp, h⟩

/-- `make_from_tuple` and the assignment. -/
theorem MadeFrom.construct {ty args v} (h : MadeFrom ty args v) {m : Mem} {o q u buf}
    (hb : m.read buf = .ok (.tup args)) (hu : m.look o q = .ok u) :
    ∃ m', m.construct (.at o q ty) buf = .ok m' ∧ m'.look o q = .ok v ∧ m'.log = m.log := by
  obtain ⟨h1, h2, h3⟩ := h.makeFrom
  obtain ⟨m', h4, h5⟩ := (Receives.value (u := u) h2 h3).assign hu
  exact ⟨m', by simp only [Mem.construct, hb, h1, h4], h5⟩

/-- The only thing written is the destination. -/
theorem construct_inv {m m' : Mem} {o q ty buf} (h : m.construct (.at o q ty) buf = .ok m') :
    ∃ args v, m.read buf = .ok (.tup args) ∧ ty.makeFrom args = .ok v ∧
      m.assign (.at o q ty) v = .ok m' := by
  unfold Mem.construct at h
  split at h
  · cases h
  · rename_i args hr
    simp only at h
    split at h
    · cases h
    · rename_i v hv
      exact ⟨args, v, hr, hv, h⟩
  · cases h

theorem Alone.constr_fail {env : Env} {p : Pat} {tys ty u v log t log' rest}
    (h : Alone env p (.tup tys) (.tup (Ty.valueInits tys)) log t .FAILURE v log' rest)
    (hq : p.quiet = true) (he : env.quiet) :
    Alone env (.construct tys p) ty u log t .FAILURE u log' rest := by
  obtain ⟨i', L, M', hd, h1, _, _, h4, h5⟩ := Landing.does (T := t) (i := 0) (M := ⟨[u], log⟩)
    (ty := .tup tys) (.value (by simp) h) hq he rfl (.at 0 [] ty)
  refine Does.alone (L := L) ?_ (h5 0 [] u rfl) h4 h1
  rw [topParser_constr]
  exact .constr_fail hd

theorem Alone.constr_value {env : Env} {p : Pat} {tys ty u v args log t log' rest}
    (h : Alone env p (.tup tys) (.tup (Ty.valueInits tys)) log t .SUCCESS (.tup args) log' rest)
    (hq : p.quiet = true) (he : env.quiet) (hm : MadeFrom ty args v) :
    Alone env (.construct tys p) ty u log t .SUCCESS v log' rest := by
  obtain ⟨i', L, M', hd, h1, _, h3, h4, h5⟩ := Landing.does (T := t) (i := 0) (M := ⟨[u], log⟩)
    (ty := .tup tys) (.value (by simp) h) hq he rfl (.at 0 [] ty)
  obtain ⟨m2, e1, e2, e3⟩ := hm.construct h3 (h5 0 [] u rfl)
  refine Does.alone (L := L) ?_ e2 (e3.trans h4) h1
  rw [topParser_constr]
  exact .constr hd e1

theorem update_const {v : Val} {q : List Nat} {V V' : Val}
    {f : Val → Except Err Val} (hf : ∀ x y, f x = .ok y → y = v)
    (h : Val.update f q V = .ok V') : Val.get q V' = .ok v := by
  induction q generalizing V V' with
  | nil => cases hf _ _ h; rfl
  | cons i q ih =>
    cases V with
    | tup vs =>
      simp only [Val.update] at h
      split at h
      · cases h
      · rename_i x hx
        split at h
        · cases h
        · rename_i y hy
          cases h
          have hlt := (List.getElem?_eq_some_iff.1 hx).1
          simp only [Val.get, List.getElem?_set_self hlt]
          exact ih hy
    | _ => cases h

theorem modify_const {m m' : Mem} {o q v} {f : Val → Except Err Val} (hf : ∀ x y, f x = .ok y → y = v)
    (h : m.modify o q f = .ok m') :
    m'.look o q = .ok v := by
  simp only [Mem.modify] at h
  split at h
  · cases h
  · rename_i V hV
    split at h
    · cases h
    · rename_i V' hV'
      cases h
      have hlt := (List.getElem?_eq_some_iff.1 hV).1
      simp only [Mem.look, Mem.read, List.getElem?_set_self hlt]
      exact update_const hf hV'

/-- The destination of a class type holds the object, nothing else is written. -/
theorem construct_object {m m' : Mem} {o q n buf}
    (h : m.construct (.at o q (.user n)) buf = .ok m') :
    ∃ args, m.read buf = .ok (.tup args) ∧ m'.look o q = .ok (.obj n args) ∧ m'.log = m.log ∧
      ∀ o' q', (Ref.at o q (.user n)).Misses o' q' → m'.look o' q' = m.look o' q' := by
  obtain ⟨args, v, h1, h2, h3⟩ := construct_inv h
  cases h2
  refine ⟨args, h1, ?_, assign_log h3, fun _ _ hm => assign_look hm h3⟩
  simp only [Mem.assign, Ty.convert, if_true] at h3
  exact modify_const (fun _ _ h => by cases h; rfl) h3

/-- Calls on a suspended parser do not touch what its destination does not designate. -/
theorem Waits.uses {σ : Type} [DataSource σ] {S : Ref → Prop} {J : Mem → Prop} (hS : Region S)
    (hJ : Keeps S J) {env P dst bnd st} {w w' : World σ Mem} (h : Waits env P dst bnd st w w')
    (hd : DstOK S P dst) (hb : BndOK env S P bnd) (hst : st.In S) (hw : J w.mem) : J w'.mem := by
  induction h with
  | none => exact hw
  | more h _ ih =>
    obtain ⟨_, n, hn⟩ := h
    obtain ⟨h1, h2⟩ := run_uses hS hJ n hd hb hst hw hn
    exact ih h1 h2

theorem Suspended.keeps_other {σ : Type} [DataSource σ] {env P dst bnd} {w w' : World σ Mem} {o q v}
    (h : Suspended env P dst bnd w w') (hd : dst.Misses o q ∨ P.silent = true)
    (hq : P.quiet = true) (he : env.quiet) (hv : w.mem.look o q = .ok v) :
    w'.mem.look o q = .ok v := by
  obtain ⟨st, w1, ds, hc, hr⟩ := h
  have hJ := misses_keeps o q v
  have hS := misses_region o q
  obtain ⟨h1, h2⟩ := construct_uses hS hJ hd hv hc
  exact Waits.uses hS hJ hr hd (.inr ⟨hq, he.prog⟩) h1 h2

/-- A new object is none of the existing ones. -/
theorem alloc_misses {m : Mem} {ty : Ty} {o q v} (h : m.look o q = .ok v) :
    (m.alloc ty).1.Misses o q ∧ (m.alloc ty).2.look o q = .ok v := by
  by_cases hty : ty = .nil
  · subst hty
    exact ⟨trivial, h⟩
  · rw [alloc_eq hty]
    have := look_lt h
    exact ⟨.inl (by omega), look_append h⟩

theorem ghost_constr {env : Env} {tys : List Ty} {P : Prog} {t r rest} :
    GhostParses env (.construct tys P) t r rest ↔ GhostParses env P t r rest := by
  have hcon : ∀ w : World Cursor Unit, construct (.construct tys P) .nil .nil w =
      match construct P .nil .nil w with
      | .error e => .error e
      | .ok (c, w1) => .ok (.buffered .nil c, w1) := by
    intro w
    unfold construct
    simp only [mk, exec, exec_bind, Store.alloc]
    cases exec _ (mk P .nil .nil) w <;> rfl
  have hrun : ∀ n c (w : World Cursor Unit), run env (n + 1) (.construct tys P) .nil .nil (.buffered .nil c) w =
      match run env n P .nil .nil c w with
      | .error e => .error e
      | .ok ((r, c'), w1) => .ok ((r, .buffered .nil c'), w1) := by
    intro n c w
    rw [run]
    simp only [body, exec]
    cases run env n P .nil .nil c w with
    | error e => rfl
    | ok x =>
      obtain ⟨⟨r, c'⟩, w1⟩ := x
      cases r <;> rfl
  constructor
  · rintro ⟨st, w, n, st', w', h1, h2, h3⟩
    rw [hcon] at h1
    cases hc : construct P .nil .nil (⟨Cursor.whole t, ()⟩ : World Cursor Unit) with
    | error e => rw [hc] at h1; cases h1
    | ok x =>
      rw [hc] at h1
      cases h1
      cases n with
      | zero => cases h2
      | succ n =>
        rw [hrun] at h2
        cases hr : run env n P .nil .nil x.1 x.2 with
        | error e => rw [hr] at h2; cases h2
        | ok y =>
          rw [hr] at h2
          cases h2
          exact ⟨_, _, n, _, _, hc, hr, h3⟩
  · rintro ⟨st, w, n, st', w', h1, h2, h3⟩
    refine ⟨.buffered .nil st, w, n + 1, .buffered .nil st', w', ?_, ?_, h3⟩
    · rw [hcon, h1]
    · rw [hrun, h2]

end Abu
