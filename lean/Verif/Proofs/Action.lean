import Verif.Proofs.Alone
import Verif.Proofs.Eval
import Verif.Proofs.Sequence
import Verif.Spec.Apply
/-
Parsers of actions in terms of the parsers of their operands.
-/
namespace Abu

section
variable {σ : Type} [DataSource σ] {env : Env} {a : Act} {P : Prog} {dst bnd land : Ref}

theorem run_action (n : Nat) (c : PState) (w : World σ Mem) :
    run env (n + 1) (.action a P) dst bnd (.buffered land c) w =
      match run env n P land bnd c w with
      | .error e => .error e
      | .ok ((.SUCCESS, c'), w1) =>
        match w1.mem.act a land dst bnd with
        | .error e => .error e
        | .ok m => .ok ((.SUCCESS, .buffered land c'), ⟨w1.ds, m⟩)
      | .ok ((r, c'), w1) => .ok ((r, .buffered land c'), w1) := by
  rw [run]
  simp only [body, exec]
  cases hr : run env n P land bnd c w with
  | error e => rfl
  | ok x =>
    obtain ⟨⟨r, c'⟩, w1⟩ := x
    cases r with
    | SUCCESS =>
      simp only [exec, Store.op, Mem.run]
      cases w1.mem.act a land dst bnd <;> rfl
    | FAILURE => rfl
    | PARTIAL => rfl

theorem evals_action {c : PState} {w : World σ Mem} {r st' w'} :
    Evals env (.action a P) dst bnd (.buffered land c) w (.ok ((r, st'), w')) ↔
      ∃ c' w1, Evals env P land bnd c w (.ok ((r, c'), w1)) ∧ st' = .buffered land c' ∧
        w'.ds = w1.ds ∧ (r = .SUCCESS → w1.mem.act a land dst bnd = .ok w'.mem) ∧
        (r ≠ .SUCCESS → w'.mem = w1.mem) := by
  constructor
  · rintro ⟨_, n, hn⟩
    cases n with
    | zero => cases hn
    | succ n =>
      rw [run_action] at hn
      cases hr : run env n P land bnd c w with
      | error e => rw [hr] at hn; cases hn
      | ok x =>
        obtain ⟨⟨r1, c'⟩, w1⟩ := x
        rw [hr] at hn
        have he : Evals env P land bnd c w (.ok ((r1, c'), w1)) := ⟨by simp, n, hr⟩
        cases r1 with
        | SUCCESS =>
          simp only at hn
          cases hm : w1.mem.act a land dst bnd with
          | error e => rw [hm] at hn; cases hn
          | ok m =>
            rw [hm] at hn
            cases hn
            exact ⟨c', w1, he, rfl, rfl, fun _ => hm, fun h => absurd rfl h⟩
        | FAILURE => cases hn; exact ⟨c', w', he, rfl, rfl, (by simp), fun _ => rfl⟩
        | PARTIAL => cases hn; exact ⟨c', w', he, rfl, rfl, (by simp), fun _ => rfl⟩
  · rintro ⟨c', w1, ⟨_, n, hn⟩, rfl, hds, h1, h2⟩
    refine ⟨by simp, n + 1, ?_⟩
    rw [run_action, hn]
    obtain ⟨ds', m'⟩ := w'
    cases r with
    | SUCCESS =>
      simp only at hds ⊢
      rw [h1 rfl, hds]
    | FAILURE =>
      have h2 := h2 (by simp)
      simp only at hds h2 ⊢
      rw [hds, h2]
    | PARTIAL =>
      have h2 := h2 (by simp)
      simp only at hds h2 ⊢
      rw [hds, h2]

theorem construct_action {w : World σ Mem} {x} :
    construct (.action a P) dst bnd w = .ok x ↔
      ∃ c w1, construct P (w.mem.alloc a.landing).1 bnd ⟨w.ds, (w.mem.alloc a.landing).2⟩ = .ok (c, w1) ∧
        x = (.buffered (w.mem.alloc a.landing).1 c, w1) := by
  unfold construct
  simp only [mk, exec, exec_bind, Store.alloc]
  cases exec _ (mk P (w.mem.alloc a.landing).1 bnd)
    (⟨w.ds, (w.mem.alloc a.landing).2⟩ : World σ Mem) with
  | error e => simp
  | ok y =>
    obtain ⟨c, w1⟩ := y
    constructor
    · intro h; cases h; exact ⟨c, w1, rfl, rfl⟩
    · rintro ⟨c', w1', h, rfl⟩; cases h; rfl

theorem resumes_action {c : PState} {w : World σ Mem} {r w'} :
    Resumes env (.action a P) dst bnd (.buffered land c) w r w' ↔
      ∃ w1, Resumes env P land bnd c w r w1 ∧ w'.ds = w1.ds ∧
        (r = .SUCCESS → w1.mem.act a land dst bnd = .ok w'.mem) ∧
        (r ≠ .SUCCESS → w'.mem = w1.mem) := by
  constructor
  · intro h
    generalize hst : PState.buffered land c = st at h
    induction h generalizing c with
    | last h hr =>
      subst hst
      obtain ⟨c', w1, h1, _, h2⟩ := evals_action.1 h
      exact ⟨w1, .last h1 hr, h2⟩
    | more h _ ih =>
      subst hst
      obtain ⟨c', w1, h1, rfl, _, _, h3⟩ := evals_action.1 h
      obtain ⟨w2, h4, h5⟩ := ih rfl
      rw [h3 (by simp)] at h4
      exact ⟨w2, .more h1 h4, h5⟩
  · rintro ⟨w1, h, h2⟩
    induction h with
    | last h hr => exact .last (evals_action.2 ⟨_, _, h, rfl, h2⟩) hr
    | more h _ ih =>
      exact .more (evals_action.2 ⟨_, _, h, rfl, rfl, by simp, fun _ => rfl⟩) (ih h2)

theorem used_action {w : World σ Mem} {r w'} :
    Used env (.action a P) dst bnd w r w' ↔
      ∃ w1, Used env P (w.mem.alloc a.landing).1 bnd ⟨w.ds, (w.mem.alloc a.landing).2⟩ r w1 ∧
        w'.ds = w1.ds ∧
        (r = .SUCCESS → w1.mem.act a (w.mem.alloc a.landing).1 dst bnd = .ok w'.mem) ∧
        (r ≠ .SUCCESS → w'.mem = w1.mem) := by
  constructor
  · rintro ⟨st, w0, ds, hc, hr⟩
    obtain ⟨c, w1, hc1, he⟩ := construct_action.1 hc
    cases he
    obtain ⟨w2, h1, h2⟩ := resumes_action.1 hr
    exact ⟨w2, ⟨_, _, ds, hc1, h1⟩, h2⟩
  · rintro ⟨w1, ⟨c, w0, ds, hc, hr⟩, h2⟩
    exact ⟨_, _, ds, construct_action.2 ⟨c, w0, hc, rfl⟩, resumes_action.2 ⟨w1, hr, h2⟩⟩

theorem waits_action {c : PState} {w w' : World σ Mem} :
    Waits env (.action a P) dst bnd (.buffered land c) w w' ↔ Waits env P land bnd c w w' := by
  constructor
  · intro h
    generalize hst : PState.buffered land c = st at h
    induction h generalizing c with
    | none => exact .none
    | more h _ ih =>
      subst hst
      obtain ⟨c', w1, h1, rfl, _, _, h3⟩ := evals_action.1 h
      have h4 := ih rfl
      rw [h3 (by simp)] at h4
      exact .more h1 h4
  · intro h
    induction h with
    | none => exact .none
    | more h _ ih =>
      exact .more (evals_action.2 ⟨_, _, h, rfl, rfl, by simp, fun _ => rfl⟩) ih

theorem suspended_action {w w' : World σ Mem} :
    Suspended env (.action a P) dst bnd w w' ↔
      Suspended env P (w.mem.alloc a.landing).1 bnd ⟨w.ds, (w.mem.alloc a.landing).2⟩ w' := by
  constructor
  · rintro ⟨st, w0, ds, hc, hr⟩
    obtain ⟨c, w1, hc1, he⟩ := construct_action.1 hc
    cases he
    exact ⟨_, _, ds, hc1, waits_action.1 hr⟩
  · rintro ⟨c, w0, ds, hc, hr⟩
    exact ⟨_, _, ds, construct_action.2 ⟨c, w0, hc, rfl⟩, waits_action.2 hr⟩

end

theorem assign_log {m m' : Mem} {d v} (h : m.assign d v = .ok m') : m'.log = m.log := by
  unfold Mem.assign at h
  have key : ∀ o p f, m.modify o p f = .ok m' → m'.log = m.log := by
    intro o p f h
    unfold Mem.modify at h
    split at h
    · cases h
    · split at h
      · cases h
      · cases h; rfl
  split at h
  · cases h; rfl
  · split at h
    · cases h
    · exact key _ _ _ h
  · split at h
    · cases h
    · exact key _ _ _ h

/-- `act_dispatch` calls the function once, with the landing value. -/
theorem act_log {m m' : Mem} {a : Act} {l d b} (h : m.act a l d b = .ok m') :
    ∃ v, m.read l = .ok v ∧ v ≠ .indet ∧ m'.log = m.log ++ [⟨a.id, v⟩] := by
  have key : ∀ v bv, m.actWith a d b v bv = .ok m' → m'.log = m.log ++ [⟨a.id, v⟩] := by
    intro v bv h
    unfold Mem.actWith at h
    split at h
    · cases h
    · rename_i bv
      split at h
      · cases h
      · rename_i m2 hw
        have h2 : m2.log = m.log ++ [⟨a.id, v⟩] := by
          unfold Mem.actWrite at hw
          split at hw
          · unfold Mem.modify at hw
            split at hw
            · cases hw
            · split at hw
              · cases hw
              · cases hw; rfl
          · cases hw; rfl
        split at h
        · cases h; exact h2
        · rw [assign_log h, h2]
  rw [act_eq] at h
  split at h
  · cases h
  · cases h
  · rename_i v hne hv
    exact ⟨v, hv, fun e => hne e, key _ _ h⟩

/-- Without `ActionParam` it does nothing else than assign the result, if there is one. -/
theorem act_plain {m : Mem} {a : Act} {l d b v} (ha : a.param = false) (hv : m.read l = .ok v)
    (hne : v ≠ .indet) :
    m.act a l d b = if a.void then .ok { m with log := m.log ++ [⟨a.id, v⟩] }
      else ({ m with log := m.log ++ [⟨a.id, v⟩] } : Mem).assign d (a.fn m.log v .nil).1 := by
  rw [act_eq, hv]
  cases v <;> first | exact absurd rfl hne | simp [Mem.actWith, Mem.actWrite, ha]

theorem alloc_eq {m : Mem} {ty : Ty} (h : ty ≠ .nil) :
    m.alloc ty = (.at m.objs.length [] ty, ⟨m.objs ++ [ty.defaultInit], m.log⟩) := by
  cases ty <;> first | rfl | exact absurd rfl h

theorem look_append {m : Mem} {o q v x} (h : m.look o q = .ok v) :
    Mem.look ⟨m.objs ++ [x], m.log⟩ o q = .ok v := by
  have := look_lt h
  simp only [Mem.look, Mem.read] at h ⊢
  rw [List.getElem?_append_left this]
  exact h

/-- The operand of an action at work. -/
theorem Landing.does {env : Env} {p : Pat} {ty v log T r log' rest i} {M : Mem}
    (h : Landing env p ty log (T.drop i) r v log' rest) (hq : p.quiet = true) (he : env.quiet)
    (hl : M.log = log) (bnd : Ref) :
    ∃ i' L M', Does env (topParser p) (M.alloc ty).1 bnd T i (M.alloc ty).2 r i' L M' ∧
      T.drop i' = rest ∧ i ≤ i' ∧ M'.read (M.alloc ty).1 = .ok v ∧ M'.log = log' ∧
      ∀ o q x, M.look o q = .ok x → M'.look o q = .ok x := by
  cases h with
  | nil hty h =>
    subst hty
    obtain ⟨i', L, M', hd, h1, h2, h3, h4⟩ := h.does hq he hl bnd
    refine ⟨i', L, M', hd, h1, h2, rfl, h3, fun o q x hx => ?_⟩
    rw [(h4 o q (look_lt hx)).2, hx]
  | value hty h =>
    rw [alloc_eq hty]
    obtain ⟨i', L, M', hd, h1, h2, h3, h4, h5⟩ := h.does hq he
      (M := ⟨M.objs ++ [ty.defaultInit], M.log⟩) (o := M.objs.length) (q := [])
      (look_nil.2 (by simp)) hl bnd
    refine ⟨i', L, M', hd, h1, h2, h3, h4, fun o q x hx => ?_⟩
    have hlt := look_lt hx
    have := (h5 o q (.inl (by omega)) (by simp only [List.length_append]; omega)).2
    rw [this, look_append hx]

theorem Alone.action_fail {env : Env} {p : Pat} {a : Act} {ty u v log t log' rest}
    (h : Landing env p a.landing log t .FAILURE v log' rest) (hq : p.quiet = true)
    (he : env.quiet) : Alone env (.action a p) ty u log t .FAILURE u log' rest := by
  obtain ⟨i', L, M', hd, h1, _, _, h4, h5⟩ := Landing.does (T := t) (i := 0) (M := ⟨[u], log⟩) h hq
    he rfl (.at 0 [] ty)
  exact Does.alone (.action_fail hd) (h5 0 [] u rfl) h4 h1

theorem Alone.action_void {env : Env} {p : Pat} {a : Act} {ty u v log t log' rest}
    (h : Landing env p a.landing log t .SUCCESS v log' rest) (hq : p.quiet = true)
    (he : env.quiet) (hne : v ≠ .indet) (ha : a.param = false) (hv : a.void = true) :
    Alone env (.action a p) ty u log t .SUCCESS u (log' ++ [⟨a.id, v⟩]) rest := by
  obtain ⟨i', L, M', hd, h1, _, h3, h4, h5⟩ := Landing.does (T := t) (i := 0) (M := ⟨[u], log⟩) h hq
    he rfl (.at 0 [] ty)
  have hact := act_plain (d := .at 0 [] ty) (b := .at 0 [] ty) ha h3 hne
  rw [hv] at hact
  refine Does.alone (.action hd hact) (h5 0 [] u rfl) ?_ h1
  simp only [h4]

theorem update_get_same {f : Val → Except Err Val} {q : List Nat} {V u u' : Val}
    (h : Val.get q V = .ok u) (hf : f u = .ok u') :
    ∃ V', Val.update f q V = .ok V' ∧ Val.get q V' = .ok u' := by
  induction q generalizing V with
  | nil => cases h; exact ⟨u', hf, rfl⟩
  | cons i q ih =>
    cases V with
    | tup vs =>
      simp only [Val.get] at h
      split at h
      · cases h
      · rename_i x hx
        obtain ⟨x', h1, h2⟩ := ih h
        refine ⟨.tup (vs.set i x'), ?_, ?_⟩
        · simp only [Val.update, hx, h1]
        · have hi : i < vs.length := by
            rw [List.getElem?_eq_some_iff] at hx
            exact hx.1
          simp only [Val.get, List.getElem?_set_self hi]
          exact h2
    | _ => simp only [Val.get] at h; cases h

theorem modify_look_same {m : Mem} {o q f u u'} (h : m.look o q = .ok u) (hf : f u = .ok u') :
    ∃ m', m.modify o q f = .ok m' ∧ m'.look o q = .ok u' ∧ m'.log = m.log := by
  have hlt := look_lt h
  simp only [Mem.look, Mem.read] at h
  cases ho : m.objs[o]? with
  | none => rw [ho] at h; cases h
  | some V =>
    rw [ho] at h
    obtain ⟨V', h1, h2⟩ := update_get_same h hf
    refine ⟨⟨m.objs.set o V', m.log⟩, ?_, ?_, rfl⟩
    · simp only [Mem.modify, ho, h1]
    · simp only [Mem.look, Mem.read, List.getElem?_set_self hlt]
      exact h2

theorem Receives.assign {ty u v u'} (h : Receives ty u v u') {m : Mem} {o q}
    (hu : m.look o q = .ok u) : ∃ m', m.assign (.at o q ty) v = .ok m' ∧ m'.look o q = .ok u' ∧
      m'.log = m.log := by
  cases h with
  | value hn hh =>
    have := Ty.convert_of_holds hh
    cases ty with
    | coll t => exact absurd rfl (hn t)
    | _ => simp only [Mem.assign, this]; exact modify_look_same hu rfl
  | element hh =>
    have := Ty.convert_of_holds hh
    simp only [Mem.assign, this]
    exact modify_look_same hu rfl

theorem Alone.action_value {env : Env} {p : Pat} {a : Act} {ty u u' v log t log' rest}
    (h : Landing env p a.landing log t .SUCCESS v log' rest) (hq : p.quiet = true)
    (he : env.quiet) (hne : v ≠ .indet) (ha : a.param = false) (hv : a.void = false)
    (hh : Receives ty u (a.fn log' v .nil).1 u') :
    Alone env (.action a p) ty u log t .SUCCESS u' (log' ++ [⟨a.id, v⟩]) rest := by
  obtain ⟨i', L, M', hd, h1, _, h3, h4, h5⟩ := Landing.does (T := t) (i := 0) (M := ⟨[u], log⟩) h hq
    he rfl (.at 0 [] ty)
  have hact := act_plain (d := .at 0 [] ty) (b := .at 0 [] ty) ha h3 hne
  obtain ⟨m2, e1, e2, e3⟩ := hh.assign (m := ⟨M'.objs, log' ++ [⟨a.id, v⟩]⟩) (o := 0) (q := [])
    (h5 0 [] u rfl)
  rw [hv, h4, e1] at hact
  exact Does.alone (.action hd hact) e2 e3 h1

/-! ### Recognition -/

theorem ghost_action {env : Env} {a : Act} {P : Prog} {t r rest} :
    GhostParses env (.action a P) t r rest ↔ GhostParses env P t r rest := by
  have hcon : ∀ w : World Cursor Unit, construct (.action a P) .nil .nil w =
      match construct P .nil .nil w with
      | .error e => .error e
      | .ok (c, w1) => .ok (.buffered .nil c, w1) := by
    intro w
    unfold construct
    simp only [mk, exec, exec_bind, Store.alloc]
    cases exec _ (mk P .nil .nil) w <;> rfl
  have hrun : ∀ n c (w : World Cursor Unit), run env (n + 1) (.action a P) .nil .nil (.buffered .nil c) w =
      match run env n P .nil .nil c w with
      | .error e => .error e
      | .ok ((r, c'), w1) => .ok ((r, .buffered .nil c'), w1) := by
    intro n c w
    rw [run]
    simp only [body, exec]
    cases run env n P .nil .nil c w with
    | error e => rfl
    | ok x =>
      obtain ⟨⟨r, c'⟩, w1⟩ := x
      cases r <;> rfl
  constructor
  · rintro ⟨st, w, n, st', w', h1, h2, h3⟩
    rw [hcon] at h1
    cases hc : construct P .nil .nil (⟨Cursor.whole t, ()⟩ : World Cursor Unit) with
    | error e => rw [hc] at h1; cases h1
    | ok x =>
      rw [hc] at h1
      cases h1
      cases n with
      | zero => cases h2
      | succ n =>
        rw [hrun] at h2
        cases hr : run env n P .nil .nil x.1 x.2 with
        | error e => rw [hr] at h2; cases h2
        | ok y =>
          rw [hr] at h2
          cases h2
          exact ⟨_, _, n, _, _, hc, hr, h3⟩
  · rintro ⟨st, w, n, st', w', h1, h2, h3⟩
    refine ⟨.buffered .nil st, w, n + 1, .buffered .nil st', w', ?_, ?_, h3⟩
    · rw [hcon, h1]
    · rw [hrun, h2]

theorem topParser_action (a : Act) (p : Pat) : topParser (.action a p) = .action a (topParser p) := by
  simp [topParser, elabP, Req.needsAtomic, Req.needsClean, DefaultReqs, adapt, Req.skipper,
      Prog.isFail, Req.lower]

end Abu
