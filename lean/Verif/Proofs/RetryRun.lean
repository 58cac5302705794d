import Verif.Proofs.Retry
/-
Calling `consume` again after an exception is calling the action again, for `Prog.retriable` parsers.
-/
namespace Abu

mutual
theorem Ty.numbers_of : ∀ t : Ty, t.moveCopies = true → t.Numbers
  | .nil, _ => .nil
  | .num _, _ => .num
  | .coll _, h => by simp [Ty.moveCopies] at h
  | .user _, h => by simp [Ty.moveCopies] at h
  | .tup ts, h => .tup (Ty.allNumbers_of ts (by simpa only [Ty.moveCopies] using h))
theorem Ty.allNumbers_of : ∀ ts : List Ty, Ty.allMoveCopies ts = true → ∀ t ∈ ts, t.Numbers
  | [], _, t, h => by cases h
  | t :: ts, h, u, hu => by
    simp only [Ty.allMoveCopies, Bool.and_eq_true] at h
    rcases List.mem_cons.1 hu with hu | hu
    · rw [hu]; exact Ty.numbers_of t h.1
    · exact Ty.allNumbers_of ts h.2 u hu
end

theorem Ty.all_moveCopies : ∀ ts : List Ty, (∀ t ∈ ts, t.moveCopies = true) → Ty.allMoveCopies ts = true
  | [], _ => rfl
  | t :: ts, h => by
    simp only [Ty.allMoveCopies, Bool.and_eq_true]
    exact ⟨h t (by simp), Ty.all_moveCopies ts fun u hu => h u (by simp [hu])⟩

theorem Ty.Numbers.moveCopies {t : Ty} (h : t.Numbers) : t.moveCopies = true := by
  induction h with
  | nil => rfl
  | num => rfl
  | tup _ ih => simpa only [Ty.moveCopies] using Ty.all_moveCopies _ ih


theorem throwsOut_eq {M T} {m : Mem} {a l d b} (h : a.landing.moveCopies = true) :
    m.throwsOut M T (.act a l d b) = m.throws T (.act a l d b) := by
  simp only [Mem.throwsOut]
  cases ht : m.throws T (.act a l d b) with
  | none => rfl
  | some x =>
    cases x with
    | error e => rfl
    | ok m1 => simp [Mem.moveFrom, h]

theorem persist_throws {T n} {m m1 : Mem} {o} (h : m.throws T o = some (.ok m1)) :
    m.persist T (n + 1) o = m1.persist T n o := by
  simp only [Mem.persist, h]

section
variable {σ : Type} [DataSource σ] {M : Moved} {T : Throwing} {env : Env}

theorem runR_succ (n p dst bnd st) (w : World σ Mem) :
    runR M T env (n + 1) p dst bnd st w =
      match execR M T st (runR M T env n) (body env p dst bnd st) w with
      | .error e => .error e
      | .ok (.ret r st', w') => .ok ((r, st'), w')
      | .ok (.cont st', w') => runR M T env n p dst bnd st' w' := rfl

theorem persisting_succ (n p dst bnd st) (w : World σ Mem) :
    persisting T env (n + 1) p dst bnd st w =
      match execP T (n + 1) (persisting T env n) (body env p dst bnd st) w with
      | .error e => .error e
      | .ok (.ret r st', w') => .ok ((r, st'), w')
      | .ok (.cont st', w') => persisting T env n p dst bnd st' w' := rfl

theorem Prog.retriable_action {a p} (h : (Prog.action a p).retriable = true) :
    a.landing.moveCopies = true ∧ p.settles true = true ∧ p.retriable = true := by
  simp only [Prog.retriable, Bool.and_eq_true] at h
  exact ⟨h.1.1, h.1.2, h.2⟩

/-! ### Without an exception -/

/-- Same end, if the first is neither an exception nor for want of steps. -/
def SameR {α : Type} (x : OutR σ α) (y : Out σ Mem α) : Prop :=
  (∀ a, x = .ok a → y = .ok a) ∧ (∀ e, x = .error (.err e) → e ≠ .fuel → y = .error e)

theorem sameR_lift {α : Type} (y : Out σ Mem α) : SameR (liftR y) y := by
  cases y with
  | ok a => exact ⟨fun _ h => by cases h; rfl, nofun⟩
  | error e => exact ⟨nofun, fun _ h _ => by cases h; rfl⟩

theorem exec_same (he : env.retriable') {n}
    (ih : ∀ p, p.retriable = true → ∀ dst bnd st (w : World σ Mem),
      SameR (runR M T env n p dst bnd st w) (persisting T env n p dst bnd st w))
    (p) (hp : p.retriable = true) (dst bnd st) (w : World σ Mem) :
    SameR (execR M T st (runR M T env n) (body env p dst bnd st) w)
      (execP T (n + 1) (persisting T env n) (body env p dst bnd st) w) := by
  rcases rshape env p dst bnd st with hc | ⟨p', d, b, c, k, hr, hb, hst, ha⟩
  · rw [execR_calm hc, execP_calm hc]; exact sameR_lift _
  · have hb0 := hb c
    rw [hst] at hb0
    rw [hb0]
    have ihc := ih p' (hr he hp) d b c w
    simp only [execR, execP]
    cases hx : runR M T env n p' d b c w with
    | error e =>
      cases e with
      | thrown s1 w1 => exact ⟨nofun, nofun⟩
      | err e =>
        refine ⟨nofun, fun e' h hf => ?_⟩
        cases h
        rw [ihc.2 e hx hf]
    | ok y =>
      rw [ihc.1 y hx]
      obtain ⟨⟨r, c'⟩, w1⟩ := y
      show SameR (execR M T st _ (k r c') w1) (execP T _ _ (k r c') w1)
      cases ha with
      | calm ha => rw [execR_calm (ha r c'), execP_calm (ha r c')]; exact sameR_lift _
      | @act a hpa hq hk =>
        by_cases hrs : r = .SUCCESS
        · subst hrs hpa
          obtain ⟨hl, _, _⟩ := Prog.retriable_action hp
          rw [hk]
          simp only [execR, execP, throwsOut_eq hl, Mem.persist]
          cases ht : w1.mem.throws T (.act a d dst bnd) with
          | none =>
            cases w1.mem.run (.act a d dst bnd) with
            | error e => exact ⟨nofun, fun _ h _ => by cases h; rfl⟩
            | ok m => exact ⟨fun _ h => by cases h; rfl, nofun⟩
          | some z =>
            cases z with
            | error e => exact ⟨nofun, fun _ h _ => by cases h; rfl⟩
            | ok m => exact ⟨nofun, nofun⟩
        · rw [execR_calm (hq r c' hrs), execP_calm (hq r c' hrs)]; exact sameR_lift _

theorem run_same (he : env.retriable') (n p) (hp : p.retriable = true) (dst bnd st) (w : World σ Mem) :
    SameR (runR M T env n p dst bnd st w) (persisting T env n p dst bnd st w) := by
  induction n generalizing p dst bnd st w with
  | zero => exact ⟨nofun, fun e h hf => by cases h; exact absurd rfl hf⟩
  | succ n ih =>
    have key := exec_same (M := M) he ih p hp dst bnd st w
    rw [runR_succ, persisting_succ]
    cases hx : execR M T st (runR M T env n) (body env p dst bnd st) w with
    | error e =>
      cases e with
      | thrown s1 w1 => exact ⟨nofun, nofun⟩
      | err e =>
        refine ⟨nofun, fun e' h hf => ?_⟩
        cases h
        rw [key.2 e hx hf]
    | ok y =>
      rw [key.1 y hx]
      obtain ⟨s, w1⟩ := y
      cases s with
      | ret r st' => exact ⟨fun _ h => by cases h; rfl, nofun⟩
      | cont st' => exact ih p hp _ _ _ _

/-! ### With an exception -/

theorem EvalsBy.persist_at {p dst bnd st} {w : World σ Mem} {o}
    (h : EvalsBy (persisting T env) p dst bnd st w o) :
    ∃ n, ∀ m, n ≤ m → persisting T env m p dst bnd st w = o := by
  obtain ⟨ho, n, rfl⟩ := h
  exact ⟨n, fun m hm => persisting_mono T env hm _ _ _ _ _ ho⟩

/-- The same child, the same end. -/
theorem persisting_child {n p dst bnd st1 st2 p' d b c1 c2 k} {w1 w2 : World σ Mem}
    (h1 : body env p dst bnd st1 = .call p' d b c1 k) (h2 : body env p dst bnd st2 = .call p' d b c2 k)
    (h : persisting T env n p' d b c1 w1 = persisting T env n p' d b c2 w2) :
    persisting T env (n + 1) p dst bnd st1 w1 = persisting T env (n + 1) p dst bnd st2 w2 := by
  rw [persisting_succ, persisting_succ, h1, h2]
  simp only [execP, h]

theorem run_thrown (he : env.retriable') (n p) (hp : p.retriable = true) (dst bnd st) (w : World σ Mem)
    (st1 w1) (h : runR M T env n p dst bnd st w = .error (.thrown st1 w1)) (o)
    (ho : EvalsBy (persisting T env) p dst bnd st1 w1 o) :
    EvalsBy (persisting T env) p dst bnd st w o := by
  induction n generalizing p dst bnd st w st1 w1 o with
  | zero => cases h
  | succ n ih =>
    rw [runR_succ] at h
    cases hx : execR M T st (runR M T env n) (body env p dst bnd st) w with
    | ok y =>
      rw [hx] at h
      obtain ⟨s, w'⟩ := y
      cases s with
      | ret => cases h
      | cont st' =>
        obtain ⟨m, hm⟩ := (ih p hp _ _ _ _ _ _ h o ho).persist_at
        have := (exec_same (M := M) he (fun p hp dst bnd st w => run_same he n p hp dst bnd st w)
          p hp dst bnd st w).1 _ hx
        refine ⟨ho.1, max n m + 1, ?_⟩
        rw [persisting_succ, execP_mono (n := n + 1) (by omega)
          (fun p d b st w h => persisting_mono T env (Nat.le_max_left n m) p d b st w h) _ _
          (by rw [this]; simp), this]
        exact hm _ (Nat.le_max_right n m)
    | error e =>
      rw [hx] at h
      cases h
      rcases rshape env p dst bnd st with hc | ⟨p', d, b, c, k, hr, hb, hst, ha⟩
      · rw [execR_calm hc] at hx
        cases hy : exec noCall (body env p dst bnd st) w <;> rw [hy] at hx <;> cases hx
      · have hb0 := hb c
        rw [hst] at hb0
        rw [hb0] at hx
        simp only [execR] at hx
        cases hy : runR M T env n p' d b c w with
        | error e =>
          rw [hy] at hx
          cases e with
          | err e => cases hx
          | thrown s1 w2 =>
            cases hx
            obtain ⟨m, hm⟩ := ho.persist_at
            have hne : persisting T env m p' d b s1 w1 ≠ .error .fuel := by
              intro hf
              have := hm (m + 1) (by omega)
              rw [persisting_succ, hb s1] at this
              simp only [execP, hf] at this
              exact ho.1 this.symm
            obtain ⟨m', hm'⟩ := (ih p' (hr he hp) _ _ _ _ _ _ hy _ ⟨hne, m, rfl⟩).persist_at
            refine ⟨ho.1, max m m' + 1, ?_⟩
            rw [persisting_child hb0 (hb s1) (w2 := w1)]
            · exact hm _ (by omega)
            · rw [hm' _ (Nat.le_max_right m m'),
                persisting_mono T env (Nat.le_max_left m m') _ _ _ _ _ hne]
        | ok y =>
          rw [hy] at hx
          obtain ⟨⟨r, c'⟩, w2⟩ := y
          change execR M T st _ (k r c') w2 = _ at hx
          have hcalm : ∀ {x : Cmd Step}, x.calm → execR M T st (runR M T env n) x w2 =
              .error (.thrown st1 w1) → False := by
            intro x hc hx
            rw [execR_calm hc] at hx
            cases hy : exec noCall x w2 <;> rw [hy] at hx <;> cases hx
          cases ha with
          | calm ha => exact (hcalm (ha r c') hx).elim
          | @act a hpa hq hk =>
            by_cases hrs : r = .SUCCESS
            · subst hrs hpa
              obtain ⟨hl, hset, hpr⟩ := Prog.retriable_action hp
              rw [hk] at hx
              simp only [execR, throwsOut_eq hl] at hx
              cases ht : w2.mem.throws T (.act a d dst bnd) with
              | none =>
                rw [ht] at hx
                cases hy : w2.mem.run (.act a d dst bnd) <;> rw [hy] at hx <;> cases hx
              | some z =>
                rw [ht] at hx
                cases z with
                | error e => cases hx
                | ok mem =>
                  cases hx
                  obtain ⟨N, hidle⟩ := settles_idle (ok := true) n p' hset _ _ _ _ _ _ hy
                  obtain ⟨m, hm⟩ := ho.persist_at
                  have hi : ∀ n', N ≤ n' → persisting T env n' p' d b c' ⟨w2.ds, mem⟩ =
                      .ok ((.SUCCESS, c'), ⟨w2.ds, mem⟩) :=
                    fun n' hn => (run_same (M := M) he n' p' hpr d b c' ⟨w2.ds, mem⟩).1 _
                      (hidle n' hn mem)
                  have hc := (run_same (M := M) he n p' hpr d b c w).1 _ hy
                  have h1 : persisting T env (max (max m n) N + 1) (.action a p') dst bnd (st.put c')
                      ⟨w2.ds, mem⟩ = o := hm _ (by omega)
                  refine ⟨ho.1, max (max m n) N + 1 + 1, ?_⟩
                  rw [persisting_succ] at h1 ⊢
                  rw [hb c'] at h1
                  rw [hb0]
                  simp only [execP, hi _ (Nat.le_max_right (max m n) N), hk] at h1
                  simp only [execP, persisting_mono T env (n := n) (n' := max (max m n) N + 1) (by omega)
                    _ _ _ _ _ (by rw [hc]; simp), hc, hk, persist_throws ht]
                  cases hz : mem.persist T (max (max m n) N + 1) (.act a d dst bnd) <;>
                    rw [hz] at h1 <;> exact h1
            · exact (hcalm (hq r c' hrs) hx).elim

/-! ### The other way round -/

theorem execR_at {p dst bnd st} {w : World σ Mem} {n x}
    (h : execR M T st (runR M T env n) (body env p dst bnd st) w = x) (hx : x ≠ .error (.err .fuel))
    {N} (hN : n ≤ N) : execR M T st (runR M T env N) (body env p dst bnd st) w = x := by
  rw [execR_mono (f := runR M T env n) (fun p d b st w h => runR_mono M T env hN p d b st w h) _ _
    (by rw [h]; exact hx), h]

theorem Again.cont {p dst bnd st st'} {w w' : World σ Mem} {n o}
    (h : execR M T st (runR M T env n) (body env p dst bnd st) w = .ok (.cont st', w'))
    (ha : Again M T env p dst bnd st' w' o) : Again M T env p dst bnd st w o := by
  have key : ∀ m x, runR M T env m p dst bnd st' w' = x → x ≠ .error (.err .fuel) →
      runR M T env (max n m + 1) p dst bnd st w = x := by
    intro m x hr hx
    rw [runR_succ, execR_at h (by simp) (Nat.le_max_left n m)]
    show runR M T env _ p dst bnd st' w' = x
    rw [runR_mono M T env (Nat.le_max_right n m) _ _ _ _ _ (by rw [hr]; exact hx), hr]
  cases ha with
  | ok hr => exact .ok (key _ _ hr (by simp))
  | err hr he => exact .err (key _ _ hr (by simpa using he)) he
  | more hr ha => exact .more (key _ _ hr (by simp)) ha

/-- From the child to the parent. -/
theorem Again.parent {p dst bnd p' d b k} {st : PState} (hb : ∀ c1, body env p dst bnd (st.put c1) = .call p' d b c1 k)
    {c} {w : World σ Mem} {oc o} (h : Again M T env p' d b c w oc)
    (herr : ∀ e, oc = .error e → o = .error e)
    (hok : ∀ y, oc = .ok y → ∀ n cf wf, runR M T env n p' d b cf wf = .ok y →
      Again M T env p dst bnd (st.put cf) wf o) :
    Again M T env p dst bnd (st.put c) w o := by
  induction h with
  | ok h => exact hok _ rfl _ _ _ h
  | @err n c w e h he =>
    rw [herr e rfl]
    refine .err (n := n + 1) ?_ he
    rw [runR_succ, hb]
    simp only [execR, h]
  | @more n c w c1 w1 oc h _ ih =>
    refine .more (n := n + 1) (st' := st.put c1) (w' := w1) ?_ (ih herr hok)
    rw [runR_succ, hb]
    simp only [execR, h, PState.put_put]

theorem again_of_persisting (he : env.retriable') (n p) (hp : p.retriable = true) (dst bnd st)
    (w : World σ Mem) (o) (h : persisting T env n p dst bnd st w = o) (ho : o ≠ .error .fuel) :
    Again M T env p dst bnd st w o := by
  induction n generalizing p dst bnd st w o with
  | zero => exact absurd h.symm ho
  | succ n ih =>
    rw [persisting_succ] at h
    -- the rest of an iteration, when nothing is thrown
    have hlift : ∀ (x : Out σ Mem Step) n1 st0 w0,
        execR M T st0 (runR M T env n1) (body env p dst bnd st0) w0 = liftR x →
        (match x with
          | .error e => .error e
          | .ok (.ret r st', w') => .ok ((r, st'), w')
          | .ok (.cont st', w') => persisting T env n p dst bnd st' w') = o →
        Again M T env p dst bnd st0 w0 o := by
      intro x n1 st0 w0 hx hxo
      cases x with
      | error e =>
        subst hxo
        refine .err (n := n1 + 1) ?_ (fun h => ho (by rw [h]))
        rw [runR_succ, hx]; rfl
      | ok y =>
        obtain ⟨s, w'⟩ := y
        cases s with
        | ret r st' => subst hxo; exact .ok (n := n1 + 1) (by rw [runR_succ, hx]; rfl)
        | cont st' => exact Again.cont hx (ih p hp _ _ _ _ _ hxo ho)
    rcases rshape env p dst bnd st with hc | ⟨p', d, b, c, k, hr, hb, hst, ha⟩
    · rw [execP_calm hc] at h
      exact hlift _ 0 _ _ (execR_calm hc w) h
    · have hb0 := hb c
      rw [hst] at hb0
      rw [hb0] at h
      simp only [execP] at h
      rw [← hst]
      cases hy : persisting T env n p' d b c w with
      | error e =>
        rw [hy] at h
        have hne : e ≠ .fuel := fun he => ho (by rw [← h, he])
        exact Again.parent hb (ih p' (hr he hp) _ _ _ _ _ hy (by simpa using hne))
          (fun e' h' => by cases h'; exact h.symm) nofun
      | ok y =>
        rw [hy] at h
        refine Again.parent hb (ih p' (hr he hp) _ _ _ _ _ hy (by simp)) nofun ?_
        intro y' hy' n1 cf wf hrun
        cases hy'
        obtain ⟨⟨r, c'⟩, w2⟩ := y
        simp only at h
        have hstep : ∀ n1 cf wf, runR M T env n1 p' d b cf wf = .ok ((r, c'), w2) →
            execR M T (st.put cf) (runR M T env n1) (body env p dst bnd (st.put cf)) wf =
              execR M T (st.put cf) (runR M T env n1) (k r c') w2 := by
          intro n1 cf wf hrun
          rw [hb]
          simp only [execR, hrun]
        have hcalm : (k r c').calm → Again M T env p dst bnd (st.put cf) wf o := by
          intro hc
          rw [execP_calm hc] at h
          exact hlift _ n1 _ _ (by rw [hstep n1 cf wf hrun, execR_calm hc]) h
        cases ha with
        | calm ha => exact hcalm (ha r c')
        | @act a hpa hq hk =>
          by_cases hrs : r = .SUCCESS
          · subst hrs hpa
            obtain ⟨hl, hset, hpr⟩ := Prog.retriable_action hp
            rw [hk] at h
            simp only [execP] at h
            clear hcalm hstep
            have key : ∀ j (mem : Mem) n1 cf wf,
                runR M T env n1 p' d b cf wf = .ok ((.SUCCESS, c'), ⟨w2.ds, mem⟩) →
                (match (match mem.persist T j (.act a d dst bnd) with
                  | .error e => .error e
                  | .ok m => .ok (Step.ret .SUCCESS (st.put c'), (⟨w2.ds, m⟩ : World σ Mem)) :
                    Out σ Mem Step) with
                  | .error e => .error e
                  | .ok (.ret r st', w') => .ok ((r, st'), w')
                  | .ok (.cont st', w') => persisting T env n (.action a p') dst bnd st' w') = o →
                Again M T env (.action a p') dst bnd (st.put cf) wf o := by
              intro j
              induction j with
              | zero => intro mem n1 cf wf _ h; exact absurd h.symm ho
              | succ j ihj =>
                intro mem n1 cf wf hrun h
                have hstep : execR M T (st.put cf) (runR M T env n1)
                    (body env (.action a p') dst bnd (st.put cf)) wf =
                    match mem.throws T (.act a d dst bnd) with
                    | some (.error e) => .error (.err e)
                    | some (.ok mem) => .error (.thrown (st.put c') ⟨w2.ds, mem⟩)
                    | none =>
                      match mem.run (.act a d dst bnd) with
                      | .error e => .error (.err e)
                      | .ok mem => .ok (.ret .SUCCESS (st.put c'), ⟨w2.ds, mem⟩) := by
                  rw [hb]
                  simp only [execR, hrun, hk, throwsOut_eq hl]
                  rfl
                simp only [Mem.persist] at h
                cases ht : mem.throws T (.act a d dst bnd) with
                | none =>
                  rw [ht] at h hstep
                  cases hm : mem.run (.act a d dst bnd) with
                  | error e => simp only [hm] at h hstep; exact hlift (.error e) _ _ _ hstep h
                  | ok m => simp only [hm] at h hstep; exact hlift (.ok _) _ _ _ hstep h
                | some z =>
                  rw [ht] at h hstep
                  cases z with
                  | error e => exact hlift (.error e) _ _ _ hstep h
                  | ok m1 =>
                    obtain ⟨N, hidle⟩ := settles_idle (ok := true) n1 p' hset _ _ _ _ _ _ hrun
                    refine .more (n := n1 + 1) (st' := st.put c') (w' := ⟨w2.ds, m1⟩) ?_
                      (ihj m1 N c' ⟨w2.ds, m1⟩ (hidle N (Nat.le_refl N) m1) h)
                    rw [runR_succ, hstep]
            exact key (n + 1) w2.mem n1 cf wf hrun h
          · exact hcalm (hq r c' hrs)

/-- Both at once. -/
theorem retrying_iff (he : env.retriable') (p) (hp : p.retriable = true) (dst bnd st) (w : World σ Mem)
    (o) : EvalsBy (retrying M T env) p dst bnd st w o ↔ EvalsBy (persisting T env) p dst bnd st w o := by
  rw [again_iff]
  constructor
  · intro h
    induction h with
    | @ok n st w x h => exact ⟨by simp, n, (run_same he n p hp dst bnd st w).1 _ h⟩
    | @err n st w e h hf =>
      exact ⟨by simpa using hf, n, (run_same he n p hp dst bnd st w).2 _ h hf⟩
    | @more n st w st' w' o h _ ih => exact run_thrown he n p hp dst bnd st w _ _ h o ih
  · rintro ⟨ho, n, h⟩
    exact again_of_persisting he n p hp dst bnd st w o h ho

end

/-- Sessions over machines that end alike. -/
theorem SessionBy.congr {σ : Type} [DataSource σ] {f g : Mach σ Mem} {add p dst}
    (hfg : ∀ st w o, EvalsBy f p dst dst st w o → EvalsBy g p dst dst st w o)
    {st w ops v} (h : SessionBy f add p dst st w ops v) : SessionBy g add p dst st w ops v := by
  induction h with
  | nil h => exact .nil h
  | addBad h => exact .addBad h
  | add h _ ih => exact .add h ih
  | error h => exact .error (hfg _ _ _ h)
  | verdict h hr hd => exact .verdict (hfg _ _ _ h) hr hd
  | more h _ ih => exact .more (hfg _ _ _ h) ih

theorem MakeParserRunBy.congr {f g : Mach ContainerSeq Mem} {p dst m ops}
    (hfg : ∀ st w o, EvalsBy f (topParser p) dst dst st w o → EvalsBy g (topParser p) dst dst st w o)
    {v} (h : MakeParserRunBy f p dst m ops v) : MakeParserRunBy g p dst m ops v := by
  cases h with
  | construct h => exact .construct h
  | run h hs => exact .run h (hs.congr hfg)

end Abu
