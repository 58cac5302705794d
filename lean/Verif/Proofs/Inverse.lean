import Verif.Proofs.Alone
/-
The rules for parser classes read backwards: what the parts did when the whole did something.
-/
namespace Abu

section
variable {env : Env} {P : Prog} {dst bnd : Ref} {t : List Ch} {i : Nat} {K : List Nat} {m : Mem}
  {r : Res} {i' : Nat} {L : List Nat} {m' : Mem}

theorem Built.owns {st m1} (h : Built P dst bnd t i m st m1) : Owns env P st (marks P) := by
  have hb := h (fun _ _ _ _ _ => .error .stuck) []
  have ho := mk_owns (call := fun _ _ _ _ _ => .error .stuck) mem_foreignOps env P dst bnd
    (cw t i [] m)
  rw [hb] at ho
  obtain ⟨n, h1, h2, _⟩ := ho
  have := congrArg List.length h2
  simp only [cw, List.append_nil, List.length_replicate] at this
  rw [this]; exact h1

theorem Built.unique {st m1 st2 m2} (h : Built P dst bnd t i m st m1)
    (h2 : Built P dst bnd t i m st2 m2) : st2 = st ∧ m2 = m1 := by
  have e1 := h (fun _ _ _ _ _ => .error .stuck) []
  have e2 := h2 (fun _ _ _ _ _ => .error .stuck) []
  rw [e1] at e2
  simp only [Except.ok.injEq, Prod.mk.injEq, cw, World.mk.injEq] at e2
  exact ⟨e2.1.symm, e2.2.2.symm⟩

/-- A run does not look below its own rollback points. -/
theorem run_split {n st a w' k E} (ho : Owns env P st k) (hk : k ≤ K.length)
    (h : run env n P dst bnd st (cw t i (K ++ E) m) = .ok (a, w')) :
    ∃ i1 L m1, w' = cw t i1 (L ++ E) m1 ∧ Runs env P dst bnd st t i K m a.1 i1 L m1 ∧
      run env n P dst bnd st (cw t i K m) = .ok (a, cw t i1 L m1) := by
  have hfr := run_frame (d := 0) (S0 := E) env n P dst bnd st (s := ⟨t, i, K, true⟩)
    (c := ⟨t, i, K ++ E, true⟩) m ⟨rfl, rfl, by simp, rfl⟩
  have hkp := run_keeps mem_foreignOps env n P dst bnd st (cw t i K m) k 0 ho (by simpa [cw] using hk)
  unfold cw at h hkp
  rw [h] at hfr
  generalize hx : run env n P dst bnd st (⟨⟨t, i, K, true⟩, m⟩ : World Cursor Mem) = x at hfr hkp
  cases hfr with
  | ub => exact absurd rfl hkp.1
  | @ok _ s c m1 hr =>
    obtain ⟨i1, L, m2, heq, hruns⟩ := Runs.of_run (t := t) (i := i) (K := K) (m := m) hx
    refine ⟨i1, L, m2, ?_, hruns, ?_⟩
    · unfold cw at heq ⊢
      simp only [World.mk.injEq] at heq
      obtain ⟨rfl, rfl⟩ := heq
      obtain ⟨h1, h2, h3, h4⟩ := hr
      obtain ⟨ct, cp, cs, cf⟩ := c
      simp only [List.drop_zero, Nat.add_zero, List.map_id_fun', id_eq] at h1 h2 h3 h4
      subst h1 h2 h3 h4
      rfl
    · unfold cw; rw [hx, heq]; rfl

theorem Runs.unbody {st} (h : Runs env P dst bnd st t i K m r i' L m') :
    Fin env P dst bnd (Abu.body env P dst bnd st) t i K m r i' L m' := by
  obtain ⟨n, st', h⟩ := h
  cases n with
  | zero => exact absurd (h []) (by simp [run])
  | succ n => exact ⟨n, st', fun S => by rw [← run_succ_andThen, h S]⟩

theorem Fin.unret {st r1} (h : Fin env P dst bnd (retS r1 st) t i K m r i' L m') :
    r = r1 ∧ i' = i ∧ L = K ∧ m' = m := by
  obtain ⟨n, st', h⟩ := h
  have := h []
  simp only [retS, exec, andThen, Except.ok.injEq, Prod.mk.injEq, cw, World.mk.injEq,
    Cursor.mk.injEq, List.append_nil, true_and, and_true] at this
  obtain ⟨⟨h1, _⟩, ⟨h2, h3⟩, h4⟩ := this
  exact ⟨h1.symm, h2.symm, h3.symm, h4.symm⟩

theorem Fin.uncont {st} (h : Fin env P dst bnd (contS st) t i K m r i' L m') :
    Runs env P dst bnd st t i K m r i' L m' := by
  obtain ⟨n, st', h⟩ := h
  exact ⟨n, st', h⟩

theorem Fin.unmk {p d b} {k : PState → Cmd Step}
    (h : Fin env P dst bnd ((Abu.mk p d b).bind k) t i K m r i' L m') :
    ∃ c m1, Built p d b t i m c m1 ∧
      Fin env P dst bnd (k c) t i (List.replicate (marks p) i ++ K) m1 r i' L m' := by
  obtain ⟨n, st', h⟩ := h
  rcases mk_out (t := t) (i := i) p d b m with ⟨e, he⟩ | ⟨c, m1, hb⟩
  · have := h []
    rw [he.bind] at this
    cases this
  · refine ⟨c, m1, hb, n, st', fun S => ?_⟩
    have := h S
    rw [hb.bind, ← List.append_assoc] at this
    exact this

theorem Fin.unmem {k o} (h : Fin env P dst bnd (.mem o k) t i K m r i' L m') :
    ∃ m1, m.run o = .ok m1 ∧ Fin env P dst bnd k t i K m1 r i' L m' := by
  obtain ⟨n, st', h⟩ := h
  cases ho : m.run o with
  | error e =>
    have := h []
    simp only [exec, cw, Store.op, ho] at this
    cases this
  | ok m1 =>
    refine ⟨m1, rfl, n, st', fun S => ?_⟩
    have := h S
    simp only [exec, cw, Store.op, ho] at this
    exact this

theorem Fin.uncommit {k a} (h : Fin env P dst bnd (.commit k) t i (a :: K) m r i' L m') :
    Fin env P dst bnd k t a K m r i' L m' := h

theorem Fin.uncancel {k a} (h : Fin env P dst bnd (.cancel k) t i (a :: K) m r i' L m') :
    Fin env P dst bnd k t i K m r i' L m' := h

theorem Fin.unprepare {k} (h : Fin env P dst bnd (.prepare k) t i K m r i' L m') :
    Fin env P dst bnd k t i (i :: K) m r i' L m' := h

/-- The rest of an iteration on a given stack. -/
theorem Fin.of_run {x : Cmd Step} {n a w'}
    (h : andThen env n P dst bnd (exec (run env n) x (cw t i K m)) = .ok (a, w')) :
    ∃ i' L m', w' = cw t i' L m' ∧ Fin env P dst bnd x t i K m a.1 i' L m' := by
  cases hx : exec (run env n) x (cw t i K m) with
  | error e => rw [hx] at h; cases h
  | ok y =>
    obtain ⟨s, w1⟩ := y
    have ht := exec_text (run_text env n) _ _ hx
    have hf := exec_final (run_final env n) _ _ hx
    obtain ⟨⟨t1, i1, L1, f1⟩, m1⟩ := w1
    obtain rfl : t1 = t := ht
    obtain rfl : f1 = true := hf
    have hfr : ∀ S, exec (run env n) x (cw t1 i (K ++ S) m) = .ok (s, cw t1 i1 (L1 ++ S) m1) := by
      intro S
      have hfr := exec_frame (d := 0) (S0 := S) (fun p a b st s c m h => run_frame env n p a b st m h)
        x (s := ⟨t1, i, K, true⟩) (c := ⟨t1, i, K ++ S, true⟩) m ⟨rfl, rfl, by simp, rfl⟩
      unfold cw at hx ⊢
      rw [hx] at hfr
      generalize exec (run env n) x (⟨⟨t1, i, K ++ S, true⟩, m⟩ : World Cursor Mem) = y at hfr
      cases hfr with
      | ok _ hr =>
        obtain ⟨h1, h2, h3, h4⟩ := hr
        rename_i c
        obtain ⟨ct, cp, cs, cf⟩ := c
        simp only [List.drop_zero, Nat.add_zero, List.map_id_fun', id_eq] at h1 h2 h3 h4
        subst h1 h2 h3 h4
        rfl
    rw [hx] at h
    cases s with
    | ret r st' =>
      cases h
      exact ⟨i1, L1, m1, rfl, n, st', fun S => by rw [hfr S]; rfl⟩
    | cont st' =>
      obtain ⟨i', L, m', rfl, n2, st2, hr⟩ := Runs.of_run (t := t1) (i := i1) (K := L1) (m := m1) h
      refine ⟨i', L, m', rfl, max n n2, st2, fun S => ?_⟩
      rw [exec_mono (run_mono env (Nat.le_max_left n n2)) _ _ (by rw [hfr S]; simp), hfr S]
      exact (run_mono env (Nat.le_max_right n n2) _ _ _ _ _ (by rw [hr S]; simp)).trans (hr S)

theorem Fin.uncall {p d b c k E} {kk : Res → PState → Cmd Step} (ho : Owns env p c k)
    (hk : k ≤ K.length)
    (h : Fin env P dst bnd (.call p d b c kk) t i (K ++ E) m r i' L m') :
    ∃ r1 i1 K1 m1 c', Runs env p d b c t i K m r1 i1 K1 m1 ∧
      Fin env P dst bnd (kk r1 c') t i1 (K1 ++ E) m1 r i' L m' := by
  obtain ⟨n, st', h⟩ := h
  have h0 := h []
  rw [List.append_nil, List.append_nil] at h0
  simp only [exec] at h0
  cases hr : run env n p d b c (cw t i (K ++ E) m) with
  | error e => rw [hr] at h0; cases h0
  | ok x =>
    obtain ⟨⟨r1, c'⟩, w1⟩ := x
    rw [hr] at h0
    obtain ⟨i1, K1, m1, rfl, hruns, _⟩ := run_split ho hk hr
    refine ⟨r1, i1, K1, m1, c', hruns, ?_⟩
    obtain ⟨i2, L2, m2, heq, hf⟩ := Fin.of_run (t := t) (i := i1) (K := K1 ++ E) (m := m1) h0
    unfold cw at heq
    simp only [World.mk.injEq, Cursor.mk.injEq, true_and, and_true] at heq
    obtain ⟨⟨rfl, rfl⟩, rfl⟩ := heq
    exact hf

theorem Runs.unique {st r2 i2 L2 m2} (h : Runs env P dst bnd st t i K m r i' L m')
    (h2 : Runs env P dst bnd st t i K m r2 i2 L2 m2) : r2 = r ∧ i2 = i' ∧ L2 = L ∧ m2 = m' := by
  obtain ⟨n, st', h⟩ := h
  obtain ⟨n2, st2, h2⟩ := h2
  have e1 := run_mono env (Nat.le_max_left n n2) _ _ _ _ _ (by rw [h []]; simp)
  have e2 := run_mono env (Nat.le_max_right n n2) _ _ _ _ _ (by rw [h2 []]; simp)
  rw [e1, h [], h2 []] at e2
  simp only [Except.ok.injEq, Prod.mk.injEq, cw, World.mk.injEq,
    Cursor.mk.injEq, List.append_nil, true_and, and_true] at e2
  obtain ⟨⟨h1, _⟩, ⟨h2, h3⟩, h4⟩ := e2
  exact ⟨h1.symm, h2.symm, h3.symm, h4.symm⟩

theorem Does.unique {r2 i2 L2 m2} (h : Does env P dst bnd t i m r i' L m')
    (h2 : Does env P dst bnd t i m r2 i2 L2 m2) : r2 = r ∧ i2 = i' ∧ L2 = L ∧ m2 = m' := by
  obtain ⟨st, m1, hb, hr⟩ := h
  obtain ⟨st2, m3, hb2, hr2⟩ := h2
  obtain ⟨rfl, rfl⟩ := hb.unique hb2
  exact hr.unique hr2

/-! ### Parser classes with one child -/

/-- The child of a class that only forwards. -/
theorem Runs.unforward {P' d b c st k} {f : PState → PState}
    (hb : Abu.body env P dst bnd st = Cmd.call P' d b c fun r c' => retS r (f c'))
    (ho : Owns env P' c k) (hk : k ≤ K.length)
    (h : Runs env P dst bnd st t i K m r i' L m') : Runs env P' d b c t i K m r i' L m' := by
  have h := h.unbody
  rw [hb, ← List.append_nil K] at h
  obtain ⟨r1, i1, K1, m1, c', hr, hf⟩ := h.uncall ho hk
  obtain ⟨rfl, rfl, h3, rfl⟩ := hf.unret
  rw [List.append_nil] at h3
  rw [h3]; exact hr

theorem mk_wrap {P' d b} {f : PState → PState} {st m1}
    (hm : Abu.mk P dst bnd = (Abu.mk P' d b).bind fun c => .pure (f c))
    (h : Built P dst bnd t i m st m1) : ∃ c, Built P' d b t i m c m1 ∧ st = f c := by
  rcases mk_out (t := t) (i := i) P' d b m with ⟨e, he⟩ | ⟨c, m2, hb⟩
  · have := h (fun _ _ _ _ _ => .error .stuck) []
    rw [hm, he.bind] at this
    cases this
  · have := h (fun _ _ _ _ _ => .error .stuck) []
    rw [hm, hb.bind] at this
    simp only [exec, Except.ok.injEq, Prod.mk.injEq, cw, World.mk.injEq] at this
    obtain ⟨h1, _, h3⟩ := this
    exact ⟨c, h3 ▸ hb, h1.symm⟩

theorem mk_marked {P' d b} {f : PState → PState} {st m1}
    (hm : Abu.mk P dst bnd = (Abu.mk P' d b).bind fun c => .prepare (.pure (f c)))
    (h : Built P dst bnd t i m st m1) : ∃ c, Built P' d b t i m c m1 ∧ st = f c := by
  rcases mk_out (t := t) (i := i) P' d b m with ⟨e, he⟩ | ⟨c, m2, hb⟩
  · have := h (fun _ _ _ _ _ => .error .stuck) []
    rw [hm, he.bind] at this
    cases this
  · have := h (fun _ _ _ _ _ => .error .stuck) []
    rw [hm, hb.bind] at this
    simp only [exec, Except.ok.injEq, Prod.mk.injEq, cw, World.mk.injEq] at this
    obtain ⟨h1, _, h3⟩ := this
    exact ⟨c, h3 ▸ hb, h1.symm⟩

theorem Does.unlexeme (h : Does env (.lexeme P) dst bnd t i m r i' L m') :
    Does env P dst bnd t i m r i' L m' := by
  obtain ⟨st, m1, hb, hr⟩ := h
  obtain ⟨c, hc, rfl⟩ := mk_wrap (by simp only [Abu.mk]; rfl) hb
  simp only [marks] at hr
  exact ⟨c, m1, hc, hr.unforward (by simp only [Abu.body]; rfl) hc.owns (by simp)⟩

theorem Does.unwithSkipper (h : Does env (.withSkipper P) dst bnd t i m r i' L m') :
    Does env P dst bnd t i m r i' L m' := by
  obtain ⟨st, m1, hb, hr⟩ := h
  obtain ⟨c, hc, rfl⟩ := mk_wrap (by simp only [Abu.mk]; rfl) hb
  simp only [marks] at hr
  exact ⟨c, m1, hc, hr.unforward (by simp only [Abu.body]; rfl) hc.owns (by simp)⟩

theorem Does.undiscard (h : Does env (.discard P) dst bnd t i m r i' L m') :
    Does env P .nil bnd t i m r i' L m' := by
  obtain ⟨st, m1, hb, hr⟩ := h
  obtain ⟨c, hc, rfl⟩ := mk_wrap (by simp only [Abu.mk]; rfl) hb
  simp only [marks] at hr
  exact ⟨c, m1, hc, hr.unforward (by simp only [Abu.body]; rfl) hc.owns (by simp)⟩

theorem Does.unbindDst (h : Does env (.bindDst P) dst bnd t i m r i' L m') :
    Does env P dst dst t i m r i' L m' := by
  obtain ⟨st, m1, hb, hr⟩ := h
  obtain ⟨c, hc, rfl⟩ := mk_wrap (by simp only [Abu.mk]; rfl) hb
  simp only [marks] at hr
  exact ⟨c, m1, hc, hr.unforward (by simp only [Abu.body]; rfl) hc.owns (by simp)⟩

theorem mk_buffered {P' b} {ty : Ty} {st m1}
    (hm : Abu.mk P dst bnd = .alloc ty fun d => (Abu.mk P' d b).bind fun c => .pure (.buffered d c))
    (h : Built P dst bnd t i m st m1) :
    ∃ c, Built P' (m.alloc ty).1 b t i (m.alloc ty).2 c m1 ∧ st = .buffered (m.alloc ty).1 c := by
  rcases mk_out (t := t) (i := i) P' (m.alloc ty).1 b (m.alloc ty).2 with ⟨e, he⟩ | ⟨c, m2, hb⟩
  · have := h (fun _ _ _ _ _ => .error .stuck) []
    rw [hm] at this
    simp only [exec] at this
    have h2 := he.bind (fun _ _ _ _ _ => .error .stuck)
      (fun c => Cmd.pure (PState.buffered (m.alloc ty).1 c)) []
    unfold cw at h2 this
    simp only [Store.alloc] at this
    rw [h2] at this
    cases this
  · have := h (fun _ _ _ _ _ => .error .stuck) []
    rw [hm] at this
    simp only [exec] at this
    have h2 := hb.bind (fun _ _ _ _ _ => .error .stuck)
      (fun c => Cmd.pure (PState.buffered (m.alloc ty).1 c)) []
    unfold cw at h2 this
    simp only [Store.alloc] at this
    rw [h2] at this
    simp only [exec, Except.ok.injEq, Prod.mk.injEq, World.mk.injEq] at this
    obtain ⟨h1, _, h3⟩ := this
    exact ⟨c, h3 ▸ hb, h1.symm⟩

/-- The child of a class with a buffer. -/
theorem Runs.unbuffered {P' buf b c st k o} 
    (hb : Abu.body env P dst bnd st = Cmd.call P' buf b c fun r c' =>
      match r with
      | .SUCCESS => .mem o (retS .SUCCESS (.buffered buf c'))
      | r => retS r (.buffered buf c'))
    (ho : Owns env P' c k) (hk : k ≤ K.length)
    (h : Runs env P dst bnd st t i K m r i' L m') :
    ∃ m1, Runs env P' buf b c t i K m r i' L m1 ∧ (r = .SUCCESS → m1.run o = .ok m') ∧
      (r ≠ .SUCCESS → m' = m1) := by
  have h := h.unbody
  rw [hb, ← List.append_nil K] at h
  obtain ⟨r1, i1, K1, m1, c', hr, hf⟩ := h.uncall ho hk
  rw [List.append_nil] at hf
  cases r1 with
  | SUCCESS =>
    obtain ⟨m2, ho, hf⟩ := Fin.unmem hf
    obtain ⟨rfl, rfl, rfl, rfl⟩ := hf.unret
    exact ⟨m1, hr, fun _ => ho, fun h => absurd rfl h⟩
  | FAILURE =>
    obtain ⟨rfl, rfl, rfl, rfl⟩ := Fin.unret hf
    exact ⟨_, hr, fun h => by simp at h, fun _ => rfl⟩
  | PARTIAL =>
    obtain ⟨rfl, rfl, rfl, rfl⟩ := Fin.unret hf
    exact ⟨_, hr, fun h => by simp at h, fun _ => rfl⟩

theorem Does.unaction {a} (h : Does env (.action a P) dst bnd t i m r i' L m') :
    ∃ m1, Does env P (m.alloc a.landing).1 bnd t i (m.alloc a.landing).2 r i' L m1 ∧
      (r = .SUCCESS → m1.act a (m.alloc a.landing).1 dst bnd = .ok m') ∧ (r ≠ .SUCCESS → m' = m1) := by
  obtain ⟨st, m1, hb, hr⟩ := h
  obtain ⟨c, hc, rfl⟩ := mk_buffered (by simp only [Abu.mk]; rfl) hb
  simp only [marks] at hr
  obtain ⟨m2, hr, h1, h2⟩ := hr.unbuffered (P' := P) (buf := (m.alloc a.landing).1) (b := bnd) (c := c)
    (o := .act a (m.alloc a.landing).1 dst bnd) (by simp only [Abu.body]; rfl) hc.owns (by simp)
  exact ⟨m2, ⟨c, m1, hc, hr⟩, h1, h2⟩

theorem Does.unconstr {tys} (h : Does env (.construct tys P) dst bnd t i m r i' L m') :
    ∃ m1, Does env P (m.alloc (.tup tys)).1 bnd t i (m.alloc (.tup tys)).2 r i' L m1 ∧
      (r = .SUCCESS → m1.construct dst (m.alloc (.tup tys)).1 = .ok m') ∧ (r ≠ .SUCCESS → m' = m1) := by
  obtain ⟨st, m1, hb, hr⟩ := h
  obtain ⟨c, hc, rfl⟩ := mk_buffered (by simp only [Abu.mk]; rfl) hb
  simp only [marks] at hr
  obtain ⟨m2, hr, h1, h2⟩ := hr.unbuffered (P' := P) (buf := (m.alloc (.tup tys)).1) (b := bnd) (c := c)
    (o := .construct dst (m.alloc (.tup tys)).1) (by simp only [Abu.body]; rfl) hc.owns (by simp)
  exact ⟨m2, ⟨c, m1, hc, hr⟩, h1, h2⟩

theorem Does.unatomic (h : Does env (.atomic P) dst bnd t i m r i' L m') :
    ∃ m1, Does env P (m.alloc dst.valueType).1 bnd t i (m.alloc dst.valueType).2 r i' L m1 ∧
      (r = .SUCCESS → m1.assignFrom dst (m.alloc dst.valueType).1 = .ok m') ∧
      (r ≠ .SUCCESS → m' = m1) := by
  obtain ⟨st, m1, hb, hr⟩ := h
  obtain ⟨c, hc, rfl⟩ := mk_buffered (by simp only [Abu.mk]; rfl) hb
  simp only [marks] at hr
  obtain ⟨m2, hr, h1, h2⟩ := hr.unbuffered (P' := P) (buf := (m.alloc dst.valueType).1) (b := bnd) (c := c)
    (o := .move dst (m.alloc dst.valueType).1) (by simp only [Abu.body]; rfl) hc.owns (by simp)
  exact ⟨m2, ⟨c, m1, hc, hr⟩, h1, h2⟩

theorem Does.unclean (hp : r ≠ .PARTIAL) (h : Does env (.clean P) dst bnd t i m r i' L m') :
    ∃ i1 L1 a, Does env P dst bnd t i m r i1 L1 m' ∧ L1 ++ [i] = a :: L ∧
      i' = if r = .SUCCESS then i1 else a := by
  obtain ⟨st, m1, hb, hr⟩ := h
  obtain ⟨c, hc, rfl⟩ := mk_marked (by simp only [Abu.mk]; rfl) hb
  simp only [marks] at hr
  have hr := hr.unbody
  simp only [Abu.body, List.replicate_succ'] at hr
  obtain ⟨r1, i1, K1, m2, c', hr, hf⟩ := hr.uncall (k := marks P) hc.owns (by simp)
  have hd : Does env P dst bnd t i m r1 i1 K1 m2 := ⟨c, m1, hc, hr⟩
  obtain ⟨a, L', hL⟩ : ∃ a L', K1 ++ [i] = a :: L' := by
    cases K1 with
    | nil => exact ⟨i, [], rfl⟩
    | cons a K => exact ⟨a, _, rfl⟩
  cases r1 with
  | SUCCESS =>
    simp only at hf
    rw [hL] at hf
    obtain ⟨rfl, rfl, rfl, rfl⟩ := hf.uncancel.unret
    exact ⟨_, K1, a, hd, hL, by simp⟩
  | FAILURE =>
    simp only at hf
    rw [hL] at hf
    obtain ⟨rfl, rfl, rfl, rfl⟩ := hf.uncommit.unret
    exact ⟨_, K1, _, hd, hL, by simp⟩
  | PARTIAL =>
    obtain ⟨rfl, _⟩ := Fin.unret hf
    exact absurd rfl hp

theorem Does.unexcept {Q} (hp : r ≠ .PARTIAL)
    (h : Does env (.except P Q) dst bnd t i m r i' L m') :
    (r = .FAILURE ∧ Does env Q .nil bnd t i m .SUCCESS i' L m') ∨
    ∃ i1 L1 m1 L2, Does env Q .nil bnd t i m .FAILURE i1 L1 m1 ∧
      Does env P dst bnd t i1 m1 r i' L2 m' ∧ L = L2 ++ L1 := by
  obtain ⟨st, m1, hb, hr⟩ := h
  obtain ⟨c, hc, rfl⟩ := mk_wrap (by simp only [Abu.mk]; rfl) hb
  simp only [marks] at hr
  have hr := hr.unbody
  simp only [Abu.body] at hr
  rw [← List.append_nil (List.replicate _ _)] at hr
  obtain ⟨r1, i1, K1, m2, c', hr, hf⟩ := hr.uncall (k := marks Q) hc.owns (by simp)
  rw [List.append_nil] at hf
  have hd : Does env Q .nil bnd t i m r1 i1 K1 m2 := ⟨c, m1, hc, hr⟩
  cases r1 with
  | SUCCESS =>
    obtain ⟨rfl, rfl, rfl, rfl⟩ := Fin.unret hf
    exact .inl ⟨rfl, hd⟩
  | PARTIAL =>
    obtain ⟨rfl, _⟩ := Fin.unret hf
    exact absurd rfl hp
  | FAILURE =>
    right
    obtain ⟨c2, m3, hb2, hf⟩ := Fin.unmk hf
    have hf := hf.uncont.unbody
    simp only [Abu.body] at hf
    obtain ⟨r2, i2, K2, m4, c3, hr2, hf⟩ := hf.uncall (k := marks P) hb2.owns (by simp)
    obtain ⟨rfl, rfl, rfl, rfl⟩ := Fin.unret hf
    exact ⟨i1, K1, m2, K2, hd, ⟨c2, m3, hb2, hr2⟩, rfl⟩

theorem Does.unrecur {id sk} (h : Does env (.recur id sk) dst bnd t i m r i' L m') :
    ∃ q, env id = some q ∧ Does env (elabP sk RecurChildReqs q) dst bnd t i m r i' L m' := by
  obtain ⟨st, m1, hb, hr⟩ := h
  obtain ⟨rfl, rfl⟩ := Built.recur.unique hb
  simp only [marks] at hr
  have hr := hr.unbody
  simp only [Abu.body] at hr
  cases hq : env id with
  | none =>
    rw [hq] at hr
    obtain ⟨n, st', h⟩ := hr
    have := h []
    cases this
  | some q =>
    rw [hq] at hr
    obtain ⟨c2, m3, hb2, hf⟩ := Fin.unmk hr
    have hf := hf.uncont.unbody
    simp only [Abu.body, hq] at hf
    obtain ⟨r2, i2, K2, m4, c3, hr2, hf⟩ := hf.uncall
      (k := marks (elabP sk RecurChildReqs q)) hb2.owns (by simp)
    obtain ⟨rfl, rfl, rfl, rfl⟩ := Fin.unret hf
    refine ⟨q, rfl, c2, _, hb2, ?_⟩
    simpa using hr2

/-! ### Alternatives -/

theorem AltDoes.of_runs {Ps0 : List Prog} (hp : r ≠ .PARTIAL) {n : Nat} :
    ∀ {k : Nat} {Q : Prog} {c : PState} {m0 E i m st' w'}, Ps0[k]? = some Q →
      Built Q dst bnd t i m0 c m →
      run env n (.alt Ps0) dst bnd (.alt k c) (cw t i (List.replicate (marks Q) i ++ E) m) =
        .ok ((r, st'), w') →
      AltDoes env dst bnd t (Ps0.drop k) i E m0 r w'.ds.pos w'.ds.saved w'.mem := by
  induction n with
  | zero => intro k Q c m0 E i m st' w' _ _ h; cases h
  | succ n ih =>
    intro k Q c m0 E i m st' w' hQ hb h
    rw [run_succ_andThen] at h
    simp only [Abu.body, hQ, exec] at h
    obtain ⟨as, hdrop⟩ : ∃ as, Ps0.drop k = Q :: as := by
      refine ⟨Ps0.drop (k + 1), ?_⟩
      obtain ⟨hlt, rfl⟩ := List.getElem?_eq_some_iff.1 hQ
      exact List.drop_eq_getElem_cons hlt
    have hdrop2 := (getElem?_of_drop hdrop).2
    cases hr : run env n Q dst bnd c (cw t i (List.replicate (marks Q) i ++ E) m) with
    | error e => rw [hr] at h; cases h
    | ok x =>
      obtain ⟨⟨r1, c'⟩, w1⟩ := x
      rw [hr] at h
      obtain ⟨i1, K1, m1, rfl, hruns, _⟩ := run_split (k := marks Q) hb.owns (by simp) hr
      have hd : Does env Q dst bnd t i m0 r1 i1 K1 m1 := ⟨c, m, hb, hruns⟩
      rw [hdrop]
      cases r1 with
      | SUCCESS => cases h; exact .here hd
      | PARTIAL => cases h; exact absurd rfl hp
      | FAILURE =>
        simp only at h
        cases hQ2 : Ps0[k + 1]? with
        | none =>
          rw [hQ2] at h
          have : as = [] := by
            rw [← hdrop2, List.drop_eq_nil_iff]
            exact List.getElem?_eq_none_iff.1 hQ2
          subst this
          cases h
          exact .last hd
        | some Q2 =>
          rw [hQ2] at h
          simp only at h
          rcases mk_out (t := t) (i := i1) Q2 dst bnd m1 with ⟨e, he⟩ | ⟨c2, m2, hb2⟩
          · rw [he.bind] at h; cases h
          · rw [hb2.bind] at h
            have := ih hQ2 hb2 h
            rw [hdrop2] at this
            exact .cons hd this

theorem Does.unalt {Ps} (hp : r ≠ .PARTIAL) (h : Does env (.alt Ps) dst bnd t i m r i' L m') :
    AltDoes env dst bnd t Ps i [] m r i' L m' := by
  obtain ⟨st, m1, hb, n, st', hr⟩ := h
  cases Ps with
  | nil =>
    have := hb (fun _ _ _ _ _ => .error .stuck) []
    simp only [Abu.mk] at this
    cases this
  | cons P Ps =>
    obtain ⟨c, hc, rfl⟩ := mk_wrap (by simp only [Abu.mk]; rfl) hb
    simp only [marks] at hr
    have := AltDoes.of_runs (k := 0) (Q := P) hp rfl hc (hr [])
    simpa [cw] using this

end

/-! ### Smaller memories -/

/-- What happens in a large memory happens in the part of it that is used. -/
theorem Does.unmove {env : Env} {P : Prog} {dst bnd : Ref} {t : List Ch} {i : Nat} {m : Mem}
    {r : Res} {i' : Nat} {L : List Nat} {φ k k' M bnd' M'}
    (h : Does env P (dst.move φ) bnd' t i M r i' L M') (hφ : φ.Ok k k')
    (hm : MemR φ k k' m M) (hb : BndR env φ P bnd bnd') :
    ∃ m', Does env P dst bnd t i m r i' L m' ∧ MemR φ k k' m' M' := by
  obtain ⟨st, M1, n, st', hc, hr⟩ := h.construct []
  have h1 := construct_move hφ P dst bnd bnd' (ds := (cw t i [] m).ds) hm
  have ho := mk_owns (call := fun _ _ _ _ _ => .error .stuck) mem_foreignOps env P dst bnd
    (cw t i [] m)
  change Post _ _ (Abu.construct P dst bnd (cw t i [] m)) at ho
  rw [show (⟨(cw t i [] m).ds, M⟩ : World Cursor Mem) = cw t i [] M from rfl, hc,
    show (⟨(cw t i [] m).ds, m⟩ : World Cursor Mem) = cw t i [] m from rfl] at h1
  generalize hcc : Abu.construct P dst bnd (cw t i [] m) = y at h1 ho
  generalize hz : (Except.ok (st, cw t i (List.replicate (marks P) i ++ []) M1) :
    Out Cursor Mem PState) = z at h1
  cases h1 with
  | error => cases hz
  | @ok st0 ds1 m1 M2 hm1 =>
    simp only [Except.ok.injEq, Prod.mk.injEq] at hz
    obtain ⟨rfl, hz⟩ := hz
    unfold cw at hz
    simp only [World.mk.injEq] at hz
    obtain ⟨rfl, rfl⟩ := hz
    obtain ⟨kk, ho, hs, _⟩ := ho
    have h2 := consume_move hφ n P dst bnd bnd' st0
      (ds := (⟨t, i, List.replicate (marks P) i ++ [], true⟩ : Cursor)) hb hm1
    have hkp := run_keeps mem_foreignOps env n P dst bnd st0
      (⟨⟨t, i, List.replicate (marks P) i ++ [], true⟩, m1⟩ : World Cursor Mem) kk 0 ho
      (by simp only [cw, List.append_nil] at hs ⊢; rw [hs]; simp)
    unfold cw at hr
    rw [hr] at h2
    generalize hrr : run env n P dst bnd st0
      (⟨⟨t, i, List.replicate (marks P) i ++ [], true⟩, m1⟩ : World Cursor Mem) = y at h2 hkp
    generalize hz : (Except.ok ((r, st'), (⟨⟨t, i', L ++ [], true⟩, M'⟩ : World Cursor Mem)) :
      Out Cursor Mem (Res × PState)) = z at h2
    cases h2 with
    | error => cases hz
    | @ok a ds2 m2 M3 hm2 =>
      simp only [Except.ok.injEq, Prod.mk.injEq, World.mk.injEq] at hz
      obtain ⟨⟨rfl, _⟩, rfl, rfl⟩ := hz
      obtain ⟨i2, L2, m3, heq, hd⟩ := Does.intro (t := t) (i := i) hcc hrr
      unfold cw at heq
      simp only [World.mk.injEq, Cursor.mk.injEq, List.append_nil, true_and, and_true] at heq
      obtain ⟨⟨rfl, rfl⟩, rfl⟩ := heq
      exact ⟨_, hd, hm2⟩

end Abu
