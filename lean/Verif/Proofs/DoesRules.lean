import Verif.Proofs.Does
/-
What one use of a parser does, continued: between `parse` and parts of a parse, at other places in
the text and in memory; rules for the parser classes.
-/
namespace Abu

section
variable {env : Env} {P : Prog} {dst bnd : Ref} {t : List Ch} {i : Nat} {m : Mem}
  {r : Res} {i' : Nat} {L : List Nat} {m' : Mem}

theorem Does.construct (h : Does env P dst bnd t i m r i' L m') (S : List Nat) :
    ∃ st m1 n st', Abu.construct P dst bnd (cw t i S m) =
        .ok (st, cw t i (List.replicate (marks P) i ++ S) m1) ∧
      run env n P dst bnd st (cw t i (List.replicate (marks P) i ++ S) m1) =
        .ok ((r, st'), cw t i' (L ++ S) m') := by
  obtain ⟨st, m1, hb, n, st', hr⟩ := h
  exact ⟨st, m1, n, st', hb _ S, hr S⟩

/-- The same in the middle of a longer text. -/
theorem Does.shift {T d} (h : Does env P dst bnd t i m r i' L m') (ht : T.drop d = t) :
    Does env P dst bnd T (i + d) m r (i' + d) (L.map (· + d)) m' := by
  obtain ⟨st, m1, n, st', hc, hr⟩ := h.construct []
  rw [List.append_nil] at hc hr
  rw [List.append_nil] at hr
  have hfc := construct_frame (d := d) (S0 := []) P dst bnd (s := ⟨t, i, [], true⟩)
    (c := ⟨T, i + d, [], true⟩) m ⟨ht.symm, rfl, rfl, rfl⟩
  unfold cw at hc hr
  rw [hc] at hfc
  generalize hcc : Abu.construct P dst bnd (⟨⟨T, i + d, [], true⟩, m⟩ : World Cursor Mem) = y at hfc
  cases hfc with
  | @ok _ _ c1 _ hr1 =>
    have hfr := run_frame env n P dst bnd st m1 hr1
    rw [hr] at hfr
    generalize hrr : run env n P dst bnd st (⟨c1, m1⟩ : World Cursor Mem) = y at hfr
    cases hfr with
    | @ok _ _ c2 _ hr2 =>
      obtain ⟨i2, L2, m2, heq, hd⟩ := Does.intro hcc hrr
      obtain ⟨_, h2, h3, _⟩ := hr2
      unfold cw at heq
      simp only [World.mk.injEq] at heq
      obtain ⟨rfl, rfl⟩ := heq
      simp only [List.append_nil] at h2 h3
      subst h2 h3
      exact hd

/-- A complete parse is one use of a parser. -/
theorem Parses.does {p T rest} (h : Parses env p dst m t (.ok (r, m', rest))) (ht : T.drop i = t) :
    ∃ i' L, Does env (topParser p) dst dst T i m r i' L m' ∧ T.drop i' = rest ∧ i ≤ i' := by
  rw [parses_iff_cursor] at h
  unfold CursorParses at h
  cases hc : Abu.construct (topParser p) dst dst (⟨Cursor.whole t, m⟩ : World Cursor Mem) with
  | error e => rw [hc] at h; cases h
  | ok x =>
    obtain ⟨st, w1⟩ := x
    rw [hc] at h
    obtain ⟨o, ⟨_, n, hn⟩, he⟩ := h
    generalize hv : (Except.ok (r, m', rest) : Verdict) = v at he
    cases he with
    | error => cases hv
    | @ok _ st' w' rest' more hrd =>
      simp only [Except.ok.injEq, Prod.mk.injEq, List.append_nil] at hv
      obtain ⟨rfl, rfl, rfl⟩ := hv
      obtain ⟨i1, L1, m2, rfl, hd⟩ := Does.intro (t := t) (i := 0) (m := m) hc hn
      refine ⟨i1 + i, L1.map (· + i), ?_, ?_, Nat.le_add_left _ _⟩
      · have := hd.shift ht
        rw [Nat.zero_add] at this
        exact this
      · rw [← (Cursor.reads_drop _).unique hrd]
        simp only [cw]
        rw [← ht, List.drop_drop, Nat.add_comm]

theorem Does.parses {p} (h : Does env (topParser p) dst dst t 0 m r i' L m') :
    Parses env p dst m t (.ok (r, m', t.drop i')) := by
  obtain ⟨st, m1, n, st', hc, hr⟩ := h.construct []
  exact Parses.of_run hc hr

/-- The same somewhere else in memory. -/
theorem Does.move {φ k k' M bnd'} (h : Does env P dst bnd t i m r i' L m') (hφ : φ.Ok k k')
    (hm : MemR φ k k' m M) (hb : BndR env φ P bnd bnd') :
    ∃ M', Does env P (dst.move φ) bnd' t i M r i' L M' ∧ MemR φ k k' m' M' := by
  obtain ⟨st, m1, n, st', hc, hr⟩ := h.construct []
  have h1 := construct_move hφ P dst bnd bnd' (ds := (cw t i [] m).ds) hm
  rw [show (⟨(cw t i [] m).ds, m⟩ : World Cursor Mem) = cw t i [] m from rfl, hc] at h1
  generalize hcc : Abu.construct P (dst.move φ) bnd' (⟨(cw t i [] m).ds, M⟩ : World Cursor Mem) = y at h1
  cases h1 with
  | @ok _ _ _ M1 hm1 =>
    have h2 := consume_move hφ n P dst bnd bnd' st
      (ds := (cw t i (List.replicate (marks P) i ++ []) m1).ds) hb hm1
    rw [show (⟨(cw t i (List.replicate (marks P) i ++ []) m1).ds, m1⟩ : World Cursor Mem) =
      cw t i (List.replicate (marks P) i ++ []) m1 from rfl, hr] at h2
    generalize hrr : run env n P (dst.move φ) bnd' (st.move φ)
      (⟨(cw t i (List.replicate (marks P) i ++ []) m1).ds, M1⟩ : World Cursor Mem) = y at h2
    cases h2 with
    | ok _ _ hm2 =>
      obtain ⟨i2, L2, m2, heq, hd⟩ := Does.intro (t := t) (i := i) hcc hrr
      unfold cw at heq
      simp only [World.mk.injEq, Cursor.mk.injEq, List.append_nil, true_and, and_true] at heq
      obtain ⟨⟨rfl, rfl⟩, rfl⟩ := heq
      exact ⟨_, hd, hm2⟩

/-- What is elsewhere stays as it is. -/
theorem Does.keeps {o q v} (h : Does env P dst bnd t i m r i' L m') (hd : dst.Misses o q ∨ P.silent = true)
    (hq : P.quiet = true) (he : env.quiet) (hv : m.look o q = .ok v) : m'.look o q = .ok v := by
  obtain ⟨st, m1, n, st', hc, hr⟩ := h.construct []
  have hJ := misses_keeps o q v
  have hS := misses_region o q
  obtain ⟨h1, h2⟩ := construct_uses hS hJ hd (w := cw t i [] m) hv hc
  exact (run_uses hS hJ n hd (.inr ⟨hq, he.prog⟩) h1 h2 hr).2

theorem Does.keeps_eq {o q} (h : Does env P dst bnd t i m r i' L m') (hd : dst.Misses o q ∨ P.silent = true)
    (hq : P.quiet = true) (he : env.quiet) (hv : o < m.objs.length) :
    o < m'.objs.length ∧ m'.look o q = m.look o q := by
  obtain ⟨st, m1, n, st', hc, hr⟩ := h.construct []
  have hJ := misses_keeps_eq o q (m.look o q)
  have hS := misses_region o q
  obtain ⟨h1, h2⟩ := construct_uses hS hJ hd (w := cw t i [] m) ⟨hv, rfl⟩ hc
  exact (run_uses hS hJ n hd (.inr ⟨hq, he.prog⟩) h1 h2 hr).2

theorem Does.extends_af (h : Does env P dst bnd t i m .FAILURE i' L m') (hd : P.af = true)
    (hq : P.quiet = true) (he : env.quiet) {o q v} (hv : m.look o q = .ok v) :
    m'.look o q = .ok v := by
  obtain ⟨st, m1, n, st', hc, hr⟩ := h.construct []
  have hJ := misses_keeps o q v
  have hS := misses_region o q
  obtain ⟨h1, h2⟩ := construct_af hS hJ hd (w := cw t i [] m) hv hc
  exact (run_af hS hJ n hd (.inr ⟨hq, he.prog⟩) h1 h2 hr (by simp)).2

/-! ### Rules -/

theorem replicate_cons_comm (n i : Nat) (S : List Nat) :
    List.replicate (n + 1) i ++ S = List.replicate n i ++ ([i] ++ S) := by
  rw [← List.append_assoc, ← List.replicate_succ']

/-- The `consume` of a class that only forwards. -/
theorem Runs.forward {P' d b c st K} 
    (hb : Abu.body env P dst bnd st = Cmd.call P' d b c fun r c' => retS r (.wrap c'))
    (h : Runs env P' d b c t i K m r i' L m') : Runs env P dst bnd st t i K m r i' L m' := by
  refine .body ?_
  rw [hb, ← List.append_nil K]
  refine Fin.call h fun c' => ?_
  rw [List.append_nil]
  exact .ret

theorem Does.lexeme (h : Does env P dst bnd t i m r i' L m') :
    Does env (.lexeme P) dst bnd t i m r i' L m' := by
  obtain ⟨st, m1, hb, hr⟩ := h
  refine ⟨_, _, hb.lexeme, ?_⟩
  simp only [marks]
  exact hr.forward (by simp only [Abu.body])

theorem Does.withSkipper (h : Does env P dst bnd t i m r i' L m') :
    Does env (.withSkipper P) dst bnd t i m r i' L m' := by
  obtain ⟨st, m1, hb, hr⟩ := h
  refine ⟨_, _, hb.withSkipper, ?_⟩
  simp only [marks]
  exact hr.forward (by simp only [Abu.body])

theorem Does.discard (h : Does env P .nil bnd t i m r i' L m') :
    Does env (.discard P) dst bnd t i m r i' L m' := by
  obtain ⟨st, m1, hb, hr⟩ := h
  refine ⟨_, _, hb.discard, ?_⟩
  simp only [marks]
  exact hr.forward (by simp only [Abu.body])

theorem Does.bindDst (h : Does env P dst dst t i m r i' L m') :
    Does env (.bindDst P) dst bnd t i m r i' L m' := by
  obtain ⟨st, m1, hb, hr⟩ := h
  refine ⟨_, _, hb.bindDst, ?_⟩
  simp only [marks]
  exact hr.forward (by simp only [Abu.body])

theorem Does.action {a m1 m2} (h : Does env P (m.alloc a.landing).1 bnd t i (m.alloc a.landing).2 .SUCCESS i' L m1)
    (ha : m1.act a (m.alloc a.landing).1 dst bnd = .ok m2) :
    Does env (.action a P) dst bnd t i m .SUCCESS i' L m2 := by
  obtain ⟨st, m0, hb, hr⟩ := h
  refine ⟨_, _, hb.action, .body ?_⟩
  simp only [marks, Abu.body]
  rw [← List.append_nil (List.replicate _ _)]
  refine Fin.call hr fun c' => ?_
  rw [List.append_nil]
  exact Fin.mem ha .ret

theorem Does.action_fail {a} (h : Does env P (m.alloc a.landing).1 bnd t i (m.alloc a.landing).2 .FAILURE i' L m') :
    Does env (.action a P) dst bnd t i m .FAILURE i' L m' := by
  obtain ⟨st, m0, hb, hr⟩ := h
  refine ⟨_, _, hb.action, .body ?_⟩
  simp only [marks, Abu.body]
  rw [← List.append_nil (List.replicate _ _)]
  refine Fin.call hr fun c' => ?_
  rw [List.append_nil]
  exact .ret

theorem Does.constr {tys m1 m2}
    (h : Does env P (m.alloc (.tup tys)).1 bnd t i (m.alloc (.tup tys)).2 .SUCCESS i' L m1)
    (ha : m1.construct dst (m.alloc (.tup tys)).1 = .ok m2) :
    Does env (.construct tys P) dst bnd t i m .SUCCESS i' L m2 := by
  obtain ⟨st, m0, hb, hr⟩ := h
  refine ⟨_, _, hb.construct, .body ?_⟩
  simp only [marks, Abu.body]
  rw [← List.append_nil (List.replicate _ _)]
  refine Fin.call hr fun c' => ?_
  rw [List.append_nil]
  exact Fin.mem ha .ret

theorem Does.constr_fail {tys}
    (h : Does env P (m.alloc (.tup tys)).1 bnd t i (m.alloc (.tup tys)).2 .FAILURE i' L m') :
    Does env (.construct tys P) dst bnd t i m .FAILURE i' L m' := by
  obtain ⟨st, m0, hb, hr⟩ := h
  refine ⟨_, _, hb.construct, .body ?_⟩
  simp only [marks, Abu.body]
  rw [← List.append_nil (List.replicate _ _)]
  refine Fin.call hr fun c' => ?_
  rw [List.append_nil]
  exact .ret

theorem Does.atomic {m1 m2}
    (h : Does env P (m.alloc dst.valueType).1 bnd t i (m.alloc dst.valueType).2 .SUCCESS i' L m1)
    (ha : m1.assignFrom dst (m.alloc dst.valueType).1 = .ok m2) :
    Does env (.atomic P) dst bnd t i m .SUCCESS i' L m2 := by
  obtain ⟨st, m0, hb, hr⟩ := h
  refine ⟨_, _, hb.atomic, .body ?_⟩
  simp only [marks, Abu.body]
  rw [← List.append_nil (List.replicate _ _)]
  refine Fin.call hr fun c' => ?_
  rw [List.append_nil]
  exact Fin.mem ha .ret

theorem Does.atomic_fail
    (h : Does env P (m.alloc dst.valueType).1 bnd t i (m.alloc dst.valueType).2 .FAILURE i' L m') :
    Does env (.atomic P) dst bnd t i m .FAILURE i' L m' := by
  obtain ⟨st, m0, hb, hr⟩ := h
  refine ⟨_, _, hb.atomic, .body ?_⟩
  simp only [marks, Abu.body]
  rw [← List.append_nil (List.replicate _ _)]
  refine Fin.call hr fun c' => ?_
  rw [List.append_nil]
  exact .ret

/-- The `consume` of a class that makes a rollback point after its child. -/
theorem Fin.call_marked {P' d b c r1 i1 K1 m1} {k : Res → PState → Cmd Step}
    (hr : Runs env P' d b c t i (List.replicate (marks P') i) m r1 i1 K1 m1)
    (h : ∀ c', Fin env P dst bnd (k r1 c') t i1 (K1 ++ [i]) m1 r i' L m') :
    Fin env P dst bnd (.call P' d b c k) t i (List.replicate (marks P' + 1) i) m r i' L m' := by
  rw [List.replicate_succ']
  exact Fin.call hr h

theorem Does.clean_succ {a L'} (h : Does env P dst bnd t i m .SUCCESS i' L m')
    (hL : L ++ [i] = a :: L') : Does env (.clean P) dst bnd t i m .SUCCESS i' L' m' := by
  obtain ⟨st, m0, hb, hr⟩ := h
  refine ⟨_, _, hb.clean, .body ?_⟩
  simp only [marks, Abu.body]
  refine Fin.call_marked hr fun c' => ?_
  rw [hL]
  exact .cancel .ret

theorem Does.clean_fail {a L'} (h : Does env P dst bnd t i m .FAILURE i' L m')
    (hL : L ++ [i] = a :: L') : Does env (.clean P) dst bnd t i m .FAILURE a L' m' := by
  obtain ⟨st, m0, hb, hr⟩ := h
  refine ⟨_, _, hb.clean, .body ?_⟩
  simp only [marks, Abu.body]
  refine Fin.call_marked hr fun c' => ?_
  rw [hL]
  exact .commit .ret

theorem Does.opt_succ (h : Does env P dst bnd t i m .SUCCESS i' L m') :
    Does env (.opt P) dst bnd t i m .SUCCESS i' (L ++ [i]) m' := by
  obtain ⟨st, m0, hb, hr⟩ := h
  refine ⟨_, _, hb.opt, .body ?_⟩
  simp only [marks, Abu.body]
  refine Fin.call_marked hr fun c' => ?_
  exact .ret

theorem Does.opt_fail {a L'} (h : Does env P dst bnd t i m .FAILURE i' L m')
    (hL : L ++ [i] = a :: L') : Does env (.opt P) dst bnd t i m .SUCCESS a L' m' := by
  obtain ⟨st, m0, hb, hr⟩ := h
  refine ⟨_, _, hb.opt, .body ?_⟩
  simp only [marks, Abu.body]
  refine Fin.call_marked hr fun c' => ?_
  rw [hL]
  exact .commit .ret

theorem Does.not_succ {a L'} (h : Does env P dst bnd t i m .SUCCESS i' L m')
    (hL : L ++ [i] = a :: L') : Does env (.not P) dst bnd t i m .FAILURE a L' m' := by
  obtain ⟨st, m0, hb, hr⟩ := h
  refine ⟨_, _, hb.not, .body ?_⟩
  simp only [marks, Abu.body]
  refine Fin.call_marked hr fun c' => ?_
  rw [hL]
  exact .commit .ret

theorem Does.not_fail {a L'} (h : Does env P dst bnd t i m .FAILURE i' L m')
    (hL : L ++ [i] = a :: L') : Does env (.not P) dst bnd t i m .SUCCESS a L' m' := by
  obtain ⟨st, m0, hb, hr⟩ := h
  refine ⟨_, _, hb.not, .body ?_⟩
  simp only [marks, Abu.body]
  refine Fin.call_marked hr fun c' => ?_
  rw [hL]
  exact .commit .ret

theorem Does.recur {id q sk} (hq : env id = some q)
    (h : Does env (elabP sk RecurChildReqs q) dst bnd t i m r i' L m') :
    Does env (.recur id sk) dst bnd t i m r i' L m' := by
  obtain ⟨st, m0, hb, hr⟩ := h
  refine ⟨_, _, Built.recur, .body ?_⟩
  simp only [marks, Abu.body, hq]
  refine Fin.mk hb (Fin.cont (Runs.body ?_))
  simp only [Abu.body, hq]
  refine Fin.call hr fun c' => ?_
  rw [List.replicate_zero, List.append_nil]
  exact .ret

theorem Does.except_neg {Q} (h : Does env Q .nil bnd t i m .SUCCESS i' L m') :
    Does env (.except P Q) dst bnd t i m .FAILURE i' L m' := by
  obtain ⟨st, m0, hb, hr⟩ := h
  refine ⟨_, _, hb.except, .body ?_⟩
  simp only [marks, Abu.body]
  rw [← List.append_nil (List.replicate _ _)]
  refine Fin.call hr fun c' => ?_
  rw [List.append_nil]
  exact .ret

theorem Does.except_op {Q i1 L1 m1} (h : Does env Q .nil bnd t i m .FAILURE i1 L1 m1)
    (h2 : Does env P dst bnd t i1 m1 r i' L m') :
    Does env (.except P Q) dst bnd t i m r i' (L ++ L1) m' := by
  obtain ⟨st, m0, hb, hr⟩ := h
  obtain ⟨st2, m2, hb2, hr2⟩ := h2
  refine ⟨_, _, hb.except, .body ?_⟩
  simp only [marks, Abu.body]
  rw [← List.append_nil (List.replicate _ _)]
  refine Fin.call hr fun c' => ?_
  rw [List.append_nil]
  refine Fin.mk hb2 (Fin.cont (Runs.body ?_))
  simp only [Abu.body]
  refine Fin.call hr2 fun c' => ?_
  exact .ret

/-- The children of a sequence one after the other. -/
inductive SeqDoes (env : Env) (dst bnd : Ref) (t : List Ch) : List (Option Nat) → List Prog → Nat → Mem →
    Res → Nat → Mem → Prop
  | last {s ss Q d i m r i' L m'} : seqDst dst s = some d → Does env Q d bnd t i m r i' L m' →
      r ≠ .PARTIAL → SeqDoes env dst bnd t (s :: ss) [Q] i m r i' m'
  | fail {s ss Q Ps d i m i' L m'} : seqDst dst s = some d →
      Does env Q d bnd t i m .FAILURE i' L m' → SeqDoes env dst bnd t (s :: ss) (Q :: Ps) i m .FAILURE i' m'
  | cons {s ss Q Ps d i m r i1 L m1 i' m'} : seqDst dst s = some d →
      Does env Q d bnd t i m .SUCCESS i1 L m1 → SeqDoes env dst bnd t ss Ps i1 m1 r i' m' →
      SeqDoes env dst bnd t (s :: ss) (Q :: Ps) i m r i' m'

theorem getElem?_of_drop {α : Type} {l : List α} {k a as} (h : l.drop k = a :: as) :
    l[k]? = some a ∧ l.drop (k + 1) = as := by
  constructor
  · have := congrArg (·[0]?) h
    simpa [List.getElem?_drop] using this
  · have := congrArg (List.drop 1) h
    simpa [List.drop_drop] using this

theorem SeqDoes.runs {ss Ps slots0 Ps0} (h : SeqDoes env dst bnd t ss Ps i m r i' m') :
    ∀ k, slots0.drop k = ss → Ps0.drop k = Ps →
    ∃ s P d c m1, slots0[k]? = some s ∧ Ps0[k]? = some P ∧ seqDst dst s = some d ∧
      Built P d bnd t i m c m1 ∧ ∀ E, ∃ L, Runs env (.seq slots0 Ps0) dst bnd (.seq k c) t i
        (List.replicate (marks P) i ++ E) m1 r i' L m' := by
  induction h with
  | @last s ss P d i m r i' L m' hd h hr =>
    intro k h1 h2
    obtain ⟨e1, _⟩ := getElem?_of_drop h1
    obtain ⟨e2, e3⟩ := getElem?_of_drop h2
    obtain ⟨c, m1, hb, hrun⟩ := h
    refine ⟨s, P, d, c, m1, e1, e2, hd, hb, fun E => ⟨L ++ E, .body ?_⟩⟩
    have e4 : Ps0[k + 1]? = none := by
      rw [List.getElem?_eq_none_iff]; simpa using e3
    simp only [Abu.body, e1, e2, hd]
    refine Fin.call hrun fun c' => ?_
    cases r with
    | SUCCESS => simp only [e4]; exact .ret
    | FAILURE => exact .ret
    | PARTIAL => exact absurd rfl hr
  | @fail s ss P Ps d i m i' L m' hd h =>
    intro k h1 h2
    obtain ⟨e1, _⟩ := getElem?_of_drop h1
    obtain ⟨e2, e3⟩ := getElem?_of_drop h2
    obtain ⟨c, m1, hb, hrun⟩ := h
    refine ⟨s, P, d, c, m1, e1, e2, hd, hb, fun E => ⟨L ++ E, .body ?_⟩⟩
    simp only [Abu.body, e1, e2, hd]
    refine Fin.call hrun fun c' => ?_
    exact .ret
  | @cons s ss P Ps d i m r i1 L m1 i' m' hd h _ ih =>
    intro k h1 h2
    obtain ⟨e1, h1'⟩ := getElem?_of_drop h1
    obtain ⟨e2, h2'⟩ := getElem?_of_drop h2
    obtain ⟨c, m2, hb, hrun⟩ := h
    obtain ⟨s', P', d', c2, m3, e1', e2', hd', hb', hrun'⟩ := ih (k + 1) h1' h2'
    refine ⟨s, P, d, c, m2, e1, e2, hd, hb, fun E => ?_⟩
    obtain ⟨L', hrun'⟩ := hrun' (L ++ E)
    refine ⟨L', .body ?_⟩
    simp only [Abu.body, e1, e2, hd]
    refine Fin.call hrun fun c' => ?_
    simp only [e1', e2', hd']
    exact Fin.mk hb' (Fin.cont hrun')

theorem SeqDoes.does {slots Ps} (h : SeqDoes env dst bnd t slots Ps i m r i' m') :
    ∃ L, Does env (.seq slots Ps) dst bnd t i m r i' L m' := by
  obtain ⟨s, P, d, c, m1, e1, e2, hd, hb, hrun⟩ := h.runs 0 rfl rfl
  obtain ⟨L, hrun⟩ := hrun []
  cases slots with
  | nil => simp at e1
  | cons s0 ss =>
    cases Ps with
    | nil => simp at e2
    | cons P0 Ps =>
      simp only [List.getElem?_cons_zero, Option.some.injEq] at e1 e2
      subst e1 e2
      refine ⟨L, _, _, hb.seq hd, ?_⟩
      rw [List.append_nil] at hrun
      simp only [marks]
      exact hrun

/-- The items of a repetition one after the other. -/
inductive RepDoes (env : Env) (P : Prog) (dst bnd : Ref) (t : List Ch) (mn mx : Nat) : Nat → Nat → Mem →
    Res → Nat → Mem → Prop
  | stop {n i m i' L m'} : Does env P dst bnd t i m .FAILURE i' L m' →
      RepDoes env P dst bnd t mn mx n i m (enough n mn) i' m'
  | max {n i m i' L m'} : Does env P dst bnd t i m .SUCCESS i' L m' → mx ≠ 0 → n + 1 = mx →
      RepDoes env P dst bnd t mn mx n i m .SUCCESS i' m'
  | more {n i m i1 L m1 r i' m'} : Does env P dst bnd t i m .SUCCESS i1 L m1 →
      ¬ (mx ≠ 0 ∧ n + 1 = mx) → RepDoes env P dst bnd t mn mx (n + 1) i1 m1 r i' m' →
      RepDoes env P dst bnd t mn mx n i m r i' m'

theorem RepDoes.runs {mn mx n} (h : RepDoes env P dst bnd t mn mx n i m r i' m') :
    ∃ c m1, Built P dst bnd t i m c m1 ∧ ∀ E, ∃ L, Runs env (.rep mn mx P) dst bnd (.rep n c) t i
      (List.replicate (marks P) i ++ E) m1 r i' L m' := by
  induction h with
  | @stop n i m i' L m' h =>
    obtain ⟨c, m1, hb, hrun⟩ := h
    refine ⟨c, m1, hb, fun E => ⟨L ++ E, .body ?_⟩⟩
    simp only [Abu.body]
    refine Fin.call hrun fun c' => ?_
    exact .ret
  | @max n i m i' L m' h h1 h2 =>
    obtain ⟨c, m1, hb, hrun⟩ := h
    refine ⟨c, m1, hb, fun E => ⟨L ++ E, .body ?_⟩⟩
    simp only [Abu.body]
    refine Fin.call hrun fun c' => ?_
    simp only
    rw [if_pos ⟨h1, h2⟩]
    exact .ret
  | @more n i m i1 L m1 r i' m' h h1 _ ih =>
    obtain ⟨c, m2, hb, hrun⟩ := h
    obtain ⟨c2, m3, hb2, hrun2⟩ := ih
    refine ⟨c, m2, hb, fun E => ?_⟩
    obtain ⟨L', hrun2⟩ := hrun2 (L ++ E)
    refine ⟨L', .body ?_⟩
    simp only [Abu.body]
    refine Fin.call hrun fun c' => ?_
    simp only
    rw [if_neg h1]
    exact Fin.mk hb2 (Fin.cont hrun2)

theorem RepDoes.does {mn mx} (h : RepDoes env P dst bnd t mn mx 0 i m r i' m') :
    ∃ L, Does env (.rep mn mx P) dst bnd t i m r i' L m' := by
  obtain ⟨c, m1, hb, hrun⟩ := h.runs
  obtain ⟨L, hrun⟩ := hrun []
  refine ⟨L, _, _, hb.rep, ?_⟩
  rw [List.append_nil] at hrun
  simp only [marks]
  exact hrun

/-- The alternatives one after the other; `E`: rollback points left by earlier ones. -/
inductive AltDoes (env : Env) (dst bnd : Ref) (t : List Ch) : List Prog → Nat → List Nat → Mem →
    Res → Nat → List Nat → Mem → Prop
  | here {Q Ps i E m i' L m'} : Does env Q dst bnd t i m .SUCCESS i' L m' →
      AltDoes env dst bnd t (Q :: Ps) i E m .SUCCESS i' (L ++ E) m'
  | last {Q i E m i' L m'} : Does env Q dst bnd t i m .FAILURE i' L m' →
      AltDoes env dst bnd t [Q] i E m .FAILURE i' (L ++ E) m'
  | cons {Q Ps i E m r i1 L m1 i' L' m'} : Does env Q dst bnd t i m .FAILURE i1 L m1 →
      AltDoes env dst bnd t Ps i1 (L ++ E) m1 r i' L' m' →
      AltDoes env dst bnd t (Q :: Ps) i E m r i' L' m'

theorem AltDoes.runs {Ps Ps0 E} (h : AltDoes env dst bnd t Ps i E m r i' L m') :
    ∀ k, Ps0.drop k = Ps → ∃ P c m1, Ps0[k]? = some P ∧ Built P dst bnd t i m c m1 ∧
      Runs env (.alt Ps0) dst bnd (.alt k c) t i (List.replicate (marks P) i ++ E) m1 r i' L m' := by
  induction h with
  | @here P Ps i E m i' L m' h =>
    intro k h2
    obtain ⟨e2, e3⟩ := getElem?_of_drop h2
    obtain ⟨c, m1, hb, hrun⟩ := h
    refine ⟨P, c, m1, e2, hb, .body ?_⟩
    simp only [Abu.body, e2]
    refine Fin.call hrun fun c' => ?_
    exact .ret
  | @last P i E m i' L m' h =>
    intro k h2
    obtain ⟨e2, e3⟩ := getElem?_of_drop h2
    obtain ⟨c, m1, hb, hrun⟩ := h
    refine ⟨P, c, m1, e2, hb, .body ?_⟩
    have e4 : Ps0[k + 1]? = none := by
      rw [List.getElem?_eq_none_iff]; simpa using e3
    simp only [Abu.body, e2]
    refine Fin.call hrun fun c' => ?_
    simp only [e4]
    exact .ret
  | @cons P Ps i E m r i1 L m1 i' L' m' h _ ih =>
    intro k h2
    obtain ⟨e2, h2'⟩ := getElem?_of_drop h2
    obtain ⟨c, m2, hb, hrun⟩ := h
    obtain ⟨P', c2, m3, e2', hb', hrun'⟩ := ih (k + 1) h2'
    refine ⟨P, c, m2, e2, hb, .body ?_⟩
    simp only [Abu.body, e2]
    refine Fin.call hrun fun c' => ?_
    simp only [e2']
    exact Fin.mk hb' (Fin.cont hrun')

theorem AltDoes.does {Ps} (h : AltDoes env dst bnd t Ps i [] m r i' L m') :
    Does env (.alt Ps) dst bnd t i m r i' L m' := by
  obtain ⟨P, c, m1, e2, hb, hrun⟩ := h.runs 0 rfl
  cases Ps with
  | nil => simp at e2
  | cons P0 Ps =>
    simp only [List.getElem?_cons_zero, Option.some.injEq] at e2
    subst e2
    refine ⟨_, _, hb.alt, ?_⟩
    rw [List.append_nil] at hrun
    simp only [marks]
    exact hrun

/-- The items and separators of a list one after the other, from an item (`false`) or a separator
(`true`); `E`: the rollback points of the list. -/
inductive ListDoes (env : Env) (op sep : Prog) (dst bnd : Ref) (t : List Ch) : Bool → Nat →
    List Nat → Mem → Nat → Mem → Prop
  | opFail {i E m i1 L m1 a E'} : Does env op dst bnd t i m .FAILURE i1 L m1 → L ++ E = a :: E' →
      ListDoes env op sep dst bnd t false i E m a m1
  | opSucc {i E m i1 L m1 a E' i' m'} : Does env op dst bnd t i m .SUCCESS i1 L m1 →
      L ++ E = a :: E' → ListDoes env op sep dst bnd t true i1 (i1 :: E') m1 i' m' →
      ListDoes env op sep dst bnd t false i E m i' m'
  | sepFail {i E m i1 L m1 a E'} : Does env sep .nil bnd t i m .FAILURE i1 L m1 → L ++ E = a :: E' →
      ListDoes env op sep dst bnd t true i E m a m1
  | sepSucc {i E m i1 L m1 i' m'} : Does env sep .nil bnd t i m .SUCCESS i1 L m1 →
      ListDoes env op sep dst bnd t false i1 (L ++ E) m1 i' m' →
      ListDoes env op sep dst bnd t true i E m i' m'

theorem ListDoes.runs {op sep b E} (h : ListDoes env op sep dst bnd t b i E m i' m') :
    ∃ c m1, Built (if b then sep else op) (if b then .nil else dst) bnd t i m c m1 ∧
      ∀ F, ∃ L, Runs env (.list op sep) dst bnd (.list b c) t i
        (List.replicate (marks (if b then sep else op)) i ++ (E ++ F)) m1 .SUCCESS i' L m' := by
  induction h with
  | @opFail i E m i1 L m1 a E' h hE =>
    obtain ⟨c, m2, hb, hrun⟩ := h
    refine ⟨c, m2, hb, fun F => ⟨E' ++ F, .body ?_⟩⟩
    simp only [Abu.body]
    refine Fin.call hrun fun c' => ?_
    rw [← List.append_assoc, hE]
    exact .commit .ret
  | @sepFail i E m i1 L m1 a E' h hE =>
    obtain ⟨c, m2, hb, hrun⟩ := h
    refine ⟨c, m2, hb, fun F => ⟨E' ++ F, .body ?_⟩⟩
    simp only [Abu.body]
    refine Fin.call hrun fun c' => ?_
    rw [← List.append_assoc, hE]
    exact .commit .ret
  | @opSucc i E m i1 L m1 a E' i' m' h hE _ ih =>
    obtain ⟨c, m2, hb, hrun⟩ := h
    obtain ⟨c2, m3, hb2, hrun2⟩ := ih
    refine ⟨c, m2, hb, fun F => ?_⟩
    obtain ⟨L', hrun2⟩ := hrun2 F
    refine ⟨L', .body ?_⟩
    simp only [Abu.body]
    refine Fin.call hrun fun c' => ?_
    rw [← List.append_assoc, hE]
    refine .cancel (.prepare (Fin.mk hb2 (Fin.cont ?_)))
    exact hrun2
  | @sepSucc i E m i1 L m1 i' m' h _ ih =>
    obtain ⟨c, m2, hb, hrun⟩ := h
    obtain ⟨c2, m3, hb2, hrun2⟩ := ih
    refine ⟨c, m2, hb, fun F => ?_⟩
    obtain ⟨L', hrun2⟩ := hrun2 F
    refine ⟨L', .body ?_⟩
    simp only [Abu.body]
    refine Fin.call hrun fun c' => ?_
    rw [← List.append_assoc]
    exact Fin.mk hb2 (Fin.cont hrun2)

theorem ListDoes.does {op sep} (h : ListDoes env op sep dst bnd t false i [i] m i' m') :
    ∃ L, Does env (.list op sep) dst bnd t i m .SUCCESS i' L m' := by
  obtain ⟨c, m1, hb, hrun⟩ := h.runs
  obtain ⟨L, hrun⟩ := hrun []
  refine ⟨L, _, _, hb.list, ?_⟩
  simp only [marks, List.replicate_succ']
  exact hrun

end
end Abu
