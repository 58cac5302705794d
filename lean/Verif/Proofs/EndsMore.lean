import Verif.Proofs.Readme
import Verif.Proofs.Guide
import Verif.Proofs.Alternatives
/-
What one use of a parser does when it is constructed at one position and started at another,
continued: more parser classes, and uses that do not hold rollback points.
-/
namespace Abu

/-- A constructor does the same at every position of every text. -/
theorem mk_anywhere (P : Prog) (dst bnd : Ref) (m : Mem) :
    (∃ e, ∀ t i, NotBuilt P dst bnd t i m e) ∨ ∃ st m1, ∀ t i, Built P dst bnd t i m st m1 := by
  fun_induction mk P dst bnd generalizing m
  case case5 b mn mx dst bnd | case6 b mn mx dst bnd =>
    simp only [NotBuilt, Built, mk, exec, cw, marks]
    show (∃ e, ∀ t i call S, _) ∨ _
    cases hz : m.zero dst with
    | error e => exact .inl ⟨e, fun t i call S => by simp only [Store.op, Mem.run, hz]⟩
    | ok m1 => exact .inr ⟨_, m1, fun t i call S => by simp only [Store.op, Mem.run, hz]; rfl⟩
  case case11 s ss p ps dst bnd d h ih =>
    rcases ih m with ⟨e, he⟩ | ⟨st, m1, hb⟩
    · exact .inl ⟨e, fun t i call S => by simp only [mk, h]; exact (he t i).bind _ _ _⟩
    · exact .inr ⟨_, m1, fun t i => (hb t i).seq h⟩
  case case10 s ss p ps dst bnd h =>
    exact .inl ⟨.noCompile, fun t i call S => by simp only [mk, h]; rfl⟩
  case case12 => exact .inl ⟨.noCompile, fun t i call S => by simp only [mk]; rfl⟩
  case case14 => exact .inl ⟨.noCompile, fun t i call S => by simp only [mk]; rfl⟩
  case case29 s p dst bnd ih1 ih2 =>
    rcases ih1 m with ⟨e, he⟩ | ⟨st, m1, hb⟩
    · exact .inl ⟨e, fun t i call S => by simp only [mk]; exact (he t i).bind _ _ _⟩
    · rcases ih2 m1 with ⟨e, he⟩ | ⟨st2, m2, hb2⟩
      · exact .inl ⟨e, fun t i call S => by simp only [mk, (hb t i).bind, (he t i).bind]⟩
      · refine .inr ⟨.skip false st st2, m2, fun t i call S => ?_⟩
        simp only [mk, (hb t i).bind, (hb2 t i).bind, exec, marks]
        rw [← List.append_assoc, List.replicate_append_replicate, Nat.add_comm]
  case case21 tys p d bnd ih =>
    rcases ih (m.alloc (.tup tys)).1 (m.alloc (.tup tys)).2 with ⟨e, he⟩ | ⟨st, m1, hb⟩
    · exact .inl ⟨e, fun t i call S => by simp only [mk, exec]; exact (he t i).bind _ _ _⟩
    · exact .inr ⟨_, m1, fun t i => (hb t i).construct⟩
  case case22 a p d bnd ih =>
    rcases ih (m.alloc a.landing).1 (m.alloc a.landing).2 with ⟨e, he⟩ | ⟨st, m1, hb⟩
    · exact .inl ⟨e, fun t i call S => by simp only [mk, exec]; exact (he t i).bind _ _ _⟩
    · exact .inr ⟨_, m1, fun t i => (hb t i).action⟩
  case case27 p d bnd ih =>
    rcases ih (m.alloc d.valueType).1 (m.alloc d.valueType).2 with ⟨e, he⟩ | ⟨st, m1, hb⟩
    · exact .inl ⟨e, fun t i call S => by simp only [mk, exec]; exact (he t i).bind _ _ _⟩
    · exact .inr ⟨_, m1, fun t i => (hb t i).atomic⟩
  all_goals first
    | exact .inr ⟨_, m, fun t i call S => rfl⟩
    | (rename_i ih
       rcases ih m with ⟨e, he⟩ | ⟨st, m1, hb⟩
       · exact .inl ⟨e, fun t i call S => by simp only [mk]; exact (he t i).bind _ _ _⟩
       · exact .inr ⟨_, m1, fun t i call S => by simp only [mk, (hb t i).bind]; rfl⟩)

theorem Built.anywhere {P dst bnd t i m st m1} (h : Built P dst bnd t i m st m1) (t' : List Ch)
    (i' : Nat) : Built P dst bnd t' i' m st m1 := by
  rcases mk_anywhere P dst bnd m with ⟨e, he⟩ | ⟨st2, m2, hb⟩
  · have h1 := h (fun _ _ _ _ _ => .error .stuck) []
    rw [he t i] at h1
    cases h1
  · have h1 := h (fun _ _ _ _ _ => .error .stuck) []
    rw [hb t i] at h1
    cases h1
    exact hb t' i'

section
variable {env : Env} {P : Prog} {dst bnd : Ref} {t : List Ch} {j i : Nat} {m : Mem} {r : Res}
  {i' : Nat} {m' : Mem}

/-- Without rollback points made by the constructor it does not matter where that happened. -/
theorem Does.ends (h : Does env P dst bnd t i m r i' [] m') (hP : marks P = 0) (j : Nat) :
    Ends env P dst bnd t j i m r i' m' := by
  obtain ⟨st, m1, hb, hr⟩ := h
  refine ⟨st, m1, hb.anywhere t j, ?_⟩
  rw [hP] at hr ⊢
  exact hr

/-! ### What is elsewhere -/

theorem Ends.construct_run (h : Ends env P dst bnd t j i m r i' m') :
    ∃ st m1 n st', Abu.construct P dst bnd (cw t j [] m) =
        .ok (st, cw t j (List.replicate (marks P) j) m1) ∧
      run env n P dst bnd st (cw t i (List.replicate (marks P) j) m1) =
        .ok ((r, st'), cw t i' [] m') := by
  obtain ⟨st, m1, hb, n, st', hr⟩ := h
  refine ⟨st, m1, n, st', ?_, ?_⟩
  · have := hb (fun _ _ _ _ _ => .error .stuck) []
    rw [List.append_nil] at this
    exact this
  · have := hr []
    rw [List.append_nil] at this
    exact this

theorem Ends.keeps {o q v} (h : Ends env P dst bnd t j i m r i' m')
    (hd : dst.Misses o q ∨ P.silent = true) (hq : P.quiet = true) (he : env.quiet)
    (hv : m.look o q = .ok v) : m'.look o q = .ok v := by
  obtain ⟨st, m1, n, st', hc, hr⟩ := h.construct_run
  have hJ := misses_keeps o q v
  have hS := misses_region o q
  obtain ⟨h1, h2⟩ := construct_uses hS hJ hd (w := cw t j [] m) hv hc
  exact (run_uses (w := cw t i (List.replicate (marks P) j) m1) hS hJ n hd (.inr ⟨hq, he.prog⟩) h1 h2 hr).2

theorem Ends.keeps_eq {o q} (h : Ends env P dst bnd t j i m r i' m')
    (hd : dst.Misses o q ∨ P.silent = true) (hq : P.quiet = true) (he : env.quiet)
    (hv : o < m.objs.length) : o < m'.objs.length ∧ m'.look o q = m.look o q := by
  obtain ⟨st, m1, n, st', hc, hr⟩ := h.construct_run
  have hJ := misses_keeps_eq o q (m.look o q)
  have hS := misses_region o q
  obtain ⟨h1, h2⟩ := construct_uses hS hJ hd (w := cw t j [] m) ⟨hv, rfl⟩ hc
  exact (run_uses (w := cw t i (List.replicate (marks P) j) m1) hS hJ n hd (.inr ⟨hq, he.prog⟩) h1 h2 hr).2

theorem Ends.extends_af (h : Ends env P dst bnd t j i m .FAILURE i' m') (hd : P.af = true)
    (hq : P.quiet = true) (he : env.quiet) {o q v} (hv : m.look o q = .ok v) :
    m'.look o q = .ok v := by
  obtain ⟨st, m1, n, st', hc, hr⟩ := h.construct_run
  have hJ := misses_keeps o q v
  have hS := misses_region o q
  obtain ⟨h1, h2⟩ := construct_af hS hJ hd (w := cw t j [] m) hv hc
  exact (run_af (w := cw t i (List.replicate (marks P) j) m1) hS hJ n hd (.inr ⟨hq, he.prog⟩) h1 h2 hr (by simp)).2

/-! ### Lookahead -/

theorem Ends.not_succ (h : Ends env P dst bnd t j i m .SUCCESS i' m') :
    Ends env (.not P) dst bnd t j i m .FAILURE j m' := by
  obtain ⟨st, m0, hb, hr⟩ := h
  refine ⟨_, _, hb.not, .body ?_⟩
  simp only [marks, Abu.body]
  rw [List.replicate_succ']
  refine Fin.call hr fun c' => ?_
  exact .commit .ret

theorem Ends.not_fail (h : Ends env P dst bnd t j i m .FAILURE i' m') :
    Ends env (.not P) dst bnd t j i m .SUCCESS j m' := by
  obtain ⟨st, m0, hb, hr⟩ := h
  refine ⟨_, _, hb.not, .body ?_⟩
  simp only [marks, Abu.body]
  rw [List.replicate_succ']
  refine Fin.call hr fun c' => ?_
  exact .commit .ret

theorem Ends.except_neg {Q} (h : Ends env Q .nil bnd t j i m .SUCCESS i' m') :
    Ends env (.except P Q) dst bnd t j i m .FAILURE i' m' := by
  obtain ⟨st, m0, hb, hr⟩ := h
  refine ⟨_, _, hb.except, .body ?_⟩
  simp only [marks, Abu.body]
  rw [← List.append_nil (List.replicate _ _)]
  refine Fin.call hr fun c' => ?_
  exact .ret

theorem Ends.except_op {Q i1 m1} (h : Ends env Q .nil bnd t j i m .FAILURE i1 m1)
    (h2 : Ends env P dst bnd t i1 i1 m1 r i' m') :
    Ends env (.except P Q) dst bnd t j i m r i' m' := by
  obtain ⟨st, m0, hb, hr⟩ := h
  obtain ⟨st2, m2, hb2, hr2⟩ := h2
  refine ⟨_, _, hb.except, .body ?_⟩
  simp only [marks, Abu.body]
  rw [← List.append_nil (List.replicate _ _)]
  refine Fin.call hr fun c' => ?_
  refine Fin.mk hb2 (Fin.cont (Runs.body ?_))
  simp only [Abu.body]
  refine Fin.call hr2 fun c' => ?_
  exact .ret

/-! ### Repetitions and lists -/

/-- The items of a repetition one after the other; the first one was constructed at `j`. -/
inductive RepEnds (env : Env) (P : Prog) (dst bnd : Ref) (t : List Ch) (mn mx : Nat) : Nat → Nat →
    Nat → Mem → Res → Nat → Mem → Prop
  | stop {n j i m i' m'} : Ends env P dst bnd t j i m .FAILURE i' m' →
      RepEnds env P dst bnd t mn mx n j i m (enough n mn) i' m'
  | max {n j i m i' m'} : Ends env P dst bnd t j i m .SUCCESS i' m' → mx ≠ 0 → n + 1 = mx →
      RepEnds env P dst bnd t mn mx n j i m .SUCCESS i' m'
  | more {n j i m i1 m1 r i' m'} : Ends env P dst bnd t j i m .SUCCESS i1 m1 →
      ¬ (mx ≠ 0 ∧ n + 1 = mx) → RepEnds env P dst bnd t mn mx (n + 1) i1 i1 m1 r i' m' →
      RepEnds env P dst bnd t mn mx n j i m r i' m'

theorem RepEnds.runs {mn mx n} (h : RepEnds env P dst bnd t mn mx n j i m r i' m') :
    ∃ c m1, Built P dst bnd t j m c m1 ∧ Runs env (.rep mn mx P) dst bnd (.rep n c) t i
      (List.replicate (marks P) j) m1 r i' [] m' := by
  induction h with
  | stop h =>
    obtain ⟨c, m1, hb, hrun⟩ := h
    refine ⟨c, m1, hb, .body ?_⟩
    simp only [Abu.body]
    rw [← List.append_nil (List.replicate _ _)]
    refine Fin.call hrun fun c' => ?_
    exact .ret
  | max h h1 h2 =>
    obtain ⟨c, m1, hb, hrun⟩ := h
    refine ⟨c, m1, hb, .body ?_⟩
    simp only [Abu.body]
    rw [← List.append_nil (List.replicate _ _)]
    refine Fin.call hrun fun c' => ?_
    simp only
    rw [if_pos ⟨h1, h2⟩]
    exact .ret
  | more h h1 _ ih =>
    obtain ⟨c, m2, hb, hrun⟩ := h
    obtain ⟨c2, m3, hb2, hrun2⟩ := ih
    refine ⟨c, m2, hb, .body ?_⟩
    simp only [Abu.body]
    rw [← List.append_nil (List.replicate _ _)]
    refine Fin.call hrun fun c' => ?_
    simp only
    rw [if_neg h1]
    refine Fin.mk hb2 (Fin.cont ?_)
    rw [List.append_nil, List.append_nil]
    exact hrun2

theorem RepEnds.ends {mn mx} (h : RepEnds env P dst bnd t mn mx 0 j i m r i' m') :
    Ends env (.rep mn mx P) dst bnd t j i m r i' m' := by
  obtain ⟨c, m1, hb, hrun⟩ := h.runs
  refine ⟨_, _, hb.rep, ?_⟩
  simp only [marks]
  exact hrun

/-- The items and separators of a list one after the other, from an item (`false`) or a separator
(`true`) constructed at `j`; `g`: the rollback point of the list. -/
inductive SepEnds (env : Env) (P Q : Prog) (dst bnd : Ref) (t : List Ch) : Bool → Nat → Nat → Nat →
    Mem → Nat → Mem → Prop
  | opFail {j i g m i1 m1} : Ends env P dst bnd t j i m .FAILURE i1 m1 →
      SepEnds env P Q dst bnd t false j i g m g m1
  | opSucc {j i g m i1 m1 i' m'} : Ends env P dst bnd t j i m .SUCCESS i1 m1 →
      SepEnds env P Q dst bnd t true i1 i1 i1 m1 i' m' →
      SepEnds env P Q dst bnd t false j i g m i' m'
  | sepFail {j i g m i1 m1} : Ends env Q .nil bnd t j i m .FAILURE i1 m1 →
      SepEnds env P Q dst bnd t true j i g m g m1
  | sepSucc {j i g m i1 m1 i' m'} : Ends env Q .nil bnd t j i m .SUCCESS i1 m1 →
      SepEnds env P Q dst bnd t false i1 i1 g m1 i' m' →
      SepEnds env P Q dst bnd t true j i g m i' m'

theorem SepEnds.runs {Q b g} (h : SepEnds env P Q dst bnd t b j i g m i' m') :
    ∃ c m1, Built (if b then Q else P) (if b then .nil else dst) bnd t j m c m1 ∧
      Runs env (.list P Q) dst bnd (.list b c) t i
        (List.replicate (marks (if b then Q else P)) j ++ [g]) m1 .SUCCESS i' [] m' := by
  induction h with
  | opFail h =>
    obtain ⟨c, m2, hb, hrun⟩ := h
    refine ⟨c, m2, hb, .body ?_⟩
    simp only [Abu.body]
    refine Fin.call hrun fun c' => ?_
    exact .commit .ret
  | sepFail h =>
    obtain ⟨c, m2, hb, hrun⟩ := h
    refine ⟨c, m2, hb, .body ?_⟩
    simp only [Abu.body]
    refine Fin.call hrun fun c' => ?_
    exact .commit .ret
  | opSucc h _ ih =>
    obtain ⟨c, m2, hb, hrun⟩ := h
    obtain ⟨c2, m3, hb2, hrun2⟩ := ih
    refine ⟨c, m2, hb, .body ?_⟩
    simp only [Abu.body]
    refine Fin.call hrun fun c' => ?_
    exact .cancel (.prepare (Fin.mk hb2 (Fin.cont hrun2)))
  | sepSucc h _ ih =>
    obtain ⟨c, m2, hb, hrun⟩ := h
    obtain ⟨c2, m3, hb2, hrun2⟩ := ih
    refine ⟨c, m2, hb, .body ?_⟩
    simp only [Abu.body]
    refine Fin.call hrun fun c' => ?_
    exact Fin.mk hb2 (Fin.cont hrun2)

theorem SepEnds.ends {Q} (h : SepEnds env P Q dst bnd t false j i j m i' m') :
    Ends env (.list P Q) dst bnd t j i m .SUCCESS i' m' := by
  obtain ⟨c, m1, hb, hrun⟩ := h.runs
  refine ⟨_, _, hb.list, ?_⟩
  simp only [marks, List.replicate_succ']
  exact hrun

end
end Abu
