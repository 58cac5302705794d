import Verif.Proofs.DoesRules
/-
What one use of a parser does when it is constructed at one position and started at another, as
under a skipper. Only uses that close all their rollback points.
-/
namespace Abu

/-- An object is constructed at position `j`, and its `consume` is called at position `i`: it
returns `r` and leaves no rollback point. -/
def Ends (env : Env) (P : Prog) (dst bnd : Ref) (t : List Ch) (j i : Nat) (m : Mem) (r : Res)
    (i' : Nat) (m' : Mem) : Prop :=
  ∃ st m1, Built P dst bnd t j m st m1 ∧
    Runs env P dst bnd st t i (List.replicate (marks P) j) m1 r i' [] m'

section
variable {env : Env} {P : Prog} {dst bnd : Ref} {t : List Ch} {j i : Nat} {m : Mem} {r : Res}
  {i' : Nat} {m' : Mem}

theorem Ends.does (h : Ends env P dst bnd t i i m r i' m') : Does env P dst bnd t i m r i' [] m' := h

theorem Ends.withSkipper (h : Ends env P dst bnd t j i m r i' m') :
    Ends env (.withSkipper P) dst bnd t j i m r i' m' := by
  obtain ⟨st, m1, hb, hr⟩ := h
  refine ⟨_, _, hb.withSkipper, ?_⟩
  simp only [marks]
  exact hr.forward (by simp only [Abu.body])

theorem Ends.discard (h : Ends env P .nil bnd t j i m r i' m') :
    Ends env (.discard P) dst bnd t j i m r i' m' := by
  obtain ⟨st, m1, hb, hr⟩ := h
  refine ⟨_, _, hb.discard, ?_⟩
  simp only [marks]
  exact hr.forward (by simp only [Abu.body])

theorem Ends.bindDst (h : Ends env P dst dst t j i m r i' m') :
    Ends env (.bindDst P) dst bnd t j i m r i' m' := by
  obtain ⟨st, m1, hb, hr⟩ := h
  refine ⟨_, _, hb.bindDst, ?_⟩
  simp only [marks]
  exact hr.forward (by simp only [Abu.body])

theorem Ends.action {a m1 m2}
    (h : Ends env P (m.alloc a.landing).1 bnd t j i (m.alloc a.landing).2 .SUCCESS i' m1)
    (ha : m1.act a (m.alloc a.landing).1 dst bnd = .ok m2) :
    Ends env (.action a P) dst bnd t j i m .SUCCESS i' m2 := by
  obtain ⟨st, m0, hb, hr⟩ := h
  refine ⟨_, _, hb.action, .body ?_⟩
  simp only [marks, Abu.body]
  rw [← List.append_nil (List.replicate _ _)]
  refine Fin.call hr fun c' => ?_
  exact Fin.mem ha .ret

theorem Ends.action_fail {a}
    (h : Ends env P (m.alloc a.landing).1 bnd t j i (m.alloc a.landing).2 .FAILURE i' m') :
    Ends env (.action a P) dst bnd t j i m .FAILURE i' m' := by
  obtain ⟨st, m0, hb, hr⟩ := h
  refine ⟨_, _, hb.action, .body ?_⟩
  simp only [marks, Abu.body]
  rw [← List.append_nil (List.replicate _ _)]
  refine Fin.call hr fun c' => ?_
  exact .ret

theorem Ends.clean (h : Ends env P dst bnd t j i m .SUCCESS i' m') :
    Ends env (.clean P) dst bnd t j i m .SUCCESS i' m' := by
  obtain ⟨st, m0, hb, hr⟩ := h
  refine ⟨_, _, hb.clean, .body ?_⟩
  simp only [marks, Abu.body]
  rw [List.replicate_succ']
  refine Fin.call hr fun c' => ?_
  exact .cancel .ret

theorem Ends.clean_fail (h : Ends env P dst bnd t j i m .FAILURE i' m') :
    Ends env (.clean P) dst bnd t j i m .FAILURE j m' := by
  obtain ⟨st, m0, hb, hr⟩ := h
  refine ⟨_, _, hb.clean, .body ?_⟩
  simp only [marks, Abu.body]
  rw [List.replicate_succ']
  refine Fin.call hr fun c' => ?_
  exact .commit .ret

theorem Ends.recur {id q sk} (hq : env id = some q)
    (h : Ends env (elabP sk RecurChildReqs q) dst bnd t i i m r i' m') :
    Ends env (.recur id sk) dst bnd t j i m r i' m' := by
  obtain ⟨st, m0, hb, hr⟩ := h
  refine ⟨_, _, Built.recur, .body ?_⟩
  simp only [marks, Abu.body, hq]
  refine Fin.mk hb (Fin.cont (Runs.body ?_))
  simp only [Abu.body, hq]
  refine Fin.call hr fun c' => ?_
  exact .ret

/-- A skipper that holds no rollback point, and whose object is in state `sc` when constructed. -/
structure Stateless (S : Prog) (sc : PState) : Prop where
  marks : marks S = 0
  built : ∀ t i m, Built S .nil .nil t i m sc m

end

/-- The skipper matches, any number of times, from position `i` up to position `k`, where it fails
without consuming. -/
inductive Skips (env : Env) (S : Prog) (sc : PState) (t : List Ch) : Nat → Nat → Prop
  | stop {i : Nat} : (∀ m, Runs env S .nil .nil sc t i [] m .FAILURE i [] m) → Skips env S sc t i i
  | more {i i1 k : Nat} : (∀ m, Runs env S .nil .nil sc t i [] m .SUCCESS i1 [] m) →
      Skips env S sc t i1 k → Skips env S sc t i k

section
variable {env : Env} {P : Prog} {dst bnd : Ref} {t : List Ch} {j i : Nat} {m : Mem} {r : Res}
  {i' : Nat} {m' : Mem}

theorem Skips.runs {S sc k} (h : Skips env S sc t i k) (hS : Stateless S sc) {c K}
    (hc : Runs env P dst bnd c t k K m r i' [] m') :
    Runs env (.skip S P) dst bnd (.skip false sc c) t i K m r i' [] m' := by
  induction h with
  | stop h1 =>
    refine .body ?_
    simp only [Abu.body]
    rw [← List.nil_append K]
    refine Fin.call (h1 m) fun sc' => .cont (.body ?_)
    simp only [Abu.body]
    rw [List.nil_append, ← List.append_nil K]
    refine Fin.call hc fun c' => ?_
    exact .ret
  | more h1 _ ih =>
    refine .body ?_
    simp only [Abu.body]
    rw [← List.nil_append K]
    refine Fin.call (h1 m) fun sc' => Fin.mk (hS.built _ _ _) (.cont ?_)
    rw [hS.marks]
    exact ih hc

/-- The skip adapter: the object under it is constructed before anything is skipped. -/
theorem Ends.skip {S sc k} (hS : Stateless S sc) (hk : Skips env S sc t i k)
    (h : Ends env P dst bnd t j k m r i' m') : Ends env (.skip S P) dst bnd t j i m r i' m' := by
  obtain ⟨st, m0, hb, hr⟩ := h
  refine ⟨.skip false sc st, m0, fun call T => ?_, ?_⟩
  · simp only [mk, (hS.built t j m).bind, hb.bind, exec, marks, hS.marks, Nat.add_zero,
      List.replicate_zero, List.nil_append, Nat.zero_add]
  · simp only [marks, hS.marks, Nat.add_zero, Nat.zero_add]
    exact hk.runs hS hr

/-! ### Several children -/

/-- The children of a sequence one after the other: the first one was constructed at `j`. -/
inductive SeqEnds (env : Env) (dst bnd : Ref) (t : List Ch) : List (Option Nat) → List Prog → Nat →
    Nat → Mem → Res → Nat → Mem → Prop
  | last {s ss Q d j i m r i' m'} : seqDst dst s = some d → Ends env Q d bnd t j i m r i' m' →
      r ≠ .PARTIAL → SeqEnds env dst bnd t (s :: ss) [Q] j i m r i' m'
  | fail {s ss Q Ps d j i m i' m'} : seqDst dst s = some d →
      Ends env Q d bnd t j i m .FAILURE i' m' →
      SeqEnds env dst bnd t (s :: ss) (Q :: Ps) j i m .FAILURE i' m'
  | cons {s ss Q Ps d j i m r i1 m1 i' m'} : seqDst dst s = some d →
      Ends env Q d bnd t j i m .SUCCESS i1 m1 → SeqEnds env dst bnd t ss Ps i1 i1 m1 r i' m' →
      SeqEnds env dst bnd t (s :: ss) (Q :: Ps) j i m r i' m'

theorem SeqEnds.runs {ss Ps slots0 Ps0} (h : SeqEnds env dst bnd t ss Ps j i m r i' m') :
    ∀ k, slots0.drop k = ss → Ps0.drop k = Ps →
    ∃ s P d c m1, slots0[k]? = some s ∧ Ps0[k]? = some P ∧ seqDst dst s = some d ∧
      Built P d bnd t j m c m1 ∧ Runs env (.seq slots0 Ps0) dst bnd (.seq k c) t i
        (List.replicate (marks P) j) m1 r i' [] m' := by
  induction h with
  | @last s ss P d j i m r i' m' hd h hr =>
    intro k h1 h2
    obtain ⟨e1, _⟩ := getElem?_of_drop h1
    obtain ⟨e2, e3⟩ := getElem?_of_drop h2
    obtain ⟨c, m1, hb, hrun⟩ := h
    refine ⟨s, P, d, c, m1, e1, e2, hd, hb, .body ?_⟩
    have e4 : Ps0[k + 1]? = none := by
      rw [List.getElem?_eq_none_iff]; simpa using e3
    simp only [Abu.body, e1, e2, hd]
    rw [← List.append_nil (List.replicate _ _)]
    refine Fin.call hrun fun c' => ?_
    cases r with
    | SUCCESS => simp only [e4]; exact .ret
    | FAILURE => exact .ret
    | PARTIAL => exact absurd rfl hr
  | @fail s ss P Ps d j i m i' m' hd h =>
    intro k h1 h2
    obtain ⟨e1, _⟩ := getElem?_of_drop h1
    obtain ⟨e2, e3⟩ := getElem?_of_drop h2
    obtain ⟨c, m1, hb, hrun⟩ := h
    refine ⟨s, P, d, c, m1, e1, e2, hd, hb, .body ?_⟩
    simp only [Abu.body, e1, e2, hd]
    rw [← List.append_nil (List.replicate _ _)]
    refine Fin.call hrun fun c' => ?_
    exact .ret
  | @cons s ss P Ps d j i m r i1 m1 i' m' hd h _ ih =>
    intro k h1 h2
    obtain ⟨e1, h1'⟩ := getElem?_of_drop h1
    obtain ⟨e2, h2'⟩ := getElem?_of_drop h2
    obtain ⟨c, m2, hb, hrun⟩ := h
    obtain ⟨s', P', d', c2, m3, e1', e2', hd', hb', hrun'⟩ := ih (k + 1) h1' h2'
    refine ⟨s, P, d, c, m2, e1, e2, hd, hb, .body ?_⟩
    simp only [Abu.body, e1, e2, hd]
    rw [← List.append_nil (List.replicate _ _)]
    refine Fin.call hrun fun c' => ?_
    simp only [e1', e2', hd']
    refine Fin.mk hb' (Fin.cont ?_)
    rw [List.append_nil, List.append_nil]
    exact hrun'

theorem SeqEnds.ends {slots Ps} (h : SeqEnds env dst bnd t slots Ps j i m r i' m') :
    Ends env (.seq slots Ps) dst bnd t j i m r i' m' := by
  obtain ⟨s, P, d, c, m1, e1, e2, hd, hb, hrun⟩ := h.runs 0 rfl rfl
  cases slots with
  | nil => simp at e1
  | cons s0 ss =>
    cases Ps with
    | nil => simp at e2
    | cons P0 Ps =>
      simp only [List.getElem?_cons_zero, Option.some.injEq] at e1 e2
      subst e1 e2
      refine ⟨_, _, hb.seq hd, ?_⟩
      simp only [marks]
      exact hrun

/-- The items of a repetition without bounds, from one that was constructed at `j`. -/
inductive StarEnds (env : Env) (P : Prog) (dst bnd : Ref) (t : List Ch) : Nat → Nat → Mem →
    Nat → Mem → Prop
  | stop {j i : Nat} {m : Mem} {i' : Nat} {m' : Mem} : Ends env P dst bnd t j i m .FAILURE i' m' →
      StarEnds env P dst bnd t j i m i' m'
  | more {j i i1 i' : Nat} {m m1 m' : Mem} : Ends env P dst bnd t j i m .SUCCESS i1 m1 →
      StarEnds env P dst bnd t i1 i1 m1 i' m' → StarEnds env P dst bnd t j i m i' m'

theorem StarEnds.runs (h : StarEnds env P dst bnd t j i m i' m') : ∀ n,
    ∃ c m1, Built P dst bnd t j m c m1 ∧ Runs env (.rep 0 0 P) dst bnd (.rep n c) t i
      (List.replicate (marks P) j) m1 .SUCCESS i' [] m' := by
  induction h with
  | @stop _ _ _ _ _ h =>
    intro n
    obtain ⟨c, m1, hb, hrun⟩ := h
    refine ⟨c, m1, hb, .body ?_⟩
    simp only [Abu.body]
    rw [← List.append_nil (List.replicate _ _)]
    refine Fin.call hrun fun c' => ?_
    exact .ret
  | @more _ _ _ _ _ _ _ h _ ih =>
    intro n
    obtain ⟨c, m2, hb, hrun⟩ := h
    obtain ⟨c2, m3, hb2, hrun2⟩ := ih (n + 1)
    refine ⟨c, m2, hb, .body ?_⟩
    simp only [Abu.body]
    rw [← List.append_nil (List.replicate _ _)]
    refine Fin.call hrun fun c' => ?_
    simp only
    rw [if_neg (by simp)]
    refine Fin.mk hb2 (Fin.cont ?_)
    rw [List.append_nil, List.append_nil]
    exact hrun2

theorem StarEnds.ends (h : StarEnds env P dst bnd t j i m i' m') :
    Ends env (.rep 0 0 P) dst bnd t j i m .SUCCESS i' m' := by
  obtain ⟨c, m1, hb, hrun⟩ := h.runs 0
  refine ⟨_, _, hb.rep, ?_⟩
  simp only [marks]
  exact hrun

/-- The alternatives one after the other; the first one was constructed at `j`. -/
inductive AltEnds (env : Env) (dst bnd : Ref) (t : List Ch) : List Prog → Nat → Nat → Mem →
    Res → Nat → Mem → Prop
  | here {Q Ps j i m i' m'} : Ends env Q dst bnd t j i m .SUCCESS i' m' →
      AltEnds env dst bnd t (Q :: Ps) j i m .SUCCESS i' m'
  | last {Q j i m i' m'} : Ends env Q dst bnd t j i m .FAILURE i' m' →
      AltEnds env dst bnd t [Q] j i m .FAILURE i' m'
  | cons {Q Ps j i m r i1 m1 i' m'} : Ends env Q dst bnd t j i m .FAILURE i1 m1 →
      AltEnds env dst bnd t Ps i1 i1 m1 r i' m' → AltEnds env dst bnd t (Q :: Ps) j i m r i' m'

theorem AltEnds.runs {Ps Ps0} (h : AltEnds env dst bnd t Ps j i m r i' m') :
    ∀ k, Ps0.drop k = Ps → ∃ P c m1, Ps0[k]? = some P ∧ Built P dst bnd t j m c m1 ∧
      Runs env (.alt Ps0) dst bnd (.alt k c) t i (List.replicate (marks P) j) m1 r i' [] m' := by
  induction h with
  | @here P Ps j i m i' m' h =>
    intro k h2
    obtain ⟨e2, e3⟩ := getElem?_of_drop h2
    obtain ⟨c, m1, hb, hrun⟩ := h
    refine ⟨P, c, m1, e2, hb, .body ?_⟩
    simp only [Abu.body, e2]
    rw [← List.append_nil (List.replicate _ _)]
    refine Fin.call hrun fun c' => ?_
    exact .ret
  | @last P j i m i' m' h =>
    intro k h2
    obtain ⟨e2, e3⟩ := getElem?_of_drop h2
    obtain ⟨c, m1, hb, hrun⟩ := h
    refine ⟨P, c, m1, e2, hb, .body ?_⟩
    have e4 : Ps0[k + 1]? = none := by
      rw [List.getElem?_eq_none_iff]; simpa using e3
    simp only [Abu.body, e2]
    rw [← List.append_nil (List.replicate _ _)]
    refine Fin.call hrun fun c' => ?_
    simp only [e4]
    exact .ret
  | @cons P Ps j i m r i1 m1 i' m' h _ ih =>
    intro k h2
    obtain ⟨e2, h2'⟩ := getElem?_of_drop h2
    obtain ⟨c, m2, hb, hrun⟩ := h
    obtain ⟨P', c2, m3, e2', hb', hrun'⟩ := ih (k + 1) h2'
    refine ⟨P, c, m2, e2, hb, .body ?_⟩
    simp only [Abu.body, e2]
    rw [← List.append_nil (List.replicate _ _)]
    refine Fin.call hrun fun c' => ?_
    simp only [e2']
    refine Fin.mk hb' (Fin.cont ?_)
    rw [List.append_nil, List.append_nil]
    exact hrun'

theorem AltEnds.ends {Ps} (h : AltEnds env dst bnd t Ps j i m r i' m') :
    Ends env (.alt Ps) dst bnd t j i m r i' m' := by
  obtain ⟨P, c, m1, e2, hb, hrun⟩ := h.runs 0 rfl
  cases Ps with
  | nil => simp at e2
  | cons P0 Ps =>
    simp only [List.getElem?_cons_zero, Option.some.injEq] at e2
    subst e2
    refine ⟨_, _, hb.alt, ?_⟩
    simp only [marks]
    exact hrun

end
end Abu
