import Verif.Proofs.Ends
import Verif.Proofs.Eval
/-
Uses of a parser that end in undefined behaviour, as far as needed for the calculator.
-/
namespace Abu

/-- Undefined because of an overflow or of the copy of an unusable value. -/
def BadArith (e : Err) : Prop := e = .ubOverflow ∨ e = .ubUninit

theorem BadArith.ne {e} (h : BadArith e) : e ≠ .fuel := by
  rcases h with rfl | rfl <;> simp

/-- `consume` is called and the behaviour is undefined. -/
def RunsErr (env : Env) (P : Prog) (dst bnd : Ref) (st : PState) (t : List Ch) (i : Nat) (K : List Nat)
    (m : Mem) : Prop :=
  ∀ S, ∃ n e, BadArith e ∧ run env n P dst bnd st (cw t i (K ++ S) m) = .error e

/-- The same for the rest of an iteration, and the following iterations. -/
def FinErr (env : Env) (P : Prog) (dst bnd : Ref) (x : Cmd Step) (t : List Ch) (i : Nat) (K : List Nat)
    (m : Mem) : Prop :=
  ∀ S, ∃ n e, BadArith e ∧ andThen env n P dst bnd (exec (run env n) x (cw t i (K ++ S) m)) = .error e

/-- An object is constructed at position `j`, and calling its `consume` at position `i` is undefined. -/
def Dies (env : Env) (P : Prog) (dst bnd : Ref) (t : List Ch) (j i : Nat) (m : Mem) : Prop :=
  ∃ st m1, Built P dst bnd t j m st m1 ∧ RunsErr env P dst bnd st t i (List.replicate (marks P) j) m1

section
variable {env : Env} {P : Prog} {dst bnd : Ref} {t : List Ch} {j i : Nat} {K : List Nat} {m : Mem}

theorem andThen_err_mono {n n' : Nat} (hn : n ≤ n') {x : Cmd Step} {w : World Cursor Mem} {e : Err}
    (he : e ≠ .fuel) (h : andThen env n P dst bnd (exec (run env n) x w) = .error e) :
    andThen env n' P dst bnd (exec (run env n') x w) = .error e := by
  have hx : exec (run env n) x w ≠ .error .fuel := by
    intro hx; rw [hx] at h
    have : Err.fuel = e := by simpa [andThen] using h
    exact he this.symm
  rw [exec_mono (run_mono env hn) _ _ hx]
  cases hz : exec (run env n) x w with
  | error e' => rw [hz] at h; exact h
  | ok z =>
    obtain ⟨s, w'⟩ := z
    rw [hz] at h
    cases s with
    | ret r st' => cases h
    | cont st' =>
      exact (run_mono env hn _ _ _ _ _ (by
        rw [show run env n P dst bnd st' w' = .error e from h]
        simpa using he)).trans h

theorem RunsErr.body {st} (h : FinErr env P dst bnd (body env P dst bnd st) t i K m) :
    RunsErr env P dst bnd st t i K m := by
  intro S
  obtain ⟨n, e, he, h⟩ := h S
  exact ⟨n + 1, e, he, by rw [run_succ_andThen, h]⟩

theorem FinErr.cont {st} (h : RunsErr env P dst bnd st t i K m) :
    FinErr env P dst bnd (contS st) t i K m := by
  intro S
  obtain ⟨n, e, he, h⟩ := h S
  exact ⟨n, e, he, h⟩

theorem FinErr.mk {p d b c m1} {k : PState → Cmd Step} (hb : Built p d b t i m c m1)
    (h : FinErr env P dst bnd (k c) t i (List.replicate (marks p) i ++ K) m1) :
    FinErr env P dst bnd ((mk p d b).bind k) t i K m := by
  intro S
  obtain ⟨n, e, he, h⟩ := h S
  refine ⟨n, e, he, ?_⟩
  rw [hb.bind, ← List.append_assoc]
  exact h

theorem FinErr.mem {k o e} (he : BadArith e) (ho : m.run o = .error e) :
    FinErr env P dst bnd (.mem o k) t i K m :=
  fun S => ⟨0, e, he, by simp only [exec, cw, Store.op, ho]; rfl⟩

/-- The child's `consume` is undefined. -/
theorem FinErr.here {p d b c k E} (hc : RunsErr env p d b c t i K m) :
    FinErr env P dst bnd (.call p d b c k) t i (K ++ E) m := by
  intro S
  obtain ⟨n, e, he, hc⟩ := hc (E ++ S)
  refine ⟨n, e, he, ?_⟩
  simp only [exec, List.append_assoc, hc]
  rfl

theorem FinErr.here' {p d b c k} (hc : RunsErr env p d b c t i K m) :
    FinErr env P dst bnd (.call p d b c k) t i K m := by
  have := FinErr.here (P := P) (dst := dst) (bnd := bnd) (k := k) (E := []) hc
  rwa [List.append_nil] at this

/-- What comes after the child's `consume` is. -/
theorem FinErr.call {p d b c k r1 i1 K1 E m1} (hc : Runs env p d b c t i K m r1 i1 K1 m1)
    (h : ∀ c', FinErr env P dst bnd (k r1 c') t i1 (K1 ++ E) m1) :
    FinErr env P dst bnd (.call p d b c k) t i (K ++ E) m := by
  obtain ⟨n1, c', hc⟩ := hc
  intro S
  obtain ⟨n2, e, he, h2⟩ := h c' S
  refine ⟨max n1 n2, e, he, ?_⟩
  have h1 := run_mono env (Nat.le_max_left n1 n2) _ _ _ _ _
    (by rw [hc (E ++ S)]; simp)
  rw [hc] at h1
  rw [List.append_assoc] at h2
  have h3 := andThen_err_mono (Nat.le_max_right n1 n2) he.ne h2
  simp only [exec, List.append_assoc, h1]
  exact h3

theorem Dies.withSkipper (h : Dies env P dst bnd t j i m) : Dies env (.withSkipper P) dst bnd t j i m := by
  obtain ⟨st, m1, hb, hr⟩ := h
  refine ⟨_, _, hb.withSkipper, .body ?_⟩
  simp only [marks, Abu.body]
  exact .here' hr

theorem Dies.bindDst (h : Dies env P dst dst t j i m) : Dies env (.bindDst P) dst bnd t j i m := by
  obtain ⟨st, m1, hb, hr⟩ := h
  refine ⟨_, _, hb.bindDst, .body ?_⟩
  simp only [marks, Abu.body]
  exact .here' hr

theorem Dies.clean (h : Dies env P dst bnd t j i m) : Dies env (.clean P) dst bnd t j i m := by
  obtain ⟨st, m0, hb, hr⟩ := h
  refine ⟨_, _, hb.clean, .body ?_⟩
  simp only [marks, Abu.body]
  rw [List.replicate_succ']
  exact .here hr

/-- The operand is undefined. -/
theorem Dies.action {a} (h : Dies env P (m.alloc a.landing).1 bnd t j i (m.alloc a.landing).2) :
    Dies env (.action a P) dst bnd t j i m := by
  obtain ⟨st, m0, hb, hr⟩ := h
  refine ⟨_, _, hb.action, .body ?_⟩
  simp only [marks, Abu.body]
  exact .here' hr

/-- The call of the action is. -/
theorem Dies.act {a m1 e i'} (h : Ends env P (m.alloc a.landing).1 bnd t j i (m.alloc a.landing).2 .SUCCESS i' m1)
    (he : BadArith e) (ha : m1.act a (m.alloc a.landing).1 dst bnd = .error e) :
    Dies env (.action a P) dst bnd t j i m := by
  obtain ⟨st, m0, hb, hr⟩ := h
  refine ⟨_, _, hb.action, .body ?_⟩
  simp only [marks, Abu.body]
  rw [← List.append_nil (List.replicate _ _)]
  refine FinErr.call hr fun c' => ?_
  exact FinErr.mem he ha

theorem Dies.recur {id q sk} (hq : env id = some q) (h : Dies env (elabP sk RecurChildReqs q) dst bnd t i i m) :
    Dies env (.recur id sk) dst bnd t j i m := by
  obtain ⟨st, m0, hb, hr⟩ := h
  refine ⟨_, _, Built.recur, .body ?_⟩
  simp only [marks, Abu.body, hq]
  refine FinErr.mk hb (FinErr.cont (RunsErr.body ?_))
  simp only [Abu.body, hq]
  exact .here hr

theorem Skips.runsErr {S sc k} (h : Skips env S sc t i k) (hS : Stateless S sc) {c K}
    (hc : RunsErr env P dst bnd c t k K m) :
    RunsErr env (.skip S P) dst bnd (.skip false sc c) t i K m := by
  induction h with
  | stop h1 =>
    refine .body ?_
    simp only [Abu.body]
    rw [← List.nil_append K]
    refine FinErr.call (h1 m) fun sc' => .cont (.body ?_)
    simp only [Abu.body]
    rw [List.nil_append]
    exact .here' hc
  | more h1 _ ih =>
    refine .body ?_
    simp only [Abu.body]
    rw [← List.nil_append K]
    refine FinErr.call (h1 m) fun sc' => FinErr.mk (hS.built _ _ _) (.cont ?_)
    rw [hS.marks]
    exact ih hc

theorem Dies.skip {S sc k} (hS : Stateless S sc) (hk : Skips env S sc t i k)
    (h : Dies env P dst bnd t j k m) : Dies env (.skip S P) dst bnd t j i m := by
  obtain ⟨st, m0, hb, hr⟩ := h
  refine ⟨.skip false sc st, m0, fun call T => ?_, ?_⟩
  · simp only [mk, (hS.built t j m).bind, hb.bind, exec, marks, hS.marks, Nat.add_zero,
      List.replicate_zero, List.nil_append, Nat.zero_add]
  · simp only [marks, hS.marks, Nat.add_zero, Nat.zero_add]
    exact hk.runsErr hS hr

/-! ### Several children -/

/-- Some child of a sequence is undefined. -/
inductive SeqDies (env : Env) (dst bnd : Ref) (t : List Ch) : List (Option Nat) → List Prog → Nat →
    Nat → Mem → Prop
  | here {s ss Q Ps d j i m} : seqDst dst s = some d → Dies env Q d bnd t j i m →
      SeqDies env dst bnd t (s :: ss) (Q :: Ps) j i m
  | cons {s ss Q Ps d j i m i1 m1} : seqDst dst s = some d →
      Ends env Q d bnd t j i m .SUCCESS i1 m1 → SeqDies env dst bnd t ss Ps i1 i1 m1 →
      SeqDies env dst bnd t (s :: ss) (Q :: Ps) j i m

theorem SeqDies.runs {ss Ps slots0 Ps0} (h : SeqDies env dst bnd t ss Ps j i m) :
    ∀ k, slots0.drop k = ss → Ps0.drop k = Ps →
    ∃ s P d c m1, slots0[k]? = some s ∧ Ps0[k]? = some P ∧ seqDst dst s = some d ∧
      Built P d bnd t j m c m1 ∧ RunsErr env (.seq slots0 Ps0) dst bnd (.seq k c) t i
        (List.replicate (marks P) j) m1 := by
  induction h with
  | @here s ss P Ps d j i m hd h =>
    intro k h1 h2
    obtain ⟨e1, _⟩ := getElem?_of_drop h1
    obtain ⟨e2, e3⟩ := getElem?_of_drop h2
    obtain ⟨c, m1, hb, hrun⟩ := h
    refine ⟨s, P, d, c, m1, e1, e2, hd, hb, .body ?_⟩
    simp only [Abu.body, e1, e2, hd]
    exact .here' hrun
  | @cons s ss P Ps d j i m i1 m1 hd h _ ih =>
    intro k h1 h2
    obtain ⟨e1, h1'⟩ := getElem?_of_drop h1
    obtain ⟨e2, h2'⟩ := getElem?_of_drop h2
    obtain ⟨c, m2, hb, hrun⟩ := h
    obtain ⟨s', P', d', c2, m3, e1', e2', hd', hb', hrun'⟩ := ih (k + 1) h1' h2'
    refine ⟨s, P, d, c, m2, e1, e2, hd, hb, .body ?_⟩
    simp only [Abu.body, e1, e2, hd]
    rw [← List.append_nil (List.replicate _ _)]
    refine FinErr.call hrun fun c' => ?_
    simp only [e1', e2', hd']
    refine FinErr.mk hb' (FinErr.cont ?_)
    rw [List.append_nil, List.append_nil]
    exact hrun'

theorem SeqDies.dies {slots Ps} (h : SeqDies env dst bnd t slots Ps j i m) :
    Dies env (.seq slots Ps) dst bnd t j i m := by
  obtain ⟨s, P, d, c, m1, e1, e2, hd, hb, hrun⟩ := h.runs 0 rfl rfl
  cases slots with
  | nil => simp at e1
  | cons s0 ss =>
    cases Ps with
    | nil => simp at e2
    | cons P0 Ps =>
      simp only [List.getElem?_cons_zero, Option.some.injEq] at e1 e2
      subst e1 e2
      refine ⟨_, _, hb.seq hd, ?_⟩
      simp only [marks]
      exact hrun

/-- Some item of a repetition without bounds is undefined. -/
inductive StarDies (env : Env) (P : Prog) (dst bnd : Ref) (t : List Ch) : Nat → Nat → Mem → Prop
  | here {j i : Nat} {m : Mem} : Dies env P dst bnd t j i m → StarDies env P dst bnd t j i m
  | more {j i i1 : Nat} {m m1 : Mem} : Ends env P dst bnd t j i m .SUCCESS i1 m1 →
      StarDies env P dst bnd t i1 i1 m1 → StarDies env P dst bnd t j i m

theorem StarDies.runs (h : StarDies env P dst bnd t j i m) : ∀ n,
    ∃ c m1, Built P dst bnd t j m c m1 ∧ RunsErr env (.rep 0 0 P) dst bnd (.rep n c) t i
      (List.replicate (marks P) j) m1 := by
  induction h with
  | here h =>
    intro n
    obtain ⟨c, m1, hb, hrun⟩ := h
    refine ⟨c, m1, hb, .body ?_⟩
    simp only [Abu.body]
    exact .here' hrun
  | more h _ ih =>
    intro n
    obtain ⟨c, m2, hb, hrun⟩ := h
    obtain ⟨c2, m3, hb2, hrun2⟩ := ih (n + 1)
    refine ⟨c, m2, hb, .body ?_⟩
    simp only [Abu.body]
    rw [← List.append_nil (List.replicate _ _)]
    refine FinErr.call hrun fun c' => ?_
    simp only
    rw [if_neg (by simp)]
    refine FinErr.mk hb2 (FinErr.cont ?_)
    rw [List.append_nil, List.append_nil]
    exact hrun2

theorem StarDies.dies (h : StarDies env P dst bnd t j i m) : Dies env (.rep 0 0 P) dst bnd t j i m := by
  obtain ⟨c, m1, hb, hrun⟩ := h.runs 0
  refine ⟨_, _, hb.rep, ?_⟩
  simp only [marks]
  exact hrun

/-- Some alternative is undefined. -/
inductive AltDies (env : Env) (dst bnd : Ref) (t : List Ch) : List Prog → Nat → Nat → Mem → Prop
  | here {Q Ps j i m} : Dies env Q dst bnd t j i m → AltDies env dst bnd t (Q :: Ps) j i m
  | cons {Q Ps j i m i1 m1} : Ends env Q dst bnd t j i m .FAILURE i1 m1 →
      AltDies env dst bnd t Ps i1 i1 m1 → AltDies env dst bnd t (Q :: Ps) j i m

theorem AltDies.runs {Ps Ps0} (h : AltDies env dst bnd t Ps j i m) :
    ∀ k, Ps0.drop k = Ps → ∃ P c m1, Ps0[k]? = some P ∧ Built P dst bnd t j m c m1 ∧
      RunsErr env (.alt Ps0) dst bnd (.alt k c) t i (List.replicate (marks P) j) m1 := by
  induction h with
  | @here P Ps j i m h =>
    intro k h2
    obtain ⟨e2, e3⟩ := getElem?_of_drop h2
    obtain ⟨c, m1, hb, hrun⟩ := h
    refine ⟨P, c, m1, e2, hb, .body ?_⟩
    simp only [Abu.body, e2]
    exact .here' hrun
  | @cons P Ps j i m i1 m1 h _ ih =>
    intro k h2
    obtain ⟨e2, h2'⟩ := getElem?_of_drop h2
    obtain ⟨c, m2, hb, hrun⟩ := h
    obtain ⟨P', c2, m3, e2', hb', hrun'⟩ := ih (k + 1) h2'
    refine ⟨P, c, m2, e2, hb, .body ?_⟩
    simp only [Abu.body, e2]
    rw [← List.append_nil (List.replicate _ _)]
    refine FinErr.call hrun fun c' => ?_
    simp only [e2']
    refine FinErr.mk hb' (FinErr.cont ?_)
    rw [List.append_nil, List.append_nil]
    exact hrun'

theorem AltDies.dies {Ps} (h : AltDies env dst bnd t Ps j i m) : Dies env (.alt Ps) dst bnd t j i m := by
  obtain ⟨P, c, m1, e2, hb, hrun⟩ := h.runs 0 rfl
  cases Ps with
  | nil => simp at e2
  | cons P0 Ps =>
    simp only [List.getElem?_cons_zero, Option.some.injEq] at e2
    subst e2
    refine ⟨_, _, hb.alt, ?_⟩
    simp only [marks]
    exact hrun

theorem Dies.parses {p} (h : Dies env (topParser p) dst dst t 0 0 m) :
    ∃ e, BadArith e ∧ Parses env p dst m t (.error e) := by
  obtain ⟨st, m1, hb, hr⟩ := h
  obtain ⟨n, e, he, hr⟩ := hr []
  refine ⟨e, he, parses_of_parseN (n := n) ?_⟩
  have hc : Abu.construct (topParser p) dst dst (⟨Cursor.whole t, m⟩ : World Cursor Mem) = _ := hb _ []
  unfold parseN
  rw [hc]
  simp only [exec, hr]
  rcases he with rfl | rfl <;> rfl

end
end Abu
