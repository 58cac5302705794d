import Verif.Proofs.Bridge
import Verif.Proofs.Apply
/-
A parser only sees the text from where it starts and the rollback points it created.
-/
namespace Abu

/-- The same place in a suffix of the text and in the text, the latter with older rollback
points. -/
def FrameRel (d : Nat) (S0 : List Nat) (c c' : Cursor) : Prop :=
  c.text = c'.text.drop d ∧ c'.pos = c.pos + d ∧ c'.saved = c.saved.map (· + d) ++ S0 ∧
  c.final = c'.final

/-- Same outcome on related cursors, unless the left one uses the data source wrongly. -/
inductive FrameOut {μ α : Type} (d : Nat) (S0 : List Nat) : Out Cursor μ α → Out Cursor μ α → Prop
  | ub (y) : FrameOut d S0 (.error .ubData) y
  | error (e) : FrameOut d S0 (.error e) (.error e)
  | ok (a) {s c m} : FrameRel d S0 s c → FrameOut d S0 (.ok (a, ⟨s, m⟩)) (.ok (a, ⟨c, m⟩))

section
variable {μ : Type} [Store μ] {d : Nat} {S0 : List Nat}

theorem exec_frame
    {f g : Prog → Ref → Ref → PState → World Cursor μ → Out Cursor μ (Res × PState)}
    (h : ∀ p a b st s c m, FrameRel d S0 s c →
      FrameOut d S0 (f p a b st ⟨s, m⟩) (g p a b st ⟨c, m⟩))
    {α : Type} (x : Cmd α) {s c} (m : μ) (hr : FrameRel d S0 s c) :
    FrameOut d S0 (exec f x ⟨s, m⟩) (exec g x ⟨c, m⟩) := by
  induction x generalizing s c m with
  | pure a => exact .ok a hr
  | fault e => exact .error e
  | isEmpty k ih =>
    have : (DataSource.empty s : Bool) = DataSource.empty c := by
      obtain ⟨h1, h2, h3, h4⟩ := hr
      show decide (s.text.length ≤ s.pos) = decide (c.text.length ≤ c.pos)
      rw [h1, h2, List.length_drop]
      exact decide_eq_decide.2 (by omega)
    simp only [exec]; rw [this]; exact ih _ m hr
  | isFinal k ih =>
    have : (DataSource.final s : Bool) = DataSource.final c := hr.2.2.2
    simp only [exec]; rw [this]; exact ih _ m hr
  | next k ih =>
    have : (DataSource.next s : Option Ch) = DataSource.next c := by
      obtain ⟨h1, h2, h3, h4⟩ := hr
      show s.text[s.pos]? = c.text[c.pos]?
      rw [h1, h2, List.getElem?_drop, Nat.add_comm]
    simp only [exec]; rw [this]
    cases DataSource.next c with
    | none => exact .error _
    | some ch => exact ih _ m hr
  | advance k ih =>
    simp only [exec]
    obtain ⟨h1, h2, h3, h4⟩ := hr
    by_cases hlt : s.pos < s.text.length
    · have hlt' : c.pos < c.text.length := by rw [h1, List.length_drop] at hlt; omega
      have e1 : DataSource.advance s = some { s with pos := s.pos + 1 } := if_pos hlt
      have e2 : DataSource.advance c = some { c with pos := c.pos + 1 } := if_pos hlt'
      rw [e1, e2]
      exact ih m ⟨h1, by simp only; omega, h3, h4⟩
    · have e1 : DataSource.advance s = none := if_neg hlt
      rw [e1]; exact .ub _
  | prepare k ih =>
    obtain ⟨h1, h2, h3, h4⟩ := hr
    refine ih m ⟨h1, h2, ?_, h4⟩
    show c.pos :: c.saved = (s.pos :: s.saved).map _ ++ S0
    rw [h2, h3]; rfl
  | commit k ih =>
    simp only [exec]
    obtain ⟨h1, h2, h3, h4⟩ := hr
    obtain ⟨tx, ps, sv, fn⟩ := s
    cases sv with
    | nil => exact .ub _
    | cons a sv =>
      obtain ⟨tx', ps', sv', fn'⟩ := c
      simp only at h1 h2 h3 h4
      subst h3
      exact ih m ⟨h1, rfl, rfl, h4⟩
  | cancel k ih =>
    simp only [exec]
    obtain ⟨h1, h2, h3, h4⟩ := hr
    obtain ⟨tx, ps, sv, fn⟩ := s
    cases sv with
    | nil => exact .ub _
    | cons a sv =>
      obtain ⟨tx', ps', sv', fn'⟩ := c
      simp only at h1 h2 h3 h4
      subst h3
      exact ih m ⟨h1, h2, rfl, h4⟩
  | mem o k ih =>
    simp only [exec]
    cases Store.op o m with
    | error e => exact .error e
    | ok m' => exact ih m' hr
  | alloc t k ih => exact ih _ _ hr
  | call p a b st k ih =>
    have hc := h p a b st s c m hr
    simp only [exec]
    generalize f p a b st ⟨s, m⟩ = x at *
    generalize g p a b st ⟨c, m⟩ = y at *
    cases hc with
    | ub y => exact .ub _
    | error e => exact .error e
    | ok a hr' => obtain ⟨r, st'⟩ := a; exact ih r st' _ hr'

theorem run_frame (env : Env) (n : Nat) (p dst bnd st) {s c} (m : μ) (hr : FrameRel d S0 s c) :
    FrameOut d S0 (run env n p dst bnd st ⟨s, m⟩) (run env n p dst bnd st ⟨c, m⟩) := by
  induction n generalizing p dst bnd st s c m with
  | zero => exact .error _
  | succ n ih =>
    have he := exec_frame (fun p a b st s c m h => ih p a b st m h) (body env p dst bnd st) m hr
    rw [run_succ_andThen, run_succ_andThen]
    generalize exec (run env n) (body env p dst bnd st) ⟨s, m⟩ = x at *
    generalize exec (run env n) (body env p dst bnd st) ⟨c, m⟩ = y at *
    cases he with
    | ub y => exact .ub _
    | error e => exact .error e
    | ok a hr' =>
      cases a with
      | ret r st' => exact .ok _ hr'
      | cont st' => exact ih _ _ _ _ _ hr'

theorem construct_frame (p dst bnd) {s c} (m : μ) (hr : FrameRel d S0 s c) :
    FrameOut d S0 (construct p dst bnd ⟨s, m⟩) (construct p dst bnd ⟨c, m⟩) :=
  exec_frame (fun _ _ _ _ _ _ _ _ => .error _) _ m hr

/-- A use of a parser on the ghost world. -/
def GhostApplies (env : Env) (P : Prog) (t : List Ch) (i : Nat) (S : List Nat) (r : Res) (i' : Nat)
    (S' : List Nat) : Prop :=
  ∃ st w n st', construct P .nil .nil (gw t i S) = .ok (st, w) ∧
    run env n P .nil .nil st w = .ok ((r, st'), gw t i' S')

theorem construct_shape {P : Prog} {t i S st w} (h : construct P .nil .nil (gw t i S) = .ok (st, w)) :
    ∃ S1, w = gw t i S1 := by
  have ht := exec_text (fun _ _ _ _ _ _ _ h => by cases h) _ _ h
  have hf := exec_final (fun _ _ _ _ _ _ _ h => by cases h) _ _ h
  have ho := mk_owns (call := fun _ _ _ _ _ => .error .stuck) unit_foreignOps (fun _ => none) P
    .nil .nil (gw t i S)
  change Post _ _ (construct P .nil .nil (gw t i S)) at ho
  rw [h] at ho
  obtain ⟨n, _, _, hp⟩ := ho
  obtain ⟨⟨tx, i', S', f⟩, u⟩ := w
  simp only at ht hf hp
  subst ht hf hp
  exact ⟨S', rfl⟩

theorem ghostApplies_iff {env P t r rest} : GhostParses env P t r rest ↔
    ∃ i' S', GhostApplies env P t 0 [] r i' S' ∧ rest = t.drop i' := by
  constructor
  · rintro ⟨st, w, n, st', w', h1, h2, rfl⟩
    obtain ⟨S1, rfl⟩ := construct_shape h1
    have ht := run_text env _ P _ _ _ _ h2
    have hf := run_final env _ P _ _ _ _ h2
    obtain ⟨⟨tx, i', S', f⟩, u⟩ := w'
    simp only at ht hf
    subst ht hf
    exact ⟨i', S', ⟨st, _, n, st', h1, h2⟩, rfl⟩
  · rintro ⟨i', S', ⟨st, w, n, st', h1, h2⟩, rfl⟩
    exact ⟨st, w, n, st', _, h1, h2, rfl⟩

theorem frameRel_start (t : List Ch) (d : Nat) (S0 : List Nat) :
    FrameRel d S0 ⟨t.drop d, 0, [], true⟩ ⟨t, d, S0, true⟩ :=
  ⟨rfl, by simp, rfl, rfl⟩

theorem GhostApplies.down {env P t d S0 r j S1} (h : GhostApplies env P t d S0 r j S1) :
    ∃ i' S', GhostApplies env P (t.drop d) 0 [] r i' S' ∧ j = i' + d := by
  obtain ⟨st, w, n, st', h1, h2⟩ := h
  have hc := construct_frame (μ := Unit) P .nil .nil () (frameRel_start t d S0)
  have ho := mk_owns (call := fun _ _ _ _ _ => .error .stuck) unit_foreignOps env P
    .nil .nil (gw (t.drop d) 0 [])
  change Post _ _ (construct P .nil .nil (gw (t.drop d) 0 [])) at ho
  change FrameOut d S0 (construct P .nil .nil (gw (t.drop d) 0 []))
    (construct P .nil .nil (gw t d S0)) at hc
  rw [h1] at hc
  generalize hcc : construct P .nil .nil (gw (t.drop d) 0 []) = x at hc ho
  cases hc with
  | ub => exact absurd rfl ho.1
  | @ok _ s c m hr =>
    obtain ⟨k, ho, hs, _⟩ := ho
    have hr2 := run_frame (d := d) (S0 := S0) env n P .nil .nil st m hr
    have hk := run_keeps unit_foreignOps env n _ .nil .nil st ⟨s, m⟩ k 0 ho (by rw [hs]; simp)
    rw [h2] at hr2
    generalize hx : run env n P .nil .nil st ⟨s, m⟩ = x at hr2 hk
    cases hr2 with
    | ub => exact absurd rfl hk.1
    | @ok _ s2 c2 m2 hr3 =>
      obtain ⟨S1', hw⟩ := construct_shape hcc
      have ht := run_text env _ P _ _ _ _ hx
      have hf := run_final env _ P _ _ _ _ hx
      rw [hw] at ht hf
      obtain ⟨tx, i', S', f⟩ := s2
      simp only at ht hf
      subst ht hf
      exact ⟨i', S', ⟨st, _, n, st', hcc, hx⟩, hr3.2.1⟩

theorem GhostApplies.up {env P t d r i' S'} (h : GhostApplies env P (t.drop d) 0 [] r i' S')
    (S0 : List Nat) : ∃ S1, GhostApplies env P t d S0 r (i' + d) S1 := by
  obtain ⟨st, w, n, st', h1, h2⟩ := h
  have hc := construct_frame (μ := Unit) P .nil .nil () (frameRel_start t d S0)
  change FrameOut d S0 (construct P .nil .nil (gw (t.drop d) 0 []))
    (construct P .nil .nil (gw t d S0)) at hc
  rw [h1] at hc
  generalize hcc : construct P .nil .nil (gw t d S0) = x at hc
  cases hc with
  | @ok _ s c m hr =>
    have hr2 := run_frame (d := d) (S0 := S0) env n P .nil .nil st m hr
    rw [h2] at hr2
    generalize hx : run env n P .nil .nil st ⟨c, m⟩ = x at hr2
    cases hr2 with
    | @ok _ s2 c2 m2 hr3 =>
      obtain ⟨S1', hw⟩ := construct_shape hcc
      have ht := run_text env _ P _ _ _ _ hx
      have hf := run_final env _ P _ _ _ _ hx
      rw [hw] at ht hf
      obtain ⟨tx, j, S1, f⟩ := c2
      simp only at ht hf
      subst ht hf
      have : j = i' + d := hr3.2.1
      subst this
      exact ⟨S1, st, _, n, st', hcc, hx⟩

theorem GhostApplies.parses {env P t d S0 r j S1} (h : GhostApplies env P t d S0 r j S1) :
    GhostParses env P (t.drop d) r (t.drop j) := by
  obtain ⟨i', S', h2, rfl⟩ := h.down
  exact ghostApplies_iff.2 ⟨i', S', h2, by rw [List.drop_drop, Nat.add_comm]⟩

theorem GhostParses.applies {env P t d r rest} (h : GhostParses env P (t.drop d) r rest)
    (S0 : List Nat) : ∃ j S1, GhostApplies env P t d S0 r j S1 ∧ rest = t.drop j := by
  obtain ⟨i', S', h2, rfl⟩ := ghostApplies_iff.1 h
  obtain ⟨S1, h3⟩ := h2.up S0
  exact ⟨_, S1, h3, by rw [List.drop_drop, Nat.add_comm]⟩

/-! ### Sequences -/

theorem exec_mk_call {σ μ : Type} [DataSource σ] [Store μ]
    {f g : Prog → Ref → Ref → PState → World σ μ → Out σ μ (Res × PState)}
    (p : Prog) (dst bnd : Ref) (w : World σ μ) :
    exec f (mk p dst bnd) w = exec g (mk p dst bnd) w := by
  fun_induction mk p dst bnd generalizing w <;>
    first
    | rfl
    | (rename_i ih; simp only [exec_bind, ih]; rfl)
    | (rename_i ih1 ih2; simp only [exec_bind, ih1, ih2]; rfl)
    | (rename_i ih; simp only [exec, exec_bind, ih])
    | skip

/-- Parsers one after the other. -/
inductive Chain (env : Env) : List Prog → List Ch → Res → List Ch → Prop
  | last {P t r rest} : GhostParses env P t r rest → Chain env [P] t r rest
  | stop {P Ps t r rest} : GhostParses env P t r rest → r ≠ .SUCCESS →
      Chain env (P :: Ps) t r rest
  | step {P Ps t t1 r rest} : GhostParses env P t .SUCCESS t1 → Chain env Ps t1 r rest →
      Chain env (P :: Ps) t r rest

/-- A sequence parser that has just constructed its child number `k`. -/
def SeqFrom (env : Env) (slots : List (Option Nat)) (Ps : List Prog) (k : Nat) (t : List Ch) (i : Nat)
    (S : List Nat) (r : Res) (i' : Nat) (S' : List Nat) : Prop :=
  ∃ P st w n st', Ps[k]? = some P ∧ construct P .nil .nil (gw t i S) = .ok (st, w) ∧
    run env n (.seq slots Ps) .nil .nil (.seq k st) w = .ok ((r, st'), gw t i' S')

/-- What a sequence does after a child. -/
def seqNext (env : Env) (slots : List (Option Nat)) (Ps : List Prog) (k n : Nat) (r : Res)
    (c : PState) (w : World Cursor Unit) : Out Cursor Unit (Res × PState) :=
  match r with
  | .SUCCESS =>
    match Ps[k + 1]? with
    | some P' =>
      match construct P' .nil .nil w with
      | .error e => .error e
      | .ok (c', w') => run env n (.seq slots Ps) .nil .nil (.seq (k + 1) c') w'
    | none => .ok ((.SUCCESS, .seq k c), w)
  | r => .ok ((r, .seq k c), w)

theorem run_seq {env slots Ps k P n c w} (hl : slots.length = Ps.length) (hP : Ps[k]? = some P) :
    run env (n + 1) (.seq slots Ps) .nil .nil (.seq k c) w =
      match run env n P .nil .nil c w with
      | .error e => .error e
      | .ok ((r, c'), w') => seqNext env slots Ps k n r c' w' := by
  have hs : ∀ j : Nat, (∃ p, Ps[j]? = some p) → ∃ s, slots[j]? = some s := by
    rintro j ⟨p, hp⟩
    have := (List.getElem?_eq_some_iff.1 hp).1
    exact ⟨slots[j], List.getElem?_eq_getElem (by omega)⟩
  obtain ⟨s, hsl⟩ := hs k ⟨P, hP⟩
  rw [run_succ_andThen]
  simp only [body, hP, hsl, seqDst, exec]
  cases run env n P .nil .nil c w with
  | error e => rfl
  | ok x =>
    obtain ⟨⟨r, c'⟩, w'⟩ := x
    cases r with
    | FAILURE => rfl
    | PARTIAL => rfl
    | SUCCESS =>
      simp only [seqNext]
      cases hP' : Ps[k + 1]? with
      | none => rfl
      | some P' =>
        obtain ⟨s', hsl'⟩ := hs (k + 1) ⟨P', hP'⟩
        simp only [hsl', exec_bind]
        rw [exec_mk_call (g := fun _ _ _ _ _ => .error .stuck)]
        rw [show exec (fun _ _ _ _ _ => .error .stuck) (mk P' .nil .nil) w' =
          construct P' .nil .nil w' from rfl]
        cases construct P' .nil .nil w' with
        | error e => rfl
        | ok y => obtain ⟨c'', w''⟩ := y; rfl

theorem SeqFrom.chain {env slots Ps t r i' S'} (hl : slots.length = Ps.length) : ∀ {n k i S P st w st'},
    Ps[k]? = some P → construct P .nil .nil (gw t i S) = .ok (st, w) →
    run env n (.seq slots Ps) .nil .nil (.seq k st) w = .ok ((r, st'), gw t i' S') →
    Chain env (Ps.drop k) (t.drop i) r (t.drop i') := by
  intro n
  induction n with
  | zero => intro k i S P st w st' _ _ h; cases h
  | succ n ih =>
    intro k i S P st w st' hP hc h
    rw [run_seq hl hP] at h
    have hd : Ps.drop k = P :: Ps.drop (k + 1) := by
      have := List.getElem?_eq_some_iff.1 hP
      obtain ⟨h1, rfl⟩ := this
      exact List.drop_eq_getElem_cons h1
    rw [hd]
    cases hr : run env n P .nil .nil st w with
    | error e => rw [hr] at h; cases h
    | ok x =>
      obtain ⟨⟨r1, c'⟩, w'⟩ := x
      rw [hr] at h
      have hw' : ∃ j S1, w' = gw t j S1 := by
        obtain ⟨S1', rfl⟩ := construct_shape hc
        have ht := run_text env _ P _ _ _ _ hr
        have hf := run_final env _ P _ _ _ _ hr
        obtain ⟨⟨tx, j, S1, f⟩, u⟩ := w'
        simp only at ht hf
        subst ht hf
        exact ⟨j, S1, rfl⟩
      obtain ⟨j, S1, rfl⟩ := hw'
      have ha : GhostApplies env P t i S r1 j S1 := ⟨st, w, n, c', hc, hr⟩
      cases r1 with
      | FAILURE => cases h; exact .stop ha.parses (by simp)
      | PARTIAL => cases h; exact .stop ha.parses (by simp)
      | SUCCESS =>
        simp only [seqNext] at h
        cases hP' : Ps[k + 1]? with
        | none =>
          rw [hP'] at h
          cases h
          have : Ps.drop (k + 1) = [] := List.drop_eq_nil_of_le (List.getElem?_eq_none_iff.1 hP')
          rw [this]
          exact .last ha.parses
        | some P' =>
          rw [hP'] at h
          cases hc2 : construct P' .nil .nil (gw t j S1) with
          | error e => simp only [hc2] at h; cases h
          | ok y =>
            obtain ⟨c'', w''⟩ := y
            simp only [hc2] at h
            exact .step ha.parses (ih hP' hc2 h)

theorem Chain.seqFrom {env slots Ps t Qs u r rest} (hl : slots.length = Ps.length)
    (h : Chain env Qs u r rest) : ∀ {k i}, Ps.drop k = Qs → u = t.drop i → ∀ S,
    ∃ i' S', SeqFrom env slots Ps k t i S r i' S' ∧ rest = t.drop i' := by
  have get : ∀ {k P Qs}, Ps.drop k = P :: Qs → Ps[k]? = some P ∧ Ps.drop (k + 1) = Qs := by
    intro k P Qs h
    constructor
    · have := congrArg List.head? h
      rwa [List.head?_drop] at this
    · have := congrArg List.tail h
      rwa [List.tail_drop] at this
  induction h with
  | @last P u r rest h =>
    intro k i hk hu S
    subst hu
    obtain ⟨hP, hd⟩ := get hk
    obtain ⟨j, S1, ⟨st, w, n, st', h1, h2⟩, rfl⟩ := h.applies S
    refine ⟨j, S1, ⟨P, st, w, n + 1, ?_⟩, rfl⟩
    rw [run_seq hl hP, h2]
    have : Ps[k + 1]? = none := by
      rw [← List.head?_drop, hd]; rfl
    cases r with
    | SUCCESS => simp only [seqNext, this]; exact ⟨_, hP, h1, rfl⟩
    | FAILURE => exact ⟨_, hP, h1, rfl⟩
    | PARTIAL => exact ⟨_, hP, h1, rfl⟩
  | @stop P Qs u r rest h hr =>
    intro k i hk hu S
    subst hu
    obtain ⟨hP, hd⟩ := get hk
    obtain ⟨j, S1, ⟨st, w, n, st', h1, h2⟩, rfl⟩ := h.applies S
    refine ⟨j, S1, ⟨P, st, w, n + 1, ?_⟩, rfl⟩
    rw [run_seq hl hP, h2]
    cases r with
    | SUCCESS => exact absurd rfl hr
    | FAILURE => exact ⟨_, hP, h1, rfl⟩
    | PARTIAL => exact ⟨_, hP, h1, rfl⟩
  | step h _ ih =>
    intro k i hk hu S
    subst hu
    obtain ⟨hP, hd⟩ := get hk
    obtain ⟨j, S1, ⟨st, w, n, st', h1, h2⟩, rfl⟩ := h.applies S
    obtain ⟨i', S', ⟨P', st2, w2, n2, st2', h3, h4, h5⟩, rfl⟩ := ih hd rfl S1
    refine ⟨i', S', ⟨_, st, w, max n n2 + 1, st2', hP, h1, ?_⟩, rfl⟩
    have e1 := run_mono env (Nat.le_max_left n n2) _ _ _ _ _ (by rw [h2]; simp)
    have e2 := run_mono env (Nat.le_max_right n n2) _ _ _ _ _ (by rw [h5]; simp)
    rw [run_seq hl hP, e1, h2]
    simp only [seqNext, h3, h4]
    rw [e2, h5]

/-- A sequence does what its children do one after the other. -/
theorem ghost_seq {env slots Ps t r rest} (hl : slots.length = Ps.length) :
    GhostParses env (.seq slots Ps) t r rest ↔ Chain env Ps t r rest := by
  cases Ps with
  | nil =>
    constructor
    · rintro ⟨st, w, n, st', w', h, _⟩
      cases slots <;> cases h
    · intro h; cases h
  | cons P Ps =>
    cases slots with
    | nil => cases hl
    | cons s slots =>
      have hmk : ∀ w : World Cursor Unit, construct (.seq (s :: slots) (P :: Ps)) .nil .nil w =
          match construct P .nil .nil w with
          | .error e => .error e
          | .ok (c, w') => .ok (.seq 0 c, w') := by
        intro w
        simp only [construct, mk, seqDst, exec_bind]
        cases exec (fun _ _ _ _ _ => .error .stuck) (mk P .nil .nil) w <;> rfl
      rw [ghostApplies_iff]
      constructor
      · rintro ⟨i', S', ⟨st, w, n, st', h1, h2⟩, rfl⟩
        rw [hmk] at h1
        cases hc : construct P .nil .nil (gw t 0 []) with
        | error e => rw [hc] at h1; cases h1
        | ok y =>
          obtain ⟨c, w1⟩ := y
          rw [hc] at h1
          cases h1
          exact SeqFrom.chain hl (k := 0) (i := 0) rfl hc h2
      · intro h
        obtain ⟨i', S', ⟨P', st, w, n, st', h1, h2, h3⟩, rfl⟩ :=
          h.seqFrom (t := t) (slots := s :: slots) (Ps := P :: Ps) hl (k := 0) (i := 0) rfl rfl []
        cases h1
        exact ⟨i', S', ⟨_, _, n, st', by rw [hmk, h2], h3⟩, rfl⟩

end
end Abu
