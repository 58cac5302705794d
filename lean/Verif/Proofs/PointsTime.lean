import Verif.Proofs.PointsApi
import Verif.Proofs.TimeObject
/-
The number of rollback points is at most a constant times the number of iterations.
-/
namespace Abu

/-- Whatever happens, the command creates at most that many rollback points itself, and calls only classes
that are `ok`. -/
def Cmd.Few (ok : Prog → Prop) {α : Type} : Cmd α → Nat → Prop
  | .pure _, _ => True
  | .fault _, _ => True
  | .isEmpty k, B => ∀ b, (k b).Few ok B
  | .isFinal k, B => ∀ b, (k b).Few ok B
  | .next k, B => ∀ c, (k c).Few ok B
  | .advance k, B => k.Few ok B
  | .prepare k, B => ∃ B', B = B' + 1 ∧ k.Few ok B'
  | .commit k, B => k.Few ok B
  | .cancel k, B => k.Few ok B
  | .mem _ k, B => k.Few ok B
  | .alloc _ k, B => ∀ r, (k r).Few ok B
  | .call p _ _ _ k, B => ok p ∧ ∀ r s, (k r s).Few ok B

variable {ok : Prog → Prop}

theorem Cmd.Few.mono {α : Type} {c : Cmd α} : ∀ {B B' : Nat}, c.Few ok B → B ≤ B' → c.Few ok B' := by
  induction c with
  | pure | fault => intros; trivial
  | isEmpty k ih | isFinal k ih | next k ih | alloc t k ih => intro B B' h hB x; exact ih x (h x) hB
  | advance k ih | commit k ih | cancel k ih | mem o k ih => intro B B' h hB; exact ih h hB
  | prepare k ih =>
    rintro B B' ⟨n, rfl, h⟩ hB
    exact ⟨B' - 1, by omega, ih h (by omega)⟩
  | call p d b s k ih => intro B B' h hB; exact ⟨h.1, fun r s => ih r s (h.2 r s) hB⟩

theorem Cmd.Few.bind {α β : Type} {c : Cmd α} {f : α → Cmd β} {B' : Nat}
    (hf : ∀ a, (f a).Few ok B') : ∀ {B : Nat}, c.Few ok B → (c.bind f).Few ok (B + B') := by
  induction c with
  | pure a => intro B _; exact (hf a).mono (Nat.le_add_left _ _)
  | fault => intros; trivial
  | isEmpty k ih | isFinal k ih | next k ih | alloc t k ih => intro B h x; exact ih x (h x)
  | advance k ih | commit k ih | cancel k ih | mem o k ih => intro B h; exact ih h
  | prepare k ih =>
    rintro B ⟨n, rfl, h⟩
    exact ⟨n + B', by omega, ih h⟩
  | call p d b s k ih => intro B h; exact ⟨h.1, fun r s => ih r s (h.2 r s)⟩

theorem few_pure {α β : Type} {c : Cmd α} {B : Nat} (h : c.Few ok B) (f : α → β) :
    (c.bind fun a => .pure (f a)).Few ok B :=
  Cmd.Few.bind (B' := 0) (f := fun a => .pure (f a)) (fun _ => trivial) h

theorem few_prepare {α β : Type} {c : Cmd α} {B : Nat} (h : c.Few ok B) (f : α → β) :
    (c.bind fun a => .prepare (.pure (f a))).Few ok (B + 1) :=
  Cmd.Few.bind (B' := 1) (f := fun a => .prepare (.pure (f a))) (fun _ => ⟨0, rfl, trivial⟩) h

/-- The constructor of a class. -/
theorem mk_few : ∀ (p : Prog) (dst bnd : Ref), (mk p dst bnd).Few ok (marks p)
  | .char _, _, _ => trivial
  | .charSymbol _, _, _ => trivial
  | .strLit _, _, _ => trivial
  | .symbol _, _, _ => trivial
  | .int .., _, _ => trivial
  | .uint .., _, _ => trivial
  | .eoi, _, _ => trivial
  | .pass, _, _ => trivial
  | .fail, _, _ => trivial
  | .seq (s :: _) (p :: _), dst, bnd => by
    rw [mk, marks]
    split
    · trivial
    · exact few_pure (mk_few p _ bnd) _
  | .seq [] _, _, _ => by rw [mk]; · trivial
                          all_goals nofun
  | .seq (_ :: _) [], _, _ => by rw [mk]; · trivial
                                 all_goals nofun
  | .alt (p :: _), dst, bnd => few_pure (mk_few p dst bnd) _
  | .alt [], _, _ => trivial
  | .rep _ _ p, dst, bnd => few_pure (mk_few p dst bnd) _
  | .opt p, dst, bnd => few_prepare (mk_few p dst bnd) _
  | .not p, dst, bnd => few_prepare (mk_few p dst bnd) _
  | .discard p, _, bnd => few_pure (mk_few p .nil bnd) _
  | .lexeme p, dst, bnd => few_pure (mk_few p dst bnd) _
  | .bindDst p, dst, _ => few_pure (mk_few p dst dst) _
  | .construct _ p, _, bnd => fun r => few_pure (mk_few p r bnd) _
  | .action _ p, _, bnd => fun r => few_pure (mk_few p r bnd) _
  | .except _ neg, _, bnd => few_pure (mk_few neg .nil bnd) _
  | .list op _, dst, bnd => few_prepare (mk_few op dst bnd) _
  | .withSkipper p, dst, bnd => few_pure (mk_few p dst bnd) _
  | .recur _ _, _, _ => trivial
  | .atomic p, _, bnd => fun r => few_pure (mk_few p r bnd) _
  | .clean p, dst, bnd => few_prepare (mk_few p dst bnd) _
  | .skip s p, dst, bnd =>
    Cmd.Few.bind (fun sc => few_pure (mk_few p dst bnd) fun c => PState.skip false sc c)
      (mk_few s .nil .nil)

/-- What `body` of a class calls. -/
abbrev CallsClass (env : Env) (p q : Prog) : Prop := ∃ b, CalledIn env (fun _ => false) 0 p b q

theorem guarded_few {st : PState} {e : Cmd Step} {k : Ch → Cmd Step} {B : Nat} (he : e.Few ok B)
    (hk : ∀ c, (k c).Few ok B) : (guarded st e k).Few ok B := by
  intro b
  cases b with
  | true =>
    intro f
    cases f
    · trivial
    · exact he
  | false => exact hk

theorem negIf_few {neg : Bool} {dst : Ref} {k : Cmd Step} {B : Nat} (hk : k.Few ok B) :
    (negIf neg dst k).Few ok B := by
  unfold negIf
  split <;> exact hk

/-- Finds out how a class is used. -/
local macro "uses" : tactic => `(tactic| first
  | exact ⟨_, .opt⟩ | exact ⟨_, .not⟩ | exact ⟨_, .discard⟩ | exact ⟨_, .lexeme⟩ | exact ⟨_, .bindDst⟩
  | exact ⟨_, .construct⟩ | exact ⟨_, .action⟩ | exact ⟨_, .exceptNeg⟩ | exact ⟨_, .withSkipper⟩
  | exact ⟨_, .atomic⟩ | exact ⟨_, .clean⟩ | exact ⟨_, .skipped⟩
  | exact ⟨1, .rep (Nat.zero_le _)⟩ | exact ⟨1, .exceptOp (Nat.zero_le _)⟩
  | exact ⟨1, .listOp (Nat.zero_le _)⟩ | exact ⟨1, .listSep (Nat.zero_le _) fun _ => Nat.zero_lt_one⟩
  | exact ⟨1, .skipper (Nat.zero_le _)⟩ | exact ⟨_, .recur (by assumption)⟩
  | exact ⟨1, .alt (by assumption) (Nat.zero_le _)⟩
  | exact ⟨1, .seq (by assumption) (Nat.zero_le _) fun _ _ _ _ _ => Nat.zero_lt_one⟩)

/-- One iteration. -/
theorem body_few {env : Env} {M : Nat} (p : Prog) (dst bnd : Ref) (st : PState)
    (h : ∀ q, CallsClass env p q → ok q ∧ marks q ≤ M) : (body env p dst bnd st).Few ok (M + 1) := by
  have hm : ∀ {q d b} {f : PState → Cmd Step}, CallsClass env p q → (∀ c, (f c).Few ok 0) →
      ((mk q d b).bind f).Few ok M := fun hq hf =>
    Cmd.Few.mono (Cmd.Few.bind hf (mk_few _ _ _)) (h _ hq).2
  have hm' : ∀ {q d b} {f : PState → Cmd Step}, CallsClass env p q → (∀ c, (f c).Few ok 0) →
      ((mk q d b).bind f).Few ok (M + 1) := fun hq hf => (hm hq hf).mono (Nat.le_succ _)
  unfold body
  split
  all_goals try simp only []
  all_goals repeat' first
    | trivial
    | exact hm' (by uses) (fun _ => trivial)
    | exact hm (by uses) (fun _ => trivial)
    | refine ⟨(h _ (by uses)).1, fun _ _ => ?_⟩
    | refine guarded_few ?_ fun _ => ?_
    | refine negIf_few ?_
    | refine (⟨M, rfl, ?_⟩ : ∃ B', M + 1 = B' + 1 ∧ _)
    | split
    | simp only [Cmd.Few]

section
variable {σ μ : Type} [DataSource σ] [Store μ] {g : Gauge σ}

/-- The gauge has not risen by more than `n`. -/
def Gauge.Rises (g : Gauge σ) (n : Nat) (w w' : World σ μ) : Prop :=
  g.pts w'.ds ≤ g.peak w'.ds ∧ g.peak w'.ds ≤ g.peak w.ds + n

/-- A command: as many as it creates itself, and those created in calls. -/
theorem exec_rises {call : Prog → Ref → Ref → PState → World σ μ → Out σ μ (Res × PState)} {cost}
    {C : Nat} (hcall : ∀ q d b s (w : World σ μ) x w', ok q → g.pts w.ds ≤ g.peak w.ds →
      call q d b s w = .ok (x, w') → g.Rises (C * cost q d b s w) w w')
    {α : Type} (c : Cmd α) : ∀ (B : Nat) (w : World σ μ) (a : α) (w' : World σ μ), c.Few ok B →
      g.pts w.ds ≤ g.peak w.ds → exec call c w = .ok (a, w') →
      g.Rises (B + C * callSteps call cost c w) w w' := by
  induction c with
  | pure a =>
    intro B w a' w' _ hw he
    simp only [exec] at he
    cases he
    exact ⟨hw, Nat.le_add_right _ _⟩
  | fault e => intro B w a' w' _ hw he; cases he
  | isEmpty k ih => intro B w a w' hf hw he; exact ih _ B w a w' (hf _) hw he
  | isFinal k ih => intro B w a w' hf hw he; exact ih _ B w a w' (hf _) hw he
  | next k ih =>
    intro B w a w' hf hw he
    simp only [exec] at he
    simp only [callSteps]
    cases hx : DataSource.next w.ds with
    | none => rw [hx] at he; cases he
    | some ch => rw [hx] at he; exact ih _ B w a w' (hf _) hw he
  | advance k ih =>
    intro B w a w' hf hw he
    simp only [exec] at he
    simp only [callSteps]
    cases hx : DataSource.advance w.ds with
    | none => rw [hx] at he; cases he
    | some ds =>
      rw [hx] at he
      have h := g.advance hx
      have := ih B { w with ds } a w' hf (by show g.pts ds ≤ g.peak ds; omega) he
      exact ⟨this.1, by have := this.2; show _ ≤ _; simp only [h.2] at this; exact this⟩
  | prepare k ih =>
    rintro B w a w' ⟨B', rfl, hf⟩ hw he
    have h := g.prepare w.ds
    have := ih B' { w with ds := DataSource.prepare w.ds } a w' hf
      (by show g.pts (DataSource.prepare w.ds) ≤ g.peak (DataSource.prepare w.ds); omega) he
    refine ⟨this.1, ?_⟩
    have h2 := this.2
    simp only [h.2] at h2
    simp only [callSteps]
    omega
  | commit k ih =>
    intro B w a w' hf hw he
    simp only [exec] at he
    simp only [callSteps]
    cases hx : DataSource.commit w.ds with
    | none => rw [hx] at he; cases he
    | some ds =>
      rw [hx] at he
      have h := g.commit hx
      have := ih B { w with ds } a w' hf (by show g.pts ds ≤ g.peak ds; omega) he
      exact ⟨this.1, by have := this.2; show _ ≤ _; simp only [h.2] at this; exact this⟩
  | cancel k ih =>
    intro B w a w' hf hw he
    simp only [exec] at he
    simp only [callSteps]
    cases hx : DataSource.cancel w.ds with
    | none => rw [hx] at he; cases he
    | some ds =>
      rw [hx] at he
      have h := g.cancel hx
      have := ih B { w with ds } a w' hf (by show g.pts ds ≤ g.peak ds; omega) he
      exact ⟨this.1, by have := this.2; show _ ≤ _; simp only [h.2] at this; exact this⟩
  | mem o k ih =>
    intro B w a w' hf hw he
    simp only [exec] at he
    simp only [callSteps]
    cases hx : Store.op o w.mem with
    | error e => rw [hx] at he; cases he
    | ok mem => rw [hx] at he; exact ih B { w with mem } a w' hf hw he
  | alloc t k ih =>
    intro B w a w' hf hw he
    exact ih _ B { w with mem := (Store.alloc t w.mem).2 } a w' (hf _) hw he
  | call p d b s k ih =>
    intro B w a w' hf hw he
    simp only [exec] at he
    simp only [callSteps]
    cases hx : call p d b s w with
    | error e => rw [hx] at he; cases he
    | ok y =>
      obtain ⟨⟨r, s'⟩, w1⟩ := y
      rw [hx] at he
      obtain ⟨h1, h2⟩ := hcall _ _ _ _ _ _ _ hf.1 hw hx
      obtain ⟨h3, h4⟩ := ih r s' B w1 a w' (hf.2 r s') h1 he
      refine ⟨h3, ?_⟩
      simp only []
      rw [Nat.mul_add]
      omega

/-- A run. -/
theorem run_rises {env : Env} {M : Nat}
    (hok : ∀ p, ok p → ∀ q, CallsClass env p q → ok q ∧ marks q ≤ M) (n : Nat) :
    ∀ p d b s (w : World σ μ) x w', ok p → g.pts w.ds ≤ g.peak w.ds →
      run env n p d b s w = .ok (x, w') → g.Rises ((M + 1) * steps env n p d b s w) w w' := by
  induction n with
  | zero => intro p d b s w x w' _ _ h; cases h
  | succ n ih =>
    intro p d b s w x w' hp hw h
    rw [run_succ_eq] at h
    rw [steps_succ]
    cases hx : exec (run env n) (body env p d b s) w with
    | error e => rw [hx] at h; cases h
    | ok y =>
      obtain ⟨st, w1⟩ := y
      obtain ⟨h1, h2⟩ := exec_rises (g := g) (cost := steps env n) (C := M + 1) ih (body env p d b s) (M + 1) w st w1
        (body_few p d b s (hok p hp)) hw hx
      rw [hx] at h
      cases st with
      | ret r s' =>
        cases h
        refine ⟨h1, ?_⟩
        simp only [Nat.mul_add, Nat.mul_one, Nat.add_zero]
        exact h2
      | cont s' =>
        obtain ⟨h3, h4⟩ := ih p d b s' w1 x w' hp h1 h
        refine ⟨h3, ?_⟩
        simp only [Nat.mul_add (M + 1), Nat.mul_one]
        omega

end

theorem marks_le (f : Nat → Nat) : ∀ p : Prog, marks p ≤ p.weight f
  | .seq _ (p :: ps) => by
    have := marks_le f p
    simp only [marks, Prog.weight, Prog.weightAll]; omega
  | .alt (p :: ps) => by
    have := marks_le f p
    simp only [marks, Prog.weight, Prog.weightAll]; omega
  | .rep _ _ p | .opt p | .not p | .discard p | .lexeme p | .bindDst p | .construct _ p | .action _ p
  | .withSkipper p | .atomic p | .clean p => by
    have := marks_le f p
    simp only [marks, Prog.weight]; omega
  | .except op neg => by
    have := marks_le f neg
    simp only [marks, Prog.weight]; omega
  | .list op sep => by
    have := marks_le f op
    simp only [marks, Prog.weight]; omega
  | .skip s p => by
    have := marks_le f s
    have := marks_le f p
    simp only [marks, Prog.weight]; omega
  | .seq _ [] | .alt [] | .char _ | .charSymbol _ | .strLit _ | .symbol _ | .int .. | .uint .. | .eoi
  | .pass | .fail | .recur .. => Nat.zero_le _

/-- With finitely many `Recur` objects there are finitely many classes. -/
theorem exists_uses {env : Env} {ids : List Nat} (hids : ∀ id, env id ≠ none → id ∈ ids) (p : Pat) :
    ∃ (ok : Prog → Prop) (M : Nat), ok (topParser p) ∧ marks (topParser p) ≤ M ∧
      ∀ q, ok q → ∀ q', CallsClass env q q' → ok q' ∧ marks q' ≤ M := by
  obtain ⟨K, M, hp, hM⟩ := exists_sized (fun _ => 0) hids p
  refine ⟨Sized (fun _ => 0) K M, M, hp, Nat.le_trans (marks_le _ _) hp.1, fun q hq q' ⟨b, hu⟩ => ?_⟩
  have := sized_child hM hq hu
  exact ⟨this, Nat.le_trans (marks_le _ _) this.1⟩

section
variable {σ μ : Type} [DataSource σ] [Store μ] {g : Gauge σ}

/-- A constructor. -/
theorem construct_rises {p : Prog} {d b : Ref} {w : World σ μ} {st w'} (hw : g.pts w.ds ≤ g.peak w.ds)
    (h : construct p d b w = .ok (st, w')) : g.Rises (marks p) w w' := by
  have := exec_rises (g := g) (ok := fun _ => False) (cost := fun _ _ _ _ _ => 0) (C := 0)
    (call := fun _ _ _ _ _ => .error .stuck) (fun _ _ _ _ _ _ _ h => h.elim) (mk p d b) (marks p) w st w'
    (mk_few p d b) hw h
  rwa [Nat.zero_mul, Nat.add_zero] at this

end

theorem points_parse {env : Env} {p : Pat} {M : Nat} (h0 : ok (topParser p)) (hm : marks (topParser p) ≤ M)
    (hok : ∀ q, ok q → ∀ q', CallsClass env q q' → ok q' ∧ marks q' ≤ M) {dst m t r w}
    (h : ParsesMetered env p dst m t r w) :
    ∃ n, w.ds.peak ≤ (2 * M + 1) * parseSteps env n p dst m t := by
  obtain ⟨st, w₀, st', h1, _, n, h2⟩ := h
  have hR : DsSim (fun (s : Metered SingleForward) (c : SingleForward) => s.ds = c) :=
    Metered.dsSim DsSim.eq
  have hc := construct_sim (μ := Mem) hR (topParser p) dst dst
    (s := Metered.start (SingleForward.make t)) (c := SingleForward.make t) m rfl
  obtain ⟨r1, r2⟩ := construct_rises (g := Metered.gauge SingleForward.pointsFollow) (Nat.le_refl _) h1
  obtain ⟨-, r4⟩ := run_rises (g := Metered.gauge SingleForward.pointsFollow) hok n _ _ _ _ _ _ _ h0 r1 h2
  refine ⟨n, ?_⟩
  rw [h1] at hc
  generalize hx : construct (topParser p) dst dst
    (⟨SingleForward.make t, m⟩ : World SingleForward Mem) = x at hc
  cases hc with
  | @ok _ s c m₁ hr =>
    unfold parseSteps
    rw [hx]
    simp only []
    rw [← steps_sim hR env n (topParser p) dst dst st m₁ hr]
    cases n with
    | zero => cases h2
    | succ n =>
      have hpos : 1 ≤ steps env (n + 1) (topParser p) dst dst st ⟨s, m₁⟩ := by
        rw [steps_succ]; omega
      have h5 : s.peak ≤ 0 + marks (topParser p) := r2
      have h6 : w.ds.peak ≤ s.peak + (M + 1) * steps env (n + 1) (topParser p) dst dst st ⟨s, m₁⟩ := r4
      have h7 := Nat.mul_le_mul_left M hpos
      rw [show 2 * M + 1 = M + (M + 1) by omega, Nat.add_mul]
      omega

theorem points_driven {env : Env} {p : Prog} {M : Nat} (h0 : ok p) (hm : marks p ≤ M)
    (hok : ∀ q, ok q → ∀ q', CallsClass env q q' → ok q' ∧ marks q' ≤ M) {dst m st₀ w₀}
    (hc : construct p dst dst
      (⟨Metered.start ContainerSeq.make, m⟩ : World (Metered ContainerSeq) Mem) = .ok (st₀, w₀))
    {ops r st w} (h : Driven Metered.addBuffer (Metered.start ContainerSeq.make) env p dst m ops r st w) :
    Points.points w.ds.ds ≤ w.ds.peak ∧ ∃ N S, w.ds.peak ≤ M + (M + 1) * S ∧ ∀ n, N ≤ n → ∀ tail,
      S + (if r = none ∨ r = some .PARTIAL then
        sessionSteps Metered.addBuffer env n p dst st w tail else 0) ≤
      sessionSteps Metered.addBuffer env n p dst st₀ w₀ (ops ++ tail) := by
  induction h with
  | made h1 =>
    rw [hc] at h1
    cases h1
    obtain ⟨r1, r2⟩ := construct_rises (g := Metered.gauge ContainerSeq.pointsFollow) (Nat.le_refl _) hc
    have r2' : w₀.ds.peak ≤ 0 + marks p := r2
    refine ⟨r1, 0, 0, by omega, fun n _ tail => ?_⟩
    simp
  | @add ops r st w ds b f _ ha ih =>
    obtain ⟨ih0, N, S, ih1, ih2⟩ := ih
    obtain ⟨s', hs', rfl⟩ := Option.map_some_inv ha
    have hpts := ContainerSeq.addBuffer_points hs'
    refine ⟨by show Points.points s' ≤ max w.ds.peak (Points.points s'); omega, N, S,
      by show max w.ds.peak (Points.points s') ≤ _; omega, fun n hn tail => ?_⟩
    have := ih2 n hn (.add b f :: tail)
    rw [List.append_assoc]
    refine Nat.le_trans ?_ this
    split
    · simp only [sessionSteps, ha]; exact Nat.le_refl _
    · exact Nat.le_refl _
  | @consume ops r st w r' st' w' _ hr he ih =>
    obtain ⟨ih0, N, S, ih1, ih2⟩ := ih
    obtain ⟨hne, k, hk⟩ := he
    obtain ⟨r3, r4⟩ := run_rises (g := Metered.gauge ContainerSeq.pointsFollow) hok k _ _ _ _ _ _ _ h0 ih0 hk
    have r4' : w'.ds.peak ≤ w.ds.peak + (M + 1) * steps env k p dst dst st w := r4
    refine ⟨r3, max N k, S + steps env k p dst dst st w, ?_, fun n hn tail => ?_⟩
    · rw [Nat.mul_add]; omega
    · have hn' : k ≤ n := by omega
      have hrun : run env n p dst dst st w = .ok ((r', st'), w') := by
        have := run_mono env hn' p dst dst st w (by rw [hk]; simp)
        rw [this, hk]
      have hst : steps env n p dst dst st w = steps env k p dst dst st w :=
        steps_unique env (by rw [hrun]; simp) (by rw [hk]; simp)
      have := ih2 n (by omega) (.consume :: tail)
      rw [if_pos hr] at this
      rw [List.append_assoc]
      refine Nat.le_trans ?_ this
      simp only [sessionSteps, hrun, hst]
      cases r' <;> simp <;> omega

theorem points_object {env : Env} {p : Pat} {M : Nat} (h0 : ok (topParser p)) (hm : marks (topParser p) ≤ M)
    (hok : ∀ q, ok q → ∀ q', CallsClass env q q' → ok q' ∧ marks q' ≤ M) {dst m ops r w}
    (h : ParserAfterMetered env p dst m ops r w) :
    ∃ n, w.ds.peak ≤ (M + 1) * (objectSteps env n p dst m ops + 1) := by
  obtain ⟨st, h⟩ := h
  have hR : DsSim (fun (s : Metered ContainerSeq) (c : ContainerSeq) => s.ds = c) :=
    Metered.dsSim DsSim.eq
  have hc := construct_sim (μ := Mem) hR (topParser p) dst dst
    (s := Metered.start ContainerSeq.make) (c := ContainerSeq.make) m rfl
  have hex : ∃ st₀ w₀, construct (topParser p) dst dst
      (⟨Metered.start ContainerSeq.make, m⟩ : World (Metered ContainerSeq) Mem) = .ok (st₀, w₀) := by
    clear hc
    induction h with
    | made h => exact ⟨_, _, h⟩
    | add _ _ _ _ ih => exact ih
    | consume _ _ _ ih => exact ih
  obtain ⟨st₀, w₀, h1⟩ := hex
  obtain ⟨-, N, S, h2, h3⟩ := points_driven h0 hm hok h1 h
  have h4 := h3 N (Nat.le_refl _) []
  rw [List.append_nil] at h4
  refine ⟨N, ?_⟩
  rw [h1] at hc
  generalize hx : construct (topParser p) dst dst
    (⟨ContainerSeq.make, m⟩ : World ContainerSeq Mem) = x at hc
  cases hc with
  | @ok _ s c m₁ hr =>
    unfold objectSteps
    rw [hx]
    simp only []
    rw [← sessionSteps_sim (add := Metered.addBuffer) hR ?_ N (topParser p) dst ops hr]
    · have h5 : S ≤ sessionSteps Metered.addBuffer env N (topParser p) dst st₀ ⟨s, m₁⟩ ops := by omega
      have h6 := Nat.mul_le_mul_left (M + 1) h5
      rw [Nat.mul_add]
      omega
    · intro s c b f hsc
      subst hsc
      simp only [Metered.addBuffer]
      cases s.ds.addBuffer b f with
      | none => exact .none
      | some d => exact .some rfl

end Abu
