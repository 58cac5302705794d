import Verif.Props.Points
import Verif.Props.Time
import Verif.Proofs.PointsTime
/-
C70, for all patterns: how many rollback points there are at the same time when optional parts may be
anywhere. `C70_refuted` shows that the number can grow with the text; here is how fast at most.
-/
namespace Abu

/-! ### The number of iterations bounds it -/

/-- C70 (partial: the bound is not a constant), `parse`, all patterns and all environments with finitely
many `Recur` objects: there are never more rollback points at the same time than a constant times the
number of iterations `parse` goes through (C71). -/
theorem C70_parse_within_time_partial (env : Env) (ids : List Nat) (hids : ∀ id, env id ≠ none → id ∈ ids)
    (p : Pat) :
    ∃ K, ∀ dst m t r w k, ParsesMetered env p dst m t r w → ParsesIn env p dst m t r k →
      w.ds.peak ≤ K * k := by
  obtain ⟨ok, M, h0, hm, hok⟩ := exists_uses hids p
  refine ⟨2 * M + 1, fun dst m t r w k h hk => ?_⟩
  obtain ⟨n, hn⟩ := points_parse h0 hm hok h
  exact Nat.le_trans hn (Nat.mul_le_mul_left _ (hk.steps n))

/-- The same for parser objects, whatever buffers arrive and whenever `consume` is called. -/
theorem C70_parser_object_within_time_partial (env : Env) (ids : List Nat)
    (hids : ∀ id, env id ≠ none → id ∈ ids) (p : Pat) :
    ∃ K, ∀ dst m ops r w, ParserAfterMetered env p dst m ops r w →
      ∃ n, w.ds.peak ≤ K * (objectSteps env n p dst m ops + 1) := by
  obtain ⟨ok, M, h0, hm, hok⟩ := exists_uses hids p
  exact ⟨M + 1, fun dst m ops r w h => points_object h0 hm hok h⟩

/-! ### The length of the text bounds it -/

theorem noRefs_ids (env : Env) {p : Pat} (hp : p.refs = []) :
    ∃ (ok : Prog → Prop) (M : Nat), ok (topParser p) ∧ marks (topParser p) ≤ M ∧
      ∀ q, ok q → ∀ q', CallsClass env q q' → ok q' ∧ marks q' ≤ M := by
  obtain ⟨M, hM⟩ : ∃ M, M = (topParser p).weight fun _ => 0 := ⟨_, rfl⟩
  have hok : (topParser p).skipsIn fun _ => False :=
    elabP_skipsIn p _ _ trivial fun h => absurd hp h
  refine ⟨Sized (fun _ => 0) (fun _ => False) M, M, ⟨Nat.le_of_eq hM.symm, hok⟩,
    Nat.le_trans (marks_le _ _) (Nat.le_of_eq hM.symm), fun q hq q' ⟨b, hu⟩ => ?_⟩
  have := sized_child (env := env) (f := fun _ => 0) (K := fun _ => False) (M := M)
    (fun _ _ _ _ h _ => h.elim) hq hu
  exact ⟨this, Nat.le_trans (marks_le _ _) this.1⟩

/-- C70 (partial: the bound is not a constant), `parse`, without `Recur`, optionals anywhere: the number
of rollback points is bounded by a polynomial in the length of the text, of the degree of C71. The
hypothesis on the loops is that of C38. -/
theorem C70_parse_optionals_anywhere_partial (env : Env) (p : Pat) (hp : p.refs = [])
    (consumes : Nat → Bool) (hloops : p.loopsEat consumes = true) :
    ∃ K, ∀ dst m t r w, ParsesMetered env p dst m t r w →
      w.ds.peak ≤ K * (t.length + 1) ^ p.loops 0 := by
  obtain ⟨ok, M, h0, hm, hok⟩ := noRefs_ids env hp
  obtain ⟨K, hK⟩ := C71_parse_without_recursion_partial env p hp consumes hloops
  refine ⟨(2 * M + 1) * K, fun dst m t r w h => ?_⟩
  obtain ⟨n, hn⟩ := points_parse h0 hm hok h
  rw [Nat.mul_assoc]
  exact Nat.le_trans hn (Nat.mul_le_mul_left _ (hK n dst m t))

/-- Parser objects: the calls of `consume` count too. -/
theorem C70_parser_object_optionals_anywhere_partial (env : Env) (p : Pat) (hp : p.refs = [])
    (consumes : Nat → Bool) (hloops : p.loopsEat consumes = true) :
    ∃ K, ∀ dst m ops r w, ParserAfterMetered env p dst m ops r w →
      w.ds.peak ≤ K * (((opsText ops).length + 1) ^ p.loops 0 + consumeCalls ops) := by
  obtain ⟨ok, M, h0, hm, hok⟩ := noRefs_ids env hp
  obtain ⟨K, H, hK⟩ := C71_parser_object_without_recursion_partial env p hp consumes hloops
  refine ⟨(M + 1) * (K + H + 1), fun dst m ops r w h => ?_⟩
  obtain ⟨n, hn⟩ := points_object h0 hm hok h
  rw [Nat.mul_assoc]
  refine Nat.le_trans hn (Nat.mul_le_mul_left _ ?_)
  have h1 := hK n dst m ops
  have h2 : 1 ≤ ((opsText ops).length + 1) ^ p.loops 0 := Nat.pow_pos (Nat.succ_pos _)
  generalize ((opsText ops).length + 1) ^ p.loops 0 = A at h1 h2 ⊢
  have h3 : (K + H + 1) * (A + consumeCalls ops)
      = K * A + K * consumeCalls ops + (H * A + H * consumeCalls ops) + (A + consumeCalls ops) := by
    rw [Nat.add_mul, Nat.add_mul, Nat.mul_add, Nat.mul_add, Nat.one_mul]
  omega

/-- C70 (partial: the bound is not linear), `parse`, with `Recur`, optionals anywhere: at most exponential.
The hypotheses are those of C38. -/
theorem C70_parse_at_most_exponential_partial (env : Env) (consumes : Nat → Bool) (ids : List Nat)
    (hids : ∀ id, env id ≠ none → id ∈ ids) (p : Pat) (hloops : p.loopsEat consumes = true)
    (hset : ∀ a ∈ p.refs, env a ≠ none) (henv : env.LoopsEat consumes)
    (hleft : WellFounded (LeftCalls env consumes)) :
    ∃ K C, ∀ dst m t r w, ParsesMetered env p dst m t r w → w.ds.peak ≤ K * C ^ t.length := by
  obtain ⟨ok, M, h0, hm, hok⟩ := exists_uses hids p
  obtain ⟨K, C, hK⟩ := C71_at_most_exponential_partial env consumes ids hids p hloops hset henv hleft
  refine ⟨(2 * M + 1) * K, C, fun dst m t r w h => ?_⟩
  obtain ⟨n, hn⟩ := points_parse h0 hm hok h
  rw [Nat.mul_assoc]
  exact Nat.le_trans hn (Nat.mul_le_mul_left _ (hK n dst m t))

/-! ### Examples -/

/-- `*(-lit('a') >> 'b')`: an optional in a loop, which the bounds of `Props/Points` do not cover. -/
def optLoop : Pat := .rep 0 0 (.seq [.opt (litC 97), litC 98])
example : optLoop.refs = [] ∧ optLoop.loopsEat (fun _ => false) = true ∧ optLoop.loops 0 = 1 ∧
    optLoop.optionalsOutsideLoops = false := ⟨rfl, rfl, rfl, rfl⟩
example : ∀ id, (fun _ => none : Env) id ≠ none → id ∈ [] := fun _ h => absurd rfl h

/-- `-char_('a') % ','`, the pattern of `C70_refuted`: the bound is linear, and by `C70_refuted` it cannot
be less. -/
example : entries.refs = [] ∧ entries.loopsEat (fun _ => false) = true ∧ entries.loops 0 = 1 := ⟨rfl, rfl, rfl⟩

/-- On `a,a,a` there are up to four at the same time. -/
example : (∃ w, ParsesMetered (fun _ => none) entries .nil ⟨[], []⟩ (entriesText 2) .SUCCESS w ∧
    4 ≤ w.ds.peak) := by
  obtain ⟨w, h1, _, h3⟩ := C70_refuted (fun _ => none) 2 ⟨[], []⟩
  exact ⟨w, h1, h3⟩

/-- A parser object in the middle of `a,a`. -/
example : ∃ w, ParserAfterMetered (fun _ => none) entries .nil ⟨[], []⟩
    ([] ++ [.add [97, 44, 97, 44] false] ++ [.consume]) (some .PARTIAL) w ∧ 3 ≤ w.ds.peak :=
  ⟨_, ⟨_, .consume (.add _ _ (.made rfl) rfl) (.inl rfl) ⟨by simp, 19, rfl⟩⟩, by decide⟩

/-- `x := -('(' >> x >> ')') >> 'a'`: with `Recur`, an optional in the pattern it refers to. -/
def optNest : Pat := .seq [.opt (.seq [litC 40, .recur 0 false, litC 41]), litC 97]
def optNestEnv : Env := fun n => if n = 0 then some optNest else none
example : (∀ id, optNestEnv id ≠ none → id ∈ [0]) ∧ (Pat.recur 0 false).loopsEat (fun _ => true) = true ∧
    (∀ a ∈ (Pat.recur 0 false).refs, optNestEnv a ≠ none) ∧ optNestEnv.LoopsEat (fun _ => true) ∧
    WellFounded (LeftCalls optNestEnv fun _ => true) ∧ ¬ optNestEnv.noOptional := by
  have hq : ∀ id q, optNestEnv id = some q → q = optNest := by
    intro id q h
    unfold optNestEnv at h
    split at h
    · cases h; rfl
    · cases h
  have h0 : optNestEnv 0 ≠ none := by simp [optNestEnv]
  refine ⟨fun id h => ?_, rfl, ?_, ⟨?_, ?_, ?_⟩, ⟨fun b => ⟨_, ?_⟩⟩, fun h => ?_⟩
  · unfold optNestEnv at h
    split at h
    · simpa
    · exact absurd rfl h
  · intro a ha
    simp [Pat.refs] at ha
    subst ha; exact h0
  · intro id q h; rw [hq id q h]; rfl
  · intro id q h _; rw [hq id q h]; rfl
  · intro id q h a ha
    rw [hq id q h] at ha
    simp [optNest, Pat.refs, Pat.refsAll, litC, charP] at ha
    subst ha; exact h0
  · rintro a ⟨q, h, ha⟩
    rw [hq b q h] at ha
    simp [optNest, Pat.heads, Pat.headsAll, Pat.headsSeq, Pat.eats, litC, charP] at ha
  · exact absurd (h 0 optNest rfl) (by decide)

/-- It reads `(a)a`. -/
example : ∃ w, ParsesMetered optNestEnv (.recur 0 false) .nil ⟨[], []⟩ [40, 97, 41, 97] .SUCCESS w ∧
    0 < w.ds.peak :=
  ⟨_, ⟨_, _, _, rfl, by simp, 30, rfl⟩, by decide⟩

end Abu
