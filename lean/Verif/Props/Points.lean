import Verif.Props.Stack
import Verif.Proofs.PointsApi
/-
C70: how many rollback points there are at the same time.
-/
namespace Abu

/-! ### The gauge -/

/-- Reading the gauge changes nothing: `parse` with a gauge does what `parse` does. -/
theorem C70_gauge_is_passive (env : Env) (p : Pat) (dst : Ref) (m : Mem) (t : List Ch) (r : Res)
    (m' : Mem) (rest : List Ch) :
    Parses env p dst m t (.ok (r, m', rest)) ↔
      ∃ w, ParsesMetered env p dst m t r w ∧ w.mem = m' ∧ Reads w.ds.ds rest := by
  have hR : DsSim (fun (s : Metered SingleForward) (c : SingleForward) => s.ds = c) :=
    Metered.dsSim DsSim.eq
  have hc := construct_sim (μ := Mem) hR (topParser p) dst dst
    (s := Metered.start (SingleForward.make t)) (c := SingleForward.make t) m rfl
  constructor
  · intro h
    cases h with
    | @ok st w _ st' w' _ h1 h2 h3 =>
      rw [h1] at hc
      generalize hx : construct (topParser p) dst dst
        (⟨Metered.start (SingleForward.make t), m⟩ : World (Metered SingleForward) Mem) = x at hc
      cases hc with
      | @ok _ s _ m₁ hr =>
        obtain ⟨o, ho, hrel⟩ := h2.sim' hR hr
        cases hrel with
        | @ok _ s' _ m₂ hr' => exact ⟨_, ⟨_, _, _, hx, ho⟩, rfl, by rw [hr']; exact h3⟩
  · rintro ⟨w, ⟨st, w₀, st', h1, h2⟩, rfl, h3⟩
    rw [h1] at hc
    generalize hx : construct (topParser p) dst dst
      (⟨SingleForward.make t, m⟩ : World SingleForward Mem) = x at hc
    cases hc with
    | @ok _ s c m₁ hr =>
      obtain ⟨o, ho, hrel⟩ := h2.sim hR hr
      cases hrel with
      | @ok _ s' c' m₂ hr' =>
        have hr'' : s'.ds = c' := hr'
        exact .ok hx ho (by rw [← hr'']; exact h3)


/-- The same for parser objects. -/
theorem C70_gauge_is_passive_in_parser_objects (env : Env) (p : Pat) (dst : Ref) (m : Mem)
    (ops : List SOp) (r : Option Res) (w : World ContainerSeq Mem) :
    ParserAfter env p dst m ops r w ↔
      ∃ w', ParserAfterMetered env p dst m ops r w' ∧ w'.ds.ds = w.ds ∧ w'.mem = w.mem := by
  have hR : DsSim (fun (s : Metered ContainerSeq) (c : ContainerSeq) => s.ds = c) :=
    Metered.dsSim DsSim.eq
  have hc := construct_sim (μ := Mem) hR (topParser p) dst dst
    (s := Metered.start ContainerSeq.make) (c := ContainerSeq.make) m rfl
  constructor
  · rintro ⟨st, h⟩
    suffices h : ∃ w', Driven Metered.addBuffer (Metered.start ContainerSeq.make) env (topParser p)
        dst m ops r st w' ∧ w'.ds.ds = w.ds ∧ w'.mem = w.mem by
      obtain ⟨w', h1, h2⟩ := h; exact ⟨w', ⟨st, h1⟩, h2⟩
    induction h with
    | made h =>
      rw [h] at hc
      generalize hx : construct (topParser p) dst dst
        (⟨Metered.start ContainerSeq.make, m⟩ : World (Metered ContainerSeq) Mem) = x at hc
      cases hc with
      | @ok _ s _ m₁ hr => exact ⟨_, .made hx, hr, rfl⟩
    | @add ops r st w ds b f _ ha ih =>
      obtain ⟨w', h1, h2, h3⟩ := ih
      refine ⟨_, .add b f h1 (ds := ⟨ds, max w'.ds.peak (Points.points ds)⟩) ?_, rfl, h3⟩
      unfold Metered.addBuffer
      rw [h2, ha]; rfl
    | @consume ops r st w r' st' w' _ hr he ih =>
      obtain ⟨w₁, h1, h2, h3⟩ := ih
      obtain ⟨⟨s, pk⟩, m₁⟩ := w₁
      obtain ⟨c, m₂⟩ := w
      cases h2
      cases h3
      obtain ⟨o, ho, hrel⟩ := he.sim' hR (s := ⟨s, pk⟩) rfl
      cases hrel with
      | @ok _ s' _ m₃ hr' => exact ⟨_, .consume h1 hr ho, hr', rfl⟩
  · rintro ⟨w', ⟨st, h⟩, h2, h3⟩
    suffices h : Driven ContainerSeq.addBuffer ContainerSeq.make env (topParser p) dst m ops r st
        ⟨w'.ds.ds, w'.mem⟩ by
      rw [h2, h3] at h; exact ⟨st, h⟩
    clear h2 h3
    induction h with
    | made h =>
      rw [h] at hc
      generalize hx : construct (topParser p) dst dst
        (⟨ContainerSeq.make, m⟩ : World ContainerSeq Mem) = x at hc
      cases hc with
      | @ok _ s c m₁ hr =>
        have hr' : s.ds = c := hr
        rw [← hr'] at hx
        exact .made hx
    | @add ops r st w ds b f _ ha ih =>
      obtain ⟨s', hs', rfl⟩ := Option.map_some_inv ha
      exact .add b f ih hs'
    | @consume ops r st w r' st' w' _ hr he ih =>
      obtain ⟨o, ho, hrel⟩ := he.sim hR (s := w.ds) (c := w.ds.ds) rfl
      cases hrel with
      | @ok _ s' c' m₃ hr' =>
        have hr'' : s'.ds = c' := hr'
        rw [← hr''] at ho
        exact .consume ih hr ho

/-! ### The bounds -/

theorem ParsesMetered.verdict {env p dst m t r w} (h : ParsesMetered env p dst m t r w) :
    r ≠ .PARTIAL := by
  rintro rfl
  obtain ⟨st, w₀, st', _, h⟩ := h
  have := h.not_partial.2
  cases this

theorem bounded_of_driven {P j : Nat} {r : Option Res} {A : Prop} {B : Nat → Prop}
    {w : World (Metered ContainerSeq) Mem}
    (h : (r = none ∨ r = some .PARTIAL → A ∧ ∃ n, B n ∧
        (Metered.gauge ContainerSeq.pointsFollow).At P n w) ∧
      (¬ (r = none ∨ r = some .PARTIAL) → (Metered.gauge ContainerSeq.pointsFollow).At P j w)) :
    w.ds.peak ≤ P ∧ (r = some .SUCCESS ∨ r = some .FAILURE → Points.points w.ds.ds ≤ j) := by
  by_cases hr : r = none ∨ r = some .PARTIAL
  · obtain ⟨_, n, _, h⟩ := h.1 hr
    refine ⟨h.2.1, fun h => ?_⟩
    rcases hr with rfl | rfl <;> simp at h
  · exact ⟨(h.2 hr).2.1, fun _ => (h.2 hr).1⟩

theorem room_le (M len : Nat) : (M * M * (len + 1) + 1) * M ≤ (M * M + 1) * M * (len + 1) := by
  have h1 : M * M * (len + 1) + 1 ≤ (M * M + 1) * (len + 1) := by
    rw [Nat.add_mul, Nat.one_mul]; omega
  have h2 := Nat.mul_le_mul_right M h1
  rw [Nat.mul_right_comm (M * M + 1)] at h2
  exact h2

/-- C70, `parse`, without `Recur` and without optionals inside loops: however long the text is, there
are never more than `K` rollback points at the same time, and at most one for each optional is left
in the end. Not proved for all patterns: an optional part that is present leaves its rollback point
behind, in a loop one each time (`C70_refuted`). -/
theorem C70_parse_without_recursion_outside_loops_partial (env : Env) (p : Pat) (hp : p.refs = [])
    (ho : p.optionalsOutsideLoops = true) :
    ∃ K, ∀ dst m t r w, ParsesMetered env p dst m t r w →
      w.ds.peak ≤ K ∧ Points.points w.ds.ds ≤ p.optionals := by
  obtain ⟨M, hM⟩ : ∃ M, M = (topParser p).weight fun _ => 0 := ⟨_, rfl⟩
  refine ⟨(M + 1) * (M + 1), fun dst m t r w h => ?_⟩
  have henv : env.Counts false t.length (fun _ => false) :=
    ⟨fun h => (by cases h), fun _ _ _ h => (by cases h)⟩
  have hok : (topParser p).skipsIn fun _ => False :=
    elabP_skipsIn p _ _ trivial fun h => absurd hp h
  have hC := runStk_checked (R := fun (s : Metered SingleForward) k => SingleForward.Rel s.ds k)
    (lo := 0) (d := M) (Metered.dsSim SingleForward.dsSim) henv
    (ok := fun p => p.skipsIn fun _ => False) (need := fun _ p => p.weight fun _ => 0)
    (fun h1 h2 _ => weight_lt h1 h2) hok (Nat.le_of_eq hM.symm)
  have hU := usable (env := env) (f := fun _ => 0) (K := fun _ => False) (M := M)
    (.inl fun _ h => h) fun _ _ _ _ h _ => h.elim
  have hfew := elabP_fewOpt p .fail DefaultReqs trivial ho
  obtain ⟨h1, h2⟩ := metered_parse hU ⟨⟨Nat.le_of_eq hM.symm, hok⟩, hfew.1⟩ (Nat.le_refl _) hC
    (Nat.le_refl _) h
  exact ⟨h1, Nat.le_trans (h2 h.verdict) hfew.2⟩

/-- C70, parser objects, without `Recur` and without optionals inside loops: the same, whatever
buffers arrive and whenever `consume` is called. -/
theorem C70_parser_object_without_recursion_outside_loops_partial (env : Env) (p : Pat)
    (hp : p.refs = []) (ho : p.optionalsOutsideLoops = true) :
    ∃ K, ∀ dst m ops r w, ParserAfterMetered env p dst m ops r w →
      w.ds.peak ≤ K ∧
      (r = some .SUCCESS ∨ r = some .FAILURE → Points.points w.ds.ds ≤ p.optionals) := by
  obtain ⟨M, hM⟩ : ∃ M, M = (topParser p).weight fun _ => 0 := ⟨_, rfl⟩
  refine ⟨(M + 1) * (M + 1), fun dst m ops r w h => ?_⟩
  have henv : env.Counts false (opsText ops).length (fun _ => false) :=
    ⟨fun h => (by cases h), fun _ _ _ h => (by cases h)⟩
  have hok : (topParser p).skipsIn fun _ => False :=
    elabP_skipsIn p _ _ trivial fun h => absurd hp h
  have hC := runStk_checked (R := fun (s : Metered ContainerSeq) k => ContainerSeq.Rel s.ds k)
    (lo := 0) (d := M) (Metered.dsSim ContainerSeq.dsSim) henv
    (ok := fun p => p.skipsIn fun _ => False) (need := fun _ p => p.weight fun _ => 0)
    (fun h1 h2 _ => weight_lt h1 h2) hok (Nat.le_of_eq hM.symm)
  have hU := usable (env := env) (f := fun _ => 0) (K := fun _ => False) (M := M)
    (.inl fun _ h => h) fun _ _ _ _ h _ => h.elim
  have hfew := elabP_fewOpt p .fail DefaultReqs trivial ho
  obtain ⟨st, h⟩ := h
  obtain ⟨h1, h2⟩ := bounded_of_driven (metered_driven hU
    ⟨⟨Nat.le_of_eq hM.symm, hok⟩, hfew.1⟩ (Nat.le_refl _) hC h 0 (Nat.le_refl _))
  exact ⟨h1, fun hr => Nat.le_trans (h2 hr) hfew.2⟩

/-- C70, `parse`, in general (hypotheses as in C68; the patterns used through `Recur` have no
optionals, they may be used again and again): the number of rollback points that exist at the same
time is at most a constant times the length of the text (plus one), and at most one for each
optional of the pattern is left in the end. -/
theorem C70_parse_outside_loops_partial (env : Env) (consumes : Nat → Bool) (ids : List Nat)
    (hids : ∀ id, env id ≠ none → id ∈ ids)
    (heats : ∀ id q, env id = some q → consumes id = true → q.eats consumes = true)
    (hleft : WellFounded (LeftCalls env consumes)) (henv : env.noOptional) (p : Pat)
    (ho : p.optionalsOutsideLoops = true) :
    ∃ K, ∀ dst m t r w, ParsesMetered env p dst m t r w →
      w.ds.peak ≤ K * (t.length + 1) ∧ Points.points w.ds.ds ≤ p.optionals := by
  obtain ⟨f, hf⟩ := exists_potential hleft
  obtain ⟨K, M, hp, hM⟩ := exists_sized f hids p
  refine ⟨((M + 1) * (M + 1) + 1) * (M + 1), fun dst m t r w h => ?_⟩
  have hC := runStk_checked (R := fun (s : Metered SingleForward) k => SingleForward.Rel s.ds k)
    (lim := t.length) (lo := 0) (Metered.dsSim SingleForward.dsSim) ⟨fun h => (by cases h), heats⟩
    (fun h1 h2 h3 => needs_lt hf hM h1 h2 h3) hp (needs_le (env := env) hp (Nat.le_refl _))
  have hfew := elabP_fewOpt p .fail DefaultReqs trivial ho
  obtain ⟨h1, h2⟩ := metered_parse (usable (.inr henv) hM) ⟨hp, hfew.1⟩
    (room_le (M + 1) t.length) hC (Nat.le_refl _) h
  exact ⟨h1, Nat.le_trans (h2 h.verdict) hfew.2⟩

/-- C70, parser objects, in general. -/
theorem C70_parser_object_outside_loops_partial (env : Env) (consumes : Nat → Bool) (ids : List Nat)
    (hids : ∀ id, env id ≠ none → id ∈ ids)
    (heats : ∀ id q, env id = some q → consumes id = true → q.eats consumes = true)
    (hleft : WellFounded (LeftCalls env consumes)) (henv : env.noOptional) (p : Pat)
    (ho : p.optionalsOutsideLoops = true) :
    ∃ K, ∀ dst m ops r w, ParserAfterMetered env p dst m ops r w →
      w.ds.peak ≤ K * ((opsText ops).length + 1) ∧
      (r = some .SUCCESS ∨ r = some .FAILURE → Points.points w.ds.ds ≤ p.optionals) := by
  obtain ⟨f, hf⟩ := exists_potential hleft
  obtain ⟨K, M, hp, hM⟩ := exists_sized f hids p
  refine ⟨((M + 1) * (M + 1) + 1) * (M + 1), fun dst m ops r w h => ?_⟩
  have hC := runStk_checked (R := fun (s : Metered ContainerSeq) k => ContainerSeq.Rel s.ds k)
    (lim := (opsText ops).length) (lo := 0) (Metered.dsSim ContainerSeq.dsSim)
    ⟨fun h => (by cases h), heats⟩
    (fun h1 h2 h3 => needs_lt hf hM h1 h2 h3) hp (needs_le (env := env) hp (Nat.le_refl _))
  have hfew := elabP_fewOpt p .fail DefaultReqs trivial ho
  obtain ⟨st, h⟩ := h
  obtain ⟨h1, h2⟩ := bounded_of_driven (metered_driven (usable (.inr henv) hM)
    ⟨hp, hfew.1⟩ (room_le (M + 1) _) hC h 0 (Nat.le_refl _))
  exact ⟨h1, fun hr => Nat.le_trans (h2 hr) hfew.2⟩

/-- C70, `parse`, without `Recur` and without optionals: none is left in the end. -/
theorem C70_parse_without_recursion_partial (env : Env) (p : Pat) (hp : p.refs = [])
    (ho : p.noOptional = true) :
    ∃ K, ∀ dst m t r w, ParsesMetered env p dst m t r w →
      w.ds.peak ≤ K ∧ Points.points w.ds.ds = 0 := by
  obtain ⟨hl, h0⟩ := Pat.few_of_noOptional p ho
  obtain ⟨K, hK⟩ := C70_parse_without_recursion_outside_loops_partial env p hp hl
  refine ⟨K, fun dst m t r w h => ?_⟩
  have := hK dst m t r w h
  exact ⟨this.1, by omega⟩

/-- C70, parser objects, without `Recur` and without optionals: none is left after the verdict. -/
theorem C70_parser_object_without_recursion_partial (env : Env) (p : Pat) (hp : p.refs = [])
    (ho : p.noOptional = true) :
    ∃ K, ∀ dst m ops r w, ParserAfterMetered env p dst m ops r w →
      w.ds.peak ≤ K ∧ (r = some .SUCCESS ∨ r = some .FAILURE → Points.points w.ds.ds = 0) := by
  obtain ⟨hl, h0⟩ := Pat.few_of_noOptional p ho
  obtain ⟨K, hK⟩ := C70_parser_object_without_recursion_outside_loops_partial env p hp hl
  refine ⟨K, fun dst m ops r w h => ?_⟩
  obtain ⟨h1, h2⟩ := hK dst m ops r w h
  exact ⟨h1, fun hr => by have := h2 hr; omega⟩

/-- C70, `parse`, without optionals: none is left in the end. -/
theorem C70_parse_partial (env : Env) (consumes : Nat → Bool) (ids : List Nat)
    (hids : ∀ id, env id ≠ none → id ∈ ids)
    (heats : ∀ id q, env id = some q → consumes id = true → q.eats consumes = true)
    (hleft : WellFounded (LeftCalls env consumes)) (henv : env.noOptional) (p : Pat)
    (ho : p.noOptional = true) :
    ∃ K, ∀ dst m t r w, ParsesMetered env p dst m t r w →
      w.ds.peak ≤ K * (t.length + 1) ∧ Points.points w.ds.ds = 0 := by
  obtain ⟨hl, h0⟩ := Pat.few_of_noOptional p ho
  obtain ⟨K, hK⟩ := C70_parse_outside_loops_partial env consumes ids hids heats hleft henv p hl
  refine ⟨K, fun dst m t r w h => ?_⟩
  have := hK dst m t r w h
  exact ⟨this.1, by omega⟩

/-- C70, parser objects, without optionals: none is left after the verdict. -/
theorem C70_parser_object_partial (env : Env) (consumes : Nat → Bool) (ids : List Nat)
    (hids : ∀ id, env id ≠ none → id ∈ ids)
    (heats : ∀ id q, env id = some q → consumes id = true → q.eats consumes = true)
    (hleft : WellFounded (LeftCalls env consumes)) (henv : env.noOptional) (p : Pat)
    (ho : p.noOptional = true) :
    ∃ K, ∀ dst m ops r w, ParserAfterMetered env p dst m ops r w →
      w.ds.peak ≤ K * ((opsText ops).length + 1) ∧
      (r = some .SUCCESS ∨ r = some .FAILURE → Points.points w.ds.ds = 0) := by
  obtain ⟨hl, h0⟩ := Pat.few_of_noOptional p ho
  obtain ⟨K, hK⟩ :=
    C70_parser_object_outside_loops_partial env consumes ids hids heats hleft henv p hl
  refine ⟨K, fun dst m ops r w h => ?_⟩
  obtain ⟨h1, h2⟩ := hK dst m ops r w h
  exact ⟨h1, fun hr => by have := h2 hr; omega⟩

/-! ### The optional -/

/-- `-char_('a') % ','`: entries that may be missing. -/
def entries : Pat := .list (.opt (.char (.single 97))) (.char (.single 44))

/-- `n` times `a,`, then an `a`. -/
def entriesText : Nat → List Ch
  | 0 => [97]
  | n + 1 => 97 :: 44 :: entriesText n

/-- The data source in the middle of `entries`. -/
abbrev entriesAt (t : List Ch) (i : Nat) (S : List Nat) (pk : Nat) (m : Mem) :
    World (Metered SingleForward) Mem := ⟨⟨⟨t, i, t.length, S⟩, pk⟩, m⟩

theorem entries_char (t : List Ch) (m : Mem) {i : Nat} {ch : Ch} (h : t[i]? = some ch) (S pk) (n : Nat) :
    run env (n + 1) (.char (.single ch)) .nil .nil .unit (entriesAt t i S pk m)
      = .ok ((.SUCCESS, .unit), entriesAt t (i + 1) S pk m) := by
  have hlt : i < t.length := (List.getElem?_eq_some_iff.1 h).1
  have h1 : DataSource.empty (⟨⟨t, i, t.length, S⟩, pk⟩ : Metered SingleForward) = false := by
    show (i == t.length) = false
    simp; omega
  have h2 : DataSource.next (⟨⟨t, i, t.length, S⟩, pk⟩ : Metered SingleForward) = some ch := h
  have h3 : DataSource.advance (⟨⟨t, i, t.length, S⟩, pk⟩ : Metered SingleForward)
      = some ⟨⟨t, i + 1, t.length, S⟩, pk⟩ := by
    show ((if (i == t.length) then none else some _ : Option SingleForward)).map _ = _
    rw [if_neg (by simp; omega)]; rfl
  have hc : CharSet.isValid (.single ch) ch = true := by simp [CharSet.isValid]
  simp [run, exec, body, guarded, h1, h2, h3, hc, Store.op, Mem.run, Mem.assign]

theorem entries_end (t : List Ch) (m : Mem) {S i pk} (n : Nat)
    (h1 : DataSource.empty (⟨⟨t, i, t.length, S⟩, pk⟩ : Metered SingleForward) = true) :
    run env (n + 1) (.char (.single 44)) .nil .nil .unit (entriesAt t i S pk m)
      = .ok ((.FAILURE, .unit), entriesAt t i S pk m) := by
  have h2 : DataSource.final (⟨⟨t, i, t.length, S⟩, pk⟩ : Metered SingleForward) = true := rfl
  simp [run, exec, body, guarded, h1, h2]

theorem entries_run (t : List Ch) (m : Mem) (j : Nat) : ∀ i x y S pk,
    t.drop i = entriesText j → S.length + 2 ≤ pk →
    ∃ st S' pk', run env (2 * j + 9) (topParser entries) .nil .nil (.list false (.wrap .unit))
        (entriesAt t i (x :: y :: S) pk m)
      = .ok ((.SUCCESS, st), entriesAt t t.length S' pk' m) ∧
      S'.length = S.length + 1 + j ∧ S'.length + 1 ≤ pk' := by
  have e : topParser entries = .list (.opt (.char (.single 97))) (.char (.single 44)) := rfl
  have hget : ∀ {i l} {ch : Ch}, t.drop i = ch :: l → t[i]? = some ch := by
    intro i l ch h
    have := List.getElem?_drop (xs := t) (i := i) (j := 0)
    rw [h] at this
    simpa using this.symm
  have hopt : ∀ {i l} S pk n, t.drop i = 97 :: l →
      run env (n + 2) (.opt (.char (.single 97))) .nil .nil (.wrap .unit) (entriesAt t i S pk m)
        = .ok ((.SUCCESS, .wrap .unit), entriesAt t (i + 1) S pk m) := by
    intro i l S pk n h
    rw [run_succ_eq]
    simp only [body, exec]
    rw [entries_char t m (hget h) S pk n]
    rfl
  rw [e]
  have hfirst : ∀ {i l} x S pk n, t.drop i = 97 :: l → S.length + 1 ≤ pk →
      run env (n + 3) (.list (.opt (.char (.single 97))) (.char (.single 44))) .nil .nil
        (.list false (.wrap .unit)) (entriesAt t i (x :: S) pk m)
      = run env (n + 2) (.list (.opt (.char (.single 97))) (.char (.single 44))) .nil .nil
        (.list true .unit) (entriesAt t (i + 1) ((i + 1) :: S) pk m) := by
    intro i l x S pk n h hpk
    rw [run_succ_eq]
    simp only [body, exec]
    rw [hopt (x :: S) pk n h]
    have hc : DataSource.cancel (⟨⟨t, i + 1, t.length, x :: S⟩, pk⟩ : Metered SingleForward)
        = some ⟨⟨t, i + 1, t.length, S⟩, pk⟩ := rfl
    have hp : DataSource.prepare (⟨⟨t, i + 1, t.length, S⟩, pk⟩ : Metered SingleForward)
        = ⟨⟨t, i + 1, t.length, (i + 1) :: S⟩, max pk (S.length + 1)⟩ := rfl
    simp only [exec, hc, hp, mk, Cmd.bind]
    rw [Nat.max_eq_left hpk]
  induction j with
  | zero =>
    intro i x y S pk h hpk
    have hl : t.length = i + 1 := by
      have := congrArg List.length h
      simp [entriesText] at this
      omega
    rw [hfirst x (y :: S) pk 6 h (by simpa using by omega), run_succ_eq]
    have h1 : DataSource.empty (⟨⟨t, i + 1, t.length, (i + 1) :: y :: S⟩, pk⟩ : Metered SingleForward)
        = true := by
      show (i + 1 == t.length) = true
      simp [hl]
    have h3 : DataSource.commit (⟨⟨t, i + 1, t.length, (i + 1) :: y :: S⟩, pk⟩ : Metered SingleForward)
        = some ⟨⟨t, i + 1, t.length, y :: S⟩, pk⟩ := rfl
    refine ⟨.list true .unit, y :: S, pk, ?_, by simp, by simpa using hpk⟩
    simp only [body, exec]
    rw [entries_end t m 6 h1]
    simp only [exec, h3]
    simp [hl]
  | succ j ih =>
    intro i x y S pk h hpk
    have h' : t.drop (i + 1) = 44 :: entriesText j := by
      rw [← List.drop_drop, h]; rfl
    have h'' : t.drop (i + 1 + 1) = entriesText j := by
      rw [← List.drop_drop, h']; rfl
    rw [show 2 * (j + 1) + 9 = 2 * j + 8 + 3 by omega,
      hfirst x (y :: S) pk (2 * j + 8) h (by simpa using by omega), run_succ_eq]
    simp only [body, exec]
    rw [entries_char t m (hget h') _ pk (2 * j + 8)]
    have hp : DataSource.prepare (⟨⟨t, i + 1 + 1, t.length, (i + 1) :: y :: S⟩, pk⟩ :
        Metered SingleForward) = ⟨⟨t, i + 1 + 1, t.length, (i + 1 + 1) :: (i + 1) :: y :: S⟩,
          max pk (S.length + 3)⟩ := rfl
    simp only [exec, mk, Cmd.bind, hp]
    obtain ⟨st, S', pk', h1, h2, h3⟩ := ih (i + 1 + 1) (i + 1 + 1) (i + 1) (y :: S)
      (max pk (S.length + 3)) h'' (by simp only [List.length_cons]; omega)
    exact ⟨st, S', pk', h1, by simp only [List.length_cons] at h2; omega, h3⟩

/-- The claim is false of the code in general: with an optional part that is present
(unary/optional.h:51-53 leaves the rollback point) the number of rollback points grows with the
text, and they stay in the end. -/
theorem C70_refuted (env : Env) (n : Nat) (m : Mem) : ∃ w, ParsesMetered env entries .nil m (entriesText n)
    .SUCCESS w ∧ Points.points w.ds.ds = n + 1 ∧ n + 2 ≤ w.ds.peak := by
  obtain ⟨st, S', pk', h1, h2, h3⟩ := entries_run (entriesText n) m n 0 0 0 [] 2 rfl (by simp)
  refine ⟨_, ⟨.list false (.wrap .unit), entriesAt (entriesText n) 0 [0, 0] 2 m, st, rfl,
    ⟨by simp, _, h1⟩⟩, ?_, ?_⟩
  · show S'.length = n + 1
    rw [h2]; simp; omega
  · show n + 2 ≤ pk'
    rw [h2] at h3; simp at h3; omega

/-! ### Examples -/

/-- A list of numbers, skipping spaces: no `Recur`, no optional. -/
example : (Pat.withSkipper (.list (.uint 10 1 0) (.char (.single 44))) (.char (.single 32))).refs = []
    ∧ (Pat.withSkipper (.list (.uint 10 1 0) (.char (.single 44)))
      (.char (.single 32))).noOptional = true := ⟨rfl, rfl⟩

/-- `lit("ab") % ','` on `ab,ab`: there is one rollback point at a time, that of the list. -/
example : ∃ w, ParsesMetered env (.list (.strLit [97, 98]) (.char (.single 44))) .nil ⟨[], []⟩
    [97, 98, 44, 97, 98] .SUCCESS w ∧ w.ds.peak = 1 ∧ Points.points w.ds.ds = 0 :=
  ⟨_, ⟨_, _, _, rfl, by simp, 19, rfl⟩, rfl, rfl⟩

/-- A parser object in the middle of the same text. -/
example : ∃ w, ParserAfterMetered env (.list (.strLit [97, 98]) (.char (.single 44))) .nil
    ⟨[], []⟩ ([] ++ [.add [97, 98, 44, 97] false] ++ [.consume]) (some .PARTIAL) w ∧ w.ds.peak = 1 ∧
    Points.points w.ds.ds = 1 :=
  ⟨_, ⟨_, .consume (.add _ _ (.made rfl) rfl) (.inl rfl) ⟨by simp, 19, rfl⟩⟩, rfl, rfl⟩

/-- A sign that may be missing, then numbers: the optional is not in the list. -/
example : (Pat.seq [.opt (.char (.single 45)), .list (.uint 10 1 0) (.char (.single 44))]).refs = []
    ∧ (Pat.seq [.opt (.char (.single 45)),
      .list (.uint 10 1 0) (.char (.single 44))]).optionalsOutsideLoops = true
    ∧ (Pat.seq [.opt (.char (.single 45)),
      .list (.uint 10 1 0) (.char (.single 44))]).optionals = 1 := ⟨rfl, rfl, rfl⟩

/-- `-char_('-') >> lit("ab") % ','` on `-ab,ab`: the optional leaves its rollback point, the list
adds one. -/
example : ∃ w, ParsesMetered env (.seq [.opt (.char (.single 45)),
    .list (.strLit [97, 98]) (.char (.single 44))]) .nil ⟨[], []⟩
    [45, 97, 98, 44, 97, 98] .SUCCESS w ∧ w.ds.peak = 2 ∧ Points.points w.ds.ds = 1 :=
  ⟨_, ⟨_, _, _, rfl, by simp, 19, rfl⟩, rfl, rfl⟩

/-- The bound on what is left is reached: two optionals, each present. -/
example : ∃ w, ParsesMetered env (.seq [.opt (.char (.single 45)), .opt (.char (.single 97))]) .nil
    ⟨[], []⟩ [45, 97] .SUCCESS w ∧ Points.points w.ds.ds =
      (Pat.seq [.opt (.char (.single 45)), .opt (.char (.single 97))]).optionals :=
  ⟨_, ⟨_, _, _, rfl, by simp, 19, rfl⟩, rfl⟩

/-- `entries`, of `C70_refuted`, has its optional in a list. -/
example : entries.optionalsOutsideLoops = false := rfl

/-- The recursive pattern of C68 has no optional. -/
example : nestEnv.noOptional := by
  intro id q h
  simp only [nestEnv] at h
  split at h
  · cases h; rfl
  · cases h

end Abu
