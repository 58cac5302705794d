import Verif.Proofs.Points
/-
Rollback points of `parse` and of parser objects.
-/
namespace Abu

/-! ### The gauges -/

theorem Option.map_some_inv {α β : Type} {f : α → β} {x : Option α} {y : β} (h : x.map f = some y) :
    ∃ a, x = some a ∧ f a = y := by
  cases x with
  | none => cases h
  | some a => exact ⟨a, rfl, by simpa using h⟩

/-- How operations change the number of rollback points. -/
structure PointsFollow (σ : Type) [DataSource σ] [Points σ] : Prop where
  advance : ∀ {s s' : σ}, DataSource.advance s = some s' → Points.points s' = Points.points s
  prepare : ∀ s : σ, Points.points (DataSource.prepare s) = Points.points s + 1
  commit : ∀ {s s' : σ}, DataSource.commit s = some s' → Points.points s = Points.points s' + 1
  cancel : ∀ {s s' : σ}, DataSource.cancel s = some s' → Points.points s = Points.points s' + 1

theorem SingleForward.pointsFollow : PointsFollow SingleForward where
  advance := by
    intro s s' h
    change (if s.empty then none else some _) = some s' at h
    split at h
    · cases h
    · cases h; rfl
  prepare s := rfl
  commit := by
    intro s s' h
    change s.commit = some s' at h
    unfold SingleForward.commit at h
    split at h
    · cases h
    · rename_i p ps hs
      cases h
      show s.stack.length = ps.length + 1
      rw [hs]; rfl
  cancel := by
    intro s s' h
    change s.cancel = some s' at h
    unfold SingleForward.cancel at h
    split at h
    · cases h
    · rename_i p ps hs
      cases h
      show s.stack.length = ps.length + 1
      rw [hs]; rfl

theorem ContainerSeq.cleanup_points {s s' : ContainerSeq} (h : s.cleanup = some s') :
    Points.points s' = Points.points s := by
  unfold ContainerSeq.cleanup at h
  split at h
  · obtain ⟨bs, _, rfl⟩ := Option.map_some_inv h; rfl
  · cases h; rfl

theorem List.length_of_getLast? {α : Type} {l : List α} {e : α} (h : l.getLast? = some e) :
    l.length = l.dropLast.length + 1 := by
  cases l with
  | nil => cases h
  | cons a l => simp

theorem ContainerSeq.pointsFollow : PointsFollow ContainerSeq where
  advance := by
    intro s s' h
    change s.advance = some s' at h
    unfold ContainerSeq.advance at h
    split at h
    · split at h
      · cases h
      · split at h
        · cases h
        · split at h
          · split at h
            · cases h
            · cases h; rfl
          · cases h; rfl
    · cases h
  prepare s := by
    show Points.points (s.prepare) = _
    unfold ContainerSeq.prepare
    split
    · rfl
    · show (s.rollback ++ [_]).length + s.emptyRollbacks = s.rollback.length + s.emptyRollbacks + 1
      rw [List.length_append]
      simp only [List.length_cons, List.length_nil]
      omega
  commit := by
    intro s s' h
    change s.commit = some s' at h
    unfold ContainerSeq.commit at h
    split at h
    · rename_i hn
      cases h
      show s.rollback.length + s.emptyRollbacks = s.rollback.length + (s.emptyRollbacks - 1) + 1
      omega
    · split at h
      · cases h
      · rename_i hg
        rw [ContainerSeq.cleanup_points h]
        show s.rollback.length + s.emptyRollbacks = s.rollback.dropLast.length + s.emptyRollbacks + 1
        have := List.length_of_getLast? hg
        omega
  cancel := by
    intro s s' h
    change s.cancel = some s' at h
    unfold ContainerSeq.cancel at h
    split at h
    · rename_i hn
      cases h
      show s.rollback.length + s.emptyRollbacks = s.rollback.length + (s.emptyRollbacks - 1) + 1
      omega
    · split at h
      · cases h
      · rename_i hg
        rw [ContainerSeq.cleanup_points h]
        show s.rollback.length + s.emptyRollbacks = s.rollback.dropLast.length + s.emptyRollbacks + 1
        have := List.length_of_getLast? hg
        omega

theorem ContainerSeq.addBuffer_points {s s' : ContainerSeq} {b f} (h : s.addBuffer b f = some s') :
    Points.points s' = Points.points s := by
  unfold ContainerSeq.addBuffer at h
  split at h
  · cases h
  · split at h
    · cases h; rfl
    · simp only at h
      split at h
      · cases h
        show (s.rollback ++ List.replicate s.emptyRollbacks _).length + 0 =
          s.rollback.length + s.emptyRollbacks
        simp
      · cases h; rfl

section
variable {σ : Type} [DataSource σ] [Points σ]

/-- The gauge of `Metered`. -/
def Metered.gauge (hp : PointsFollow σ) : Gauge (Metered σ) where
  pts s := Points.points s.ds
  peak s := s.peak
  advance := by
    intro s s' h
    obtain ⟨d, hd, rfl⟩ := Option.map_some_inv h
    exact ⟨hp.advance hd, rfl⟩
  prepare s := ⟨hp.prepare s.ds, by
    show max s.peak (Points.points (DataSource.prepare s.ds)) = _; rw [hp.prepare s.ds]⟩
  commit := by
    intro s s' h
    obtain ⟨d, hd, rfl⟩ := Option.map_some_inv h
    exact ⟨hp.commit hd, rfl⟩
  cancel := by
    intro s s' h
    obtain ⟨d, hd, rfl⟩ := Option.map_some_inv h
    exact ⟨hp.cancel hd, rfl⟩

theorem _root_.Option.Rel.map_left {α β γ : Type} {R : α → β → Prop} {S : γ → β → Prop} {g : α → γ}
    (h : ∀ a b, R a b → S (g a) b) {x : Option α} {y : Option β} (hr : Option.Rel R x y) :
    Option.Rel S (x.map g) y := by
  cases hr with
  | none => exact .none
  | some hr => exact .some (h _ _ hr)

/-- The gauge changes nothing. -/
theorem Metered.dsSim {τ : Type} [DataSource τ] {R : σ → τ → Prop} (hR : DsSim R) :
    DsSim (fun (s : Metered σ) c => R s.ds c) where
  empty h := hR.empty h
  final h := hR.final h
  next h := hR.next h
  advance h := .map_left (g := fun d => (⟨d, _⟩ : Metered σ)) (fun _ _ h => h) (hR.advance h)
  prepare h := hR.prepare h
  commit h := .map_left (g := fun d => (⟨d, _⟩ : Metered σ)) (fun _ _ h => h) (hR.commit h)
  cancel h := .map_left (g := fun d => (⟨d, _⟩ : Metered σ)) (fun _ _ h => h) (hR.cancel h)

theorem _root_.Option.Rel.of_eq {α : Type} {x : Option α} : Option.Rel (fun a b => a = b) x x := by
  cases x with
  | none => exact .none
  | some a => exact .some rfl

omit [Points σ] in
theorem DsSim.eq : DsSim (fun (s : σ) c => s = c) where
  empty h := by rw [h]
  final h := by rw [h]
  next h := by rw [h]
  advance h := by rw [h]; exact .of_eq
  prepare h := by rw [h]
  commit h := by rw [h]; exact .of_eq
  cancel h := by rw [h]; exact .of_eq

end

/-! ### Usable classes -/

theorem CalledIn.fewOpt {env : Env} {c lo p b q} (h : CalledIn env c lo p b q)
    (henv : ∀ id sk r, p = .recur id sk → env id = some r → r.noOptional = true) (hp : p.fewOpt) :
    q.fewOpt := by
  cases h with
  | seq hk _ _ => exact Prog.fewOpts_get hp hk
  | alt hk _ => exact Prog.fewOpts_get hp hk
  | recur h => exact (Prog.fewOpt_of_noOpt _ (elabP_noOpt _ _ _ hp (henv _ _ _ rfl h))).1
  | rep _ => exact (Prog.fewOpt_of_noOpt _ hp).1
  | exceptNeg => exact hp.2
  | exceptOp _ => exact hp.1
  | listOp _ => exact (Prog.fewOpt_of_noOpt _ hp.1).1
  | listSep _ _ => exact (Prog.fewOpt_of_noOpt _ hp.2).1
  | skipper _ => exact (Prog.fewOpt_of_noOpt _ hp.1).1
  | skipped => exact hp.2
  | _ => exact hp

theorem sized_child {env : Env} {f K M}
    (hM : ∀ id q sk, env id = some q → K sk → sk.skipsIn K → Sized f K M (elabP sk RecurChildReqs q))
    {c lo p b q} (hp : Sized f K M p) (h : CalledIn env c lo p b q) : Sized f K M q := by
  have h1 := hp.1
  rcases h.weight (f := f) with hw | ⟨id, sk, r, rfl, hr, rfl, _⟩
  · rcases h.skipsIn hp.2 with hk | ⟨id, sk, r, rfl, hr, rfl⟩
    · exact ⟨by omega, hk⟩
    · exact hM _ _ _ hr hp.2.1 hp.2.2
  · exact hM _ _ _ hr hp.2.1 hp.2.2

theorem usable {env : Env} {f K M} (henv : (∀ sk, ¬ K sk) ∨ env.noOptional)
    (hM : ∀ id q sk, env id = some q → K sk → sk.skipsIn K → Sized f K M (elabP sk RecurChildReqs q)) :
    Usable env f M (fun p => Sized f K M p ∧ p.fewOpt) := by
  have henv' : ∀ p, Sized f K M p → ∀ id sk r, p = .recur id sk → env id = some r →
      r.noOptional = true := by
    intro p h id sk r hp hr
    subst hp
    rcases henv with hK | henv
    · exact absurd h.2.1 (hK sk)
    · exact henv id r hr
  refine ⟨fun p h => h.1.1, fun p h => h.2, fun h hq => ?_, fun {p q} h hc => ?_⟩
  · exact (Prog.fewOpt_of_noOpt _ (elabP_noOpt _ _ _ h.2 (henv' _ h.1 _ _ _ rfl hq))).2
  · rcases hc with hc | hc
    · exact ⟨sized_child hM h.1 hc, hc.fewOpt (henv' _ h.1) h.2⟩
    · exact ⟨sized_child hM h.1 hc, hc.fewOpt (henv' _ h.1) h.2⟩

/-! ### The entry points -/

section
variable {env : Env} {c : Nat → Bool} {lim : Nat} {p : Pat} {f : Nat → Nat} {M d P : Nat}
  {ok : Prog → Prop}

theorem metered_parse {mach' : Mach Cursor Mem} (hU : Usable env f M ok) (hok : ok (topParser p))
    (hP : (d + 1) * (M + 1) ≤ P)
    (hC : Checked (fun (s : Metered SingleForward) k => SingleForward.Rel s.ds k) env c false lim 0
      (topParser p) (runStk env d) mach')
    {dst m t r w} (ht : t.length ≤ lim) (h : ParsesMetered env p dst m t r w) :
    w.ds.peak ≤ P ∧ (r ≠ .PARTIAL → Points.points w.ds.ds ≤ (topParser p).stale) := by
  obtain ⟨st, w₀, st', h1, h2⟩ := h
  have hfit : (topParser p).countsFit false lim c = true :=
    elabP_countsFit p _ _ rfl fun h => (by cases h)
  have hat := construct_counted (env := env) (c := c) (chk := false) (lim := lim) (more := 0)
    (k := Cursor.whole t) (Metered.dsSim SingleForward.dsSim) hfit
    (show SingleForward.Rel (Metered.start (SingleForward.make t)).ds _ from SingleForward.rel_make t)
    rfl (Nat.zero_le _) (by simpa [Cursor.whole] using ht) h1
  obtain ⟨_, n, hn⟩ := (hat.evals hC).2 h2
  have hsz := hU.size _ hok
  have hMP : M + 1 ≤ P := by
    refine Nat.le_trans ?_ hP
    rw [Nat.add_mul, Nat.one_mul]; omega
  obtain ⟨j, h3, h4, h5⟩ := mk_holds (g := Metered.gauge SingleForward.pointsFollow) (P := P)
    (env := env) (f := f) (topParser p) dst dst
    (⟨Metered.start (SingleForward.make t), m⟩ : World (Metered SingleForward) Mem) 0
    (hU.fewOpt _ hok) ⟨Nat.le_refl _, Nat.zero_le _, Nat.zero_le _⟩ (by omega) _ _ h1
  have := runStk_leaves (g := Metered.gauge SingleForward.pointsFollow) (P := P) hU n d
    (topParser p) dst dst st w₀ j 0 hok h3 h5 (by omega) _ _ hn
  cases r with
  | PARTIAL =>
    obtain ⟨j', _, h⟩ := this.2 rfl
    exact ⟨h.2.1, fun h => absurd rfl h⟩
  | SUCCESS => exact ⟨(this.1 (by simp)).2.1, fun _ => by
      have := (this.1 (by simp)).1
      rw [Nat.zero_add] at this; exact this⟩
  | FAILURE => exact ⟨(this.1 (by simp)).2.1, fun _ => by
      have := (this.1 (by simp)).1
      rw [Nat.zero_add] at this; exact this⟩

theorem metered_driven {mach' : Mach Cursor Mem} (hU : Usable env f M ok) (hok : ok (topParser p))
    (hP : (d + 1) * (M + 1) ≤ P)
    (hC : Checked (fun (s : Metered ContainerSeq) k => ContainerSeq.Rel s.ds k) env c false lim 0
      (topParser p) (runStk env d) mach')
    {dst m ops r st w} (h : Driven Metered.addBuffer (Metered.start ContainerSeq.make) env
      (topParser p) dst m ops r st w) (more : Nat) (ht : (opsText ops).length + more ≤ lim) :
    (r = none ∨ r = some .PARTIAL →
      CountedAt (fun (s : Metered ContainerSeq) k => ContainerSeq.Rel s.ds k) env c false lim 0 more
        (topParser p) st w ∧
      ∃ n, PointsHeld env f (topParser p) st n ∧
        (Metered.gauge ContainerSeq.pointsFollow).At P n w) ∧
    (¬ (r = none ∨ r = some .PARTIAL) →
      (Metered.gauge ContainerSeq.pointsFollow).At P (topParser p).stale w) := by
  have hsz := hU.size _ hok
  have hMP : M + 1 ≤ P := by
    refine Nat.le_trans ?_ hP
    rw [Nat.add_mul, Nat.one_mul]; omega
  induction h generalizing more with
  | @made st w h1 =>
    refine ⟨fun _ => ⟨?_, ?_⟩, fun h => absurd (.inl rfl) h⟩
    · exact construct_counted (k := Cursor.start) (Metered.dsSim ContainerSeq.dsSim)
        (elabP_countsFit p _ _ rfl fun h => (by cases h))
        (show ContainerSeq.Rel (Metered.start ContainerSeq.make).ds _ from ⟨_, ContainerSeq.sim_make⟩)
        rfl (Nat.zero_le _) (by simpa [Cursor.start, opsText] using ht) h1
    · obtain ⟨j, h3, h4, h5⟩ := mk_holds (g := Metered.gauge ContainerSeq.pointsFollow) (P := P)
        (env := env) (f := f) (topParser p) dst dst
        (⟨Metered.start ContainerSeq.make, m⟩ : World (Metered ContainerSeq) Mem) 0
        (hU.fewOpt _ hok) ⟨Nat.le_refl _, Nat.zero_le _, Nat.zero_le _⟩ (by omega) _ _ h1
      exact ⟨j, h3, h5⟩
  | @add ops r st w ds b g hd ha ih =>
    rw [opsText_append] at ht
    have ht' : (opsText ops).length + (b.length + more) ≤ lim := by
      rw [List.length_append] at ht
      simp only [opsText, List.append_nil] at ht
      omega
    obtain ⟨ih1, ih2⟩ := ih (b.length + more) ht'
    obtain ⟨s', hs', rfl⟩ := Option.map_some_inv ha
    have hpts := ContainerSeq.addBuffer_points hs'
    have keep : ∀ {n}, (Metered.gauge ContainerSeq.pointsFollow).At P n w →
        (Metered.gauge ContainerSeq.pointsFollow).At P n
          (⟨⟨s', max w.ds.peak (Points.points s')⟩, w.mem⟩ : World (Metered ContainerSeq) Mem) := by
      intro n h
      have h1 : Points.points w.ds.ds ≤ n := h.1
      have h2 : w.ds.peak ≤ P := h.2.1
      have h3 : Points.points w.ds.ds ≤ w.ds.peak := h.2.2
      exact ⟨by show Points.points s' ≤ n; omega, by show max w.ds.peak (Points.points s') ≤ P; omega,
        by show Points.points s' ≤ max w.ds.peak (Points.points s'); omega⟩
    refine ⟨fun hr => ?_, fun hr => keep (ih2 hr)⟩
    obtain ⟨⟨hf, k, hk, hl, hcnt⟩, n, h1, h2⟩ := ih1 hr
    refine ⟨?_, n, h1, keep h2⟩
    have := ContainerSeq.addBuffer_rel hk b g
    rw [hs'] at this
    generalize hk' : k.addBuffer b g = y at this
    cases this with
    | @some _ k' hr' =>
      simp only [Cursor.addBuffer] at hk'
      split at hk'
      · cases hk'
      · cases hk'
        refine ⟨hf, _, hr', ?_, hcnt⟩
        simp only [Cursor.feed, List.length_append]
        omega
  | @consume ops r st w r' st' w' hd hr he ih =>
    rw [opsText_append] at ht
    have ht' : (opsText ops).length + more ≤ lim := by
      simpa [opsText] using ht
    obtain ⟨hat, n, h1, h2⟩ := (ih more ht').1 hr
    obtain ⟨_, fuel, hn⟩ := (hat.evals hC).2 he
    have := runStk_leaves (g := Metered.gauge ContainerSeq.pointsFollow) (P := P) hU fuel d
      (topParser p) dst dst st w n 0 hok h1 h2 (by omega) _ _ hn
    refine ⟨fun hr' => ?_, fun hr' =>
      (this.1 fun h => hr' (.inr (congrArg some h))).mono (by omega)⟩
    rcases hr' with hr' | hr'
    · cases hr'
    · cases hr'
      exact ⟨hat.partial hC he, this.2 rfl⟩

end
end Abu
