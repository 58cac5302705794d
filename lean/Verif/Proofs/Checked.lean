import Verif.Proofs.Counters
/-
Machines with additional checks against `run`.
-/
namespace Abu

section
variable {σ μ : Type} [DataSource σ] [Store μ]

/-- The machine does what `run` does until one of its checks fails. -/
def Watches (env : Env) (mach : Mach σ μ) : Prop :=
  ∀ n p d b st (w : World σ μ), mach n p d b st w = run env n p d b st w ∨
    ∃ e, mach n p d b st w = .error e ∧ e.isLimit = true

theorem exec_watch {f g : Prog → Ref → Ref → PState → World σ μ → Out σ μ (Res × PState)}
    (h : ∀ p d b st w, f p d b st w = g p d b st w ∨
      ∃ e, f p d b st w = .error e ∧ e.isLimit = true)
    {α : Type} (x : Cmd α) (w : World σ μ) :
    exec f x w = exec g x w ∨ ∃ e, exec f x w = .error e ∧ e.isLimit = true := by
  induction x generalizing w with
  | pure a => exact .inl rfl
  | fault e => exact .inl rfl
  | isEmpty k ih => exact ih _ w
  | isFinal k ih => exact ih _ w
  | next k ih =>
    simp only [exec]
    cases DataSource.next w.ds with
    | none => exact .inl rfl
    | some ch => exact ih _ w
  | advance k ih =>
    simp only [exec]
    cases DataSource.advance w.ds with
    | none => exact .inl rfl
    | some ds => exact ih _
  | prepare k ih => exact ih _
  | commit k ih =>
    simp only [exec]
    cases DataSource.commit w.ds with
    | none => exact .inl rfl
    | some ds => exact ih _
  | cancel k ih =>
    simp only [exec]
    cases DataSource.cancel w.ds with
    | none => exact .inl rfl
    | some ds => exact ih _
  | mem o k ih =>
    simp only [exec]
    cases Store.op o w.mem with
    | error e => exact .inl rfl
    | ok m => exact ih _
  | alloc t k ih => exact ih _ _
  | call p d b st k ih =>
    simp only [exec]
    rcases h p d b st w with hc | ⟨e, hc, he⟩
    · rw [hc]
      cases g p d b st w with
      | error e => exact .inl rfl
      | ok y => obtain ⟨⟨r, s⟩, w'⟩ := y; exact ih r s w'
    · rw [hc]; exact .inr ⟨e, rfl, he⟩

end

theorem mem_quietOps : QuietOps Mem := by
  intro o m e h
  have := mem_ofMem h
  cases e <;> first | rfl | cases this

section
variable {σ : Type} [DataSource σ] {R : σ → Cursor → Prop} {env : Env} {c : Nat → Bool}
  {chk : Bool} {lim : Nat}

/-- A checked machine, on two related data sources, the checks of which do not fail for a parser
object of class `p` constructed at `lo`. -/
structure Checked (R : σ → Cursor → Prop) (env : Env) (c : Nat → Bool) (chk : Bool) (lim lo : Nat)
    (p : Prog) (mach : Mach σ Mem) (mach' : Mach Cursor Mem) : Prop where
  watch : Watches env mach
  watch' : Watches env mach'
  sim : ∀ n p d b st s k (m : Mem), R s k →
    OutRel R (mach n p d b st ⟨s, m⟩) (mach' n p d b st ⟨k, m⟩)
  call : ∀ n, CallAt env c chk lim (mach' n) lo p

/-- A parser object in a counted state, seen through the plain cursor. -/
def CountedAt (R : σ → Cursor → Prop) (env : Env) (c : Nat → Bool) (chk : Bool) (lim : Nat)
    (lo more : Nat) (p : Prog) (st : PState) (w : World σ Mem) : Prop :=
  p.countsFit chk lim c = true ∧ ∃ k : Cursor, R w.ds k ∧ k.text.length + more ≤ lim ∧
    Counted env c chk lim lo p st k.saved k.pos

variable {mach : Mach σ Mem} {mach' : Mach Cursor Mem} {lo : Nat} {p : Prog}

theorem CountedAt.run_eq (hM : Checked R env c chk lim lo p mach mach') {more dst bnd st}
    {w : World σ Mem} (h : CountedAt R env c chk lim lo more p st w) (n : Nat) :
    mach n p dst bnd st w = run env n p dst bnd st w := by
  obtain ⟨hf, k, hr, ht, hc⟩ := h
  rcases hM.watch n p dst bnd st w with h | ⟨e, h, he⟩
  · exact h
  · have hs := hM.sim n p dst bnd st w.ds k w.mem hr
    have hk := hM.call n dst bnd st ⟨k, w.mem⟩ k.saved [] hf (by simp only; omega) (by simp) hc
    rw [show (⟨w.ds, w.mem⟩ : World σ Mem) = w from rfl, h] at hs
    generalize mach' n p dst bnd st (⟨k, w.mem⟩ : World Cursor Mem) = y at hs hk
    cases hs
    rw [Post, Err.NotLimit, he] at hk
    cases hk

theorem CountedAt.evals (hM : Checked R env c chk lim lo p mach mach') {more dst bnd st}
    {w : World σ Mem} (h : CountedAt R env c chk lim lo more p st w) {o} :
    EvalsBy mach p dst bnd st w o ↔ Evals env p dst bnd st w o := by
  unfold EvalsBy Evals
  simp only [h.run_eq hM]

theorem CountedAt.partial (hM : Checked R env c chk lim lo p mach mach') {more dst bnd st}
    {w : World σ Mem} (h : CountedAt R env c chk lim lo more p st w) {st' w'}
    (he : Evals env p dst bnd st w (.ok ((.PARTIAL, st'), w'))) :
    CountedAt R env c chk lim lo more p st' w' := by
  obtain ⟨_, n, hn⟩ := he
  rw [← h.run_eq hM] at hn
  obtain ⟨hf, k, hr, ht, hc⟩ := h
  have hs := hM.sim n p dst bnd st w.ds k w.mem hr
  have hk := hM.call n dst bnd st ⟨k, w.mem⟩ k.saved [] hf (by simp only; omega) (by simp) hc
  have hq := hM.watch' n p dst bnd st (⟨k, w.mem⟩ : World Cursor Mem)
  rw [show (⟨w.ds, w.mem⟩ : World σ Mem) = w from rfl, hn] at hs
  generalize hy : mach' n p dst bnd st (⟨k, w.mem⟩ : World Cursor Mem) = y at hs hk hq
  cases hs with
  | @ok _ s k' m hr' =>
    obtain ⟨_, L, h2, _, _, h5⟩ := hk
    rcases hq with hq | ⟨e, hq, _⟩
    · have htx := run_text env n p dst bnd st _ hq.symm
      refine ⟨hf, k', hr', ?_, ?_⟩
      · rw [show k'.text = k.text from htx]; exact ht
      · rw [show k'.saved = L by rw [← List.append_nil L]; exact h2]; exact h5 rfl
    · cases hq

/-- A newly constructed parser object. -/
theorem construct_counted (hR : DsSim R) {more dst bnd st} {s : σ} {m : Mem} {w : World σ Mem}
    (hf : p.countsFit chk lim c = true) {k : Cursor} (hr : R s k) (hk : k.saved = [])
    (hp : k.pos ≤ lim) (ht : k.text.length + more ≤ lim)
    (h : construct p dst bnd (⟨s, m⟩ : World σ Mem) = .ok (st, w)) :
    CountedAt R env c chk lim k.pos more p st w := by
  have hs := construct_sim hR p dst bnd m hr
  have hn := mk_new (call := fun _ _ _ _ _ => .error .stuck) mem_quietOps env c chk lim p dst bnd
    (⟨k, m⟩ : World Cursor Mem) hf
  rw [h] at hs
  unfold construct at hs
  generalize exec (fun _ _ _ _ _ => .error .stuck) (mk p dst bnd) (⟨k, m⟩ : World Cursor Mem) = y
    at hs hn
  cases hs with
  | @ok _ s' k' m' hr' =>
    obtain ⟨j, h1, h2, h3, h4⟩ := hn
    refine ⟨hf, k', hr', ?_, ?_⟩
    · rw [show k'.text = k.text from h4]; exact ht
    · have h2' : k'.saved = List.replicate j k.pos := by
        rw [show k'.saved = List.replicate j k.pos ++ k.saved from h2, hk, List.append_nil]
      rw [h2', show k'.pos = k.pos from h3]
      exact h1 _ _ _ ⟨Nat.le_refl _, hp, .replicate (Nat.le_refl _) hp⟩
        (by rw [List.length_replicate]; exact Nat.le_refl _)

/-- Construction does not fail because of a check. -/
theorem construct_limit (hR : DsSim R) {dst bnd} {s : σ} {m : Mem} {k : Cursor} (hr : R s k)
    (hf : p.countsFit chk lim c = true) {e} (he : e.isLimit = true) :
    construct p dst bnd (⟨s, m⟩ : World σ Mem) ≠ .error e := by
  intro h
  have hs := construct_sim hR p dst bnd m hr
  have hn := mk_new (call := fun _ _ _ _ _ => .error .stuck) mem_quietOps (fun _ => none) c chk lim
    p dst bnd (⟨k, m⟩ : World Cursor Mem) hf
  rw [h] at hs
  unfold construct at hs
  generalize exec (fun _ _ _ _ _ => .error .stuck) (mk p dst bnd) (⟨k, m⟩ : World Cursor Mem) = y
    at hs hn
  cases hs
  rw [Post, Err.NotLimit, he] at hn
  cases hn

theorem CountedAt.quiet (hM : Checked R env c chk lim lo p mach mach') {more dst bnd st}
    {w : World σ Mem} (h : CountedAt R env c chk lim lo more p st w) {e} (he : e.isLimit = true) :
    ¬ EvalsBy mach p dst bnd st w (.error e) := by
  rintro ⟨_, n, hn⟩
  obtain ⟨hf, k, hr, ht, hc⟩ := h
  have hs := hM.sim n p dst bnd st w.ds k w.mem hr
  have hk := hM.call n dst bnd st ⟨k, w.mem⟩ k.saved [] hf (by simp only; omega) (by simp) hc
  rw [show (⟨w.ds, w.mem⟩ : World σ Mem) = w from rfl, hn] at hs
  generalize mach' n p dst bnd st (⟨k, w.mem⟩ : World Cursor Mem) = y at hs hk
  cases hs
  rw [Post, Err.NotLimit, he] at hk
  cases hk

end

section
variable {env : Env} {c : Nat → Bool} {chk : Bool} {lim lo : Nat} {p : Prog}
  {mach : Mach ContainerSeq Mem} {mach' : Mach Cursor Mem}

theorem CountedAt.add {n st} {w : World ContainerSeq Mem} {b f ds}
    (h : CountedAt ContainerSeq.Rel env c chk lim lo (b.length + n) p st w)
    (ha : w.ds.addBuffer b f = some ds) :
    CountedAt ContainerSeq.Rel env c chk lim lo n p st ⟨ds, w.mem⟩ := by
  obtain ⟨hf, k, hr, ht, hc⟩ := h
  have := ContainerSeq.addBuffer_rel hr b f
  rw [ha] at this
  generalize hk : k.addBuffer b f = y at this
  cases this with
  | @some _ k' hr' =>
    simp only [Cursor.addBuffer] at hk
    split at hk
    · cases hk
    · cases hk
      refine ⟨hf, _, hr', ?_, hc⟩
      simp only [Cursor.feed, List.length_append]
      omega

theorem SessionBy.plain (hM : Checked ContainerSeq.Rel env c chk lim lo p mach mach') {dst st}
    {w : World ContainerSeq Mem} {ops v}
    (h : SessionBy mach ContainerSeq.addBuffer p dst st w ops v)
    (hc : CountedAt ContainerSeq.Rel env c chk lim lo (opsText ops).length p st w) :
    Session ContainerSeq.addBuffer env p dst st w ops v := by
  induction h with
  | nil h => exact .nil h
  | addBad h => exact .addBad h
  | @add st w b f ops ds v h _ ih =>
    rw [opsText, List.length_append] at hc
    exact .add h (ih (hc.add h))
  | error h => exact .error ((hc.evals hM).1 h)
  | verdict h hn hrd => exact .verdict ((hc.evals hM).1 h) hn hrd
  | more h _ ih =>
    have h' := (hc.evals hM).1 h
    exact .more h' (ih (hc.partial hM h'))

theorem Session.checked (hM : Checked ContainerSeq.Rel env c chk lim lo p mach mach') {dst st}
    {w : World ContainerSeq Mem} {ops v}
    (h : Session ContainerSeq.addBuffer env p dst st w ops v)
    (hc : CountedAt ContainerSeq.Rel env c chk lim lo (opsText ops).length p st w) :
    SessionBy mach ContainerSeq.addBuffer p dst st w ops v := by
  induction h with
  | nil h => exact .nil h
  | addBad h => exact .addBad h
  | @add st w b f ops ds v h _ ih =>
    rw [opsText, List.length_append] at hc
    exact .add h (ih (hc.add h))
  | error h => exact .error ((hc.evals hM).2 h)
  | verdict h hn hrd => exact .verdict ((hc.evals hM).2 h) hn hrd
  | more h _ ih => exact .more ((hc.evals hM).2 h) (ih (hc.partial hM h))

end

/-! ### The entry points -/

section
variable {env : Env} {c : Nat → Bool} {chk : Bool} {lim : Nat} {p : Pat} {mach' : Mach Cursor Mem}

theorem ParsesBy.iff {mach : Mach SingleForward Mem}
    (hM : Checked SingleForward.Rel env c chk lim 0 (topParser p) mach mach')
    (hp : (topParser p).countsFit chk lim c = true) {dst m} {t : List Ch} (ht : t.length ≤ lim) {v} :
    ParsesBy mach p dst m t v ↔ Parses env p dst m t v := by
  have hat : ∀ {st w}, Abu.construct (topParser p) dst dst
      (⟨SingleForward.make t, m⟩ : World SingleForward Mem) = .ok (st, w) →
      CountedAt SingleForward.Rel env c chk lim 0 0 (topParser p) st w := fun h =>
    construct_counted (k := Cursor.whole t) SingleForward.dsSim hp (SingleForward.rel_make t) rfl
      (Nat.zero_le _) (by simpa [Cursor.whole] using ht) h
  constructor
  · intro h
    cases h with
    | construct h => exact .construct h
    | error h h' => exact .error h (((hat h).evals hM).1 h')
    | ok h h' hr => exact .ok h (((hat h).evals hM).1 h') hr
  · intro h
    cases h with
    | construct h => exact .construct h
    | error h h' => exact .error h (((hat h).evals hM).2 h')
    | ok h h' hr => exact .ok h (((hat h).evals hM).2 h') hr

theorem ParsesBy.quiet {mach : Mach SingleForward Mem}
    (hM : Checked SingleForward.Rel env c chk lim 0 (topParser p) mach mach')
    (hp : (topParser p).countsFit chk lim c = true) {dst m} {t : List Ch} (ht : t.length ≤ lim) {e}
    (he : e.isLimit = true) : ¬ ParsesBy mach p dst m t (.error e) := by
  intro h
  cases h with
  | construct h =>
    exact construct_limit SingleForward.dsSim (SingleForward.rel_make t) hp he h
  | error h h' =>
    exact (construct_counted (env := env) (more := 0) (k := Cursor.whole t) SingleForward.dsSim hp
      (SingleForward.rel_make t) rfl (Nat.zero_le _) (by simpa [Cursor.whole] using ht) h).quiet
      hM he h'

theorem MakeParserRunBy.iff {mach : Mach ContainerSeq Mem}
    (hM : Checked ContainerSeq.Rel env c chk lim 0 (topParser p) mach mach')
    (hp : (topParser p).countsFit chk lim c = true) {dst m} {ops : List SOp}
    (ht : (opsText ops).length ≤ lim) {v} :
    MakeParserRunBy mach p dst m ops v ↔ MakeParserRun env p dst m ops v := by
  have hat : ∀ {st w}, Abu.construct (topParser p) dst dst
      (⟨ContainerSeq.make, m⟩ : World ContainerSeq Mem) = .ok (st, w) →
      CountedAt ContainerSeq.Rel env c chk lim 0 (opsText ops).length (topParser p) st w :=
    fun h => construct_counted (k := Cursor.start) ContainerSeq.dsSim hp ⟨_, ContainerSeq.sim_make⟩
      rfl (Nat.zero_le _) (by simpa [Cursor.start] using ht) h
  constructor
  · intro h
    cases h with
    | construct h => exact .construct h
    | run h h' => exact .run h (h'.plain hM (hat h))
  · intro h
    cases h with
    | construct h => exact .construct h
    | run h h' => exact .run h (h'.checked hM (hat h))

/-- An outcome of a checked machine on the plain cursor. -/
theorem parsesBy_error {mach : Mach SingleForward Mem} {dst m t st w n e}
    (hsim : ∀ n p d b st s k (m : Mem), SingleForward.Rel s k →
      OutRel SingleForward.Rel (mach n p d b st ⟨s, m⟩) (mach' n p d b st ⟨k, m⟩))
    (hc : construct (topParser p) dst dst (⟨Cursor.whole t, m⟩ : World Cursor Mem) = .ok (st, w))
    (hr : mach' n (topParser p) dst dst st w = .error e) (he : e ≠ .fuel) :
    ParsesBy mach p dst m t (.error e) := by
  have hs := construct_sim SingleForward.dsSim (topParser p) dst dst m (SingleForward.rel_make t)
  rw [hc] at hs
  generalize hx : construct (topParser p) dst dst
    (⟨SingleForward.make t, m⟩ : World SingleForward Mem) = x at hs
  cases hs with
  | @ok _ s k m' hrel =>
    have h := hsim n (topParser p) dst dst st _ _ m' hrel
    rw [hr] at h
    generalize hy : mach n (topParser p) dst dst st (⟨s, m'⟩ : World SingleForward Mem) = y at h
    cases h
    exact .error hx ⟨by simpa using he, n, hy⟩

end
end Abu
