import Verif.Proofs.Session
/-
Computing the verdict of concrete parses, for the examples.
-/
namespace Abu

/-- `parse` with a bound on the number of steps; `none`: the bound was reached. -/
def parseN (env : Env) (n : Nat) (p : Pat) (dst : Ref) (m : Mem) (t : List Ch) : Option Verdict :=
  match construct (topParser p) dst dst (⟨Cursor.whole t, m⟩ : World Cursor Mem) with
  | .error e => some (.error e)
  | .ok (st, w) =>
    match run env n (topParser p) dst dst st w with
    | .error .fuel => none
    | .error e => some (.error e)
    | .ok ((r, _), w') => some (.ok (r, w'.mem, w'.ds.text.drop w'.ds.pos))

theorem parses_of_parseN {env n p dst m t v} (h : parseN env n p dst m t = some v) :
    Parses env p dst m t v := by
  rw [parses_iff_cursor]
  unfold parseN at h
  unfold CursorParses
  generalize construct (topParser p) dst dst (⟨Cursor.whole t, m⟩ : World Cursor Mem) = x at h ⊢
  cases x with
  | error e => simpa using h.symm
  | ok y =>
    obtain ⟨st, w⟩ := y
    simp only at h ⊢
    cases hr : run env n (topParser p) dst dst st w with
    | error e =>
      rw [hr] at h
      have he : e ≠ .fuel := by rintro rfl; cases h
      refine ⟨.error e, ⟨by simpa using he, n, hr⟩, ?_⟩
      have : v = .error e := by cases e <;> first | exact absurd rfl he | (cases h; rfl)
      subst this
      exact .error _ _
    | ok z =>
      obtain ⟨⟨r, st'⟩, w'⟩ := z
      rw [hr] at h
      simp only [Option.some.injEq] at h
      refine ⟨_, ⟨by simp, n, hr⟩, ?_⟩
      rw [← h]
      have := EndsIn.ok (r := r) (st := st') (w := w') [] w'.ds.reads_drop
      rw [List.append_nil] at this
      exact this

theorem EndsIn.unique {σ : Type} [DataSource σ] {o : Out σ Mem (Res × PState)} {more v v'}
    (h : EndsIn o more v) (h' : EndsIn o more v') : v = v' := by
  cases h with
  | error => cases h'; rfl
  | ok _ hr => cases h' with | ok _ hr' => rw [hr.unique hr']

/-- `parse` has at most one outcome. -/
theorem Parses.unique {env p dst m t v v'} (h : Parses env p dst m t v)
    (h' : Parses env p dst m t v') : v = v' := by
  rw [parses_iff_cursor] at h h'
  unfold CursorParses at h h'
  generalize Abu.construct (topParser p) dst dst (⟨Cursor.whole t, m⟩ : World Cursor Mem) = x at h h'
  cases x with
  | error e => exact h.trans h'.symm
  | ok y =>
    obtain ⟨o, ho, he⟩ := h
    obtain ⟨o', ho', he'⟩ := h'
    cases ho.unique ho'
    exact he.unique he'

/-- A driven parser object with a bound on the number of steps of each `consume`. -/
def sessionN (env : Env) (n : Nat) (p : Prog) (dst : Ref) :
    PState → World Cursor Mem → List SOp → Option Verdict
  | _, w, [] => some (.ok (.PARTIAL, w.mem, w.ds.text.drop w.ds.pos))
  | st, w, .add b f :: ops =>
    match w.ds.addBuffer b f with
    | none => some (.error .ubData)
    | some ds => sessionN env n p dst st ⟨ds, w.mem⟩ ops
  | st, w, .consume :: ops =>
    match run env n p dst dst st w with
    | .error .fuel => none
    | .error e => some (.error e)
    | .ok ((.PARTIAL, st'), w') => sessionN env n p dst st' w' ops
    | .ok ((r, _), w') => some (.ok (r, w'.mem, w'.ds.text.drop w'.ds.pos ++ opsText ops))

theorem session_of_sessionN {env n p dst} {ops : List SOp} : ∀ {st} {w : World Cursor Mem} {v},
    sessionN env n p dst st w ops = some v → Session Cursor.addBuffer env p dst st w ops v := by
  induction ops with
  | nil =>
    intro st w v h
    simp only [sessionN, Option.some.injEq] at h
    rw [← h]
    exact .nil w.ds.reads_drop
  | cons op ops ih =>
    intro st w v h
    cases op with
    | add b f =>
      simp only [sessionN] at h
      cases ha : w.ds.addBuffer b f with
      | none =>
        rw [ha] at h; simp only [Option.some.injEq] at h
        rw [← h]; exact .addBad ha
      | some ds => rw [ha] at h; exact .add ha (ih h)
    | consume =>
      simp only [sessionN] at h
      cases hr : run env n p dst dst st w with
      | error e =>
        rw [hr] at h
        have he : e ≠ .fuel := by rintro rfl; cases h
        have : v = .error e := by cases e <;> first | exact absurd rfl he | (cases h; rfl)
        subst this
        exact .error ⟨by simpa using he, n, hr⟩
      | ok z =>
        obtain ⟨⟨r, st'⟩, w'⟩ := z
        rw [hr] at h
        have hev : Evals env p dst dst st w (.ok ((r, st'), w')) := ⟨by simp, n, hr⟩
        cases r with
        | PARTIAL => exact .more hev (ih h)
        | SUCCESS =>
          simp only [Option.some.injEq] at h
          rw [← h]; exact .verdict hev (by simp) w'.ds.reads_drop
        | FAILURE =>
          simp only [Option.some.injEq] at h
          rw [← h]; exact .verdict hev (by simp) w'.ds.reads_drop

theorem makeParser_of_sessionN {env n p dst m ops v st w}
    (hc : Abu.construct (topParser p) dst dst (⟨Cursor.start, m⟩ : World Cursor Mem)
      = .ok (st, w))
    (h : sessionN env n (topParser p) dst st w ops = some v) :
    MakeParserRun env p dst m ops v := by
  have hrel0 : ContainerSeq.Rel ContainerSeq.make Cursor.start := ⟨_, ContainerSeq.sim_make⟩
  have hsim := construct_sim ContainerSeq.dsSim (topParser p) dst dst m hrel0
  rw [hc] at hsim
  generalize hs : Abu.construct (topParser p) dst dst
    (⟨ContainerSeq.make, m⟩ : World ContainerSeq Mem) = y at hsim
  cases hsim with
  | @ok st s c m' hr =>
    refine .run hs ?_
    exact Session.sim (R := fun c s => ContainerSeq.Rel s c) ContainerSeq.dsSim.flip
      (fun b f h => (ContainerSeq.addBuffer_rel h b f).flip) (session_of_sessionN h) hr

end Abu
