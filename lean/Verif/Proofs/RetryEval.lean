import Verif.Proofs.RetryElab
/-
Computing what becomes of concrete parser objects over another machine, for the examples.
-/
namespace Abu

/-- What is left in a data source, of at most `n` characters. -/
def restN {σ : Type} [DataSource σ] : Nat → σ → Option (List Ch)
  | 0, _ => none
  | n + 1, ds =>
    if DataSource.empty ds then some []
    else match DataSource.next ds, DataSource.advance ds with
      | some c, some ds' => (restN n ds').map (c :: ·)
      | _, _ => none

/-- `SessionBy` with a bound on the number of steps of each `consume`. -/
def sessionByN (mach : Mach ContainerSeq Mem) (n : Nat) (p : Prog) (dst : Ref) :
    PState → World ContainerSeq Mem → List SOp → Option Verdict
  | _, w, [] => (restN n w.ds).map fun t => .ok (.PARTIAL, w.mem, t)
  | st, w, .add b f :: ops =>
    match w.ds.addBuffer b f with
    | none => some (.error .ubData)
    | some ds => sessionByN mach n p dst st ⟨ds, w.mem⟩ ops
  | st, w, .consume :: ops =>
    match mach n p dst dst st w with
    | .error .fuel => none
    | .error e => some (.error e)
    | .ok ((.PARTIAL, st'), w') => sessionByN mach n p dst st' w' ops
    | .ok ((r, _), w') => (restN n w'.ds).map fun t => .ok (r, w'.mem, t ++ opsText ops)

/-- `MakeParserRunBy` with such a bound. -/
def objectByN (mach : Mach ContainerSeq Mem) (n : Nat) (p : Pat) (dst : Ref) (m : Mem)
    (ops : List SOp) : Option Verdict :=
  match construct (topParser p) dst dst (⟨ContainerSeq.make, m⟩ : World ContainerSeq Mem) with
  | .error e => some (.error e)
  | .ok (st, w) => sessionByN mach n (topParser p) dst st w ops

theorem reads_of_restN {σ : Type} [DataSource σ] : ∀ {n : Nat} {ds : σ} {t}, restN n ds = some t → Reads ds t
  | 0, _, _, h => by cases h
  | n + 1, ds, t, h => by
    unfold restN at h
    split at h
    · cases h; exact .done (by assumption)
    · split at h
      · rename_i he _ _ c ds' h1 h2
        obtain ⟨t', ht, rfl⟩ := Option.map_eq_some_iff.1 h
        exact .read (by simpa using he) h1 h2 (reads_of_restN ht)
      · cases h

theorem sessionBy_of_sessionByN {mach n p dst} : ∀ {ops : List SOp} {st} {w : World ContainerSeq Mem} {v},
    sessionByN mach n p dst st w ops = some v → SessionBy mach ContainerSeq.addBuffer p dst st w ops v
  | [], st, w, v, h => by
    obtain ⟨t, ht, rfl⟩ := Option.map_eq_some_iff.1 h
    exact .nil (reads_of_restN ht)
  | .add b f :: ops, st, w, v, h => by
    simp only [sessionByN] at h
    split at h
    · cases h; exact .addBad (by assumption)
    · exact .add (by assumption) (sessionBy_of_sessionByN h)
  | .consume :: ops, st, w, v, h => by
    simp only [sessionByN] at h
    split at h
    · cases h
    · rename_i e hne hr
      cases h
      exact .error ⟨fun h => hne (by cases h; rfl), n, hr⟩
    · rename_i st' w' hr
      exact .more ⟨by simp, n, hr⟩ (sessionBy_of_sessionByN h)
    · rename_i r st' w' hne hr
      obtain ⟨t, ht, rfl⟩ := Option.map_eq_some_iff.1 h
      exact .verdict ⟨by simp, n, hr⟩ (fun h => hne (by rw [h])) (reads_of_restN ht)

theorem objectBy_of_objectByN {mach n p dst m ops v} (h : objectByN mach n p dst m ops = some v) :
    MakeParserRunBy mach p dst m ops v := by
  unfold objectByN at h
  split at h
  · cases h; exact .construct (by assumption)
  · exact .run (by assumption) (sessionBy_of_sessionByN h)

end Abu
