import Verif.Props.Chunks
import Verif.Proofs.Terminates
/-
C38: parsing terminates.
-/
namespace Abu

/-- C38, `parse`: if every unbounded repetition has an operand that consumes, every list an item or
a separator that does, every skipper does, and no pattern used through `Recur` reaches itself
before consuming something (`LeftCalls` has no infinite descent), then `parse` ends on every
text, for every destination: with a verdict, or because a destination met undefined behaviour
(overflow of a number, reading an uninitialised object, ...). -/
theorem C38_parse_terminates (env : Env) (consumes : Nat → Bool) (p : Pat)
    (hloops : p.loopsEat consumes = true) (hset : ∀ a ∈ p.refs, env a ≠ none)
    (henv : env.LoopsEat consumes) (hleft : WellFounded (LeftCalls env consumes))
    (dst : Ref) (m : Mem) (t : List Ch) :
    (∃ r m' rest, r ≠ .PARTIAL ∧ Parses env p dst m t (.ok (r, m', rest))) ∨
    ∃ e, e.ofMem = true ∧ Parses env p dst m t (.error e) := by
  obtain ⟨r, rest, hg⟩ := ghost_halts henv hleft ⟨hloops, hset⟩ t
  rcases hg.real_id dst m with ⟨m', h⟩ | ⟨e, he, h⟩
  · refine .inl ⟨r, m', rest, ?_, h⟩
    rintro rfl
    exact C26_parse_is_never_partial env p dst m t _ _ h
  · exact .inr ⟨e, he, h⟩

/-- C38, parser objects: for every delivery within the contract of `add_buffer`, every `consume`
returns. -/
theorem C38_parser_object_terminates (env : Env) (consumes : Nat → Bool) (p : Pat)
    (hloops : p.loopsEat consumes = true) (hset : ∀ a ∈ p.refs, env a ≠ none)
    (henv : env.LoopsEat consumes) (hleft : WellFounded (LeftCalls env consumes))
    (dst : Ref) (m : Mem) (ops : List SOp) (hl : Legal ops) :
    ∃ v, MakeParserRun env p dst m ops v := by
  obtain ⟨more, hc⟩ := hl.completed
  obtain ⟨v, hv⟩ : ∃ v, Parses env p dst m (opsText (ops ++ more)) v := by
    rcases C38_parse_terminates env consumes p hloops hset henv hleft dst m (opsText (ops ++ more))
      with ⟨_, _, _, _, h⟩ | ⟨_, _, h⟩
    · exact ⟨_, h⟩
    · exact ⟨_, h⟩
  rw [← C25_delivery_is_not_observable env p dst m _ hc v] at hv
  generalize ho : ops ++ more = ops' at hv
  cases hv with
  | construct h => exact ⟨_, .construct h⟩
  | run hcon h =>
    subst ho
    rcases (MakeParserRun.run hcon h).cursor with ⟨e, he, hcc⟩ | ⟨st, w, hcc, h'⟩
    · have hsim := construct_sim ContainerSeq.dsSim (topParser p) dst dst m
        (⟨_, ContainerSeq.sim_make⟩ : ContainerSeq.Rel ContainerSeq.make Cursor.start)
      rw [hcc, hcon] at hsim
      cases hsim
    · obtain ⟨v', hv'⟩ := h'.initial
      exact ⟨v', makeParser_of_session hcc hv'⟩

/-- `item := '(' *item ')' | 'x'`. -/
def nestPat : Pat :=
  .alt [.seq [.char (.single 40), .rep 0 0 (.recur 0 false), .char (.single 41)], .char (.single 120)]
def nestEnv : Env := fun n => if n = 0 then some nestPat else none

/-- A recursive pattern with a repetition and a skipper meets the hypotheses. -/
example : ∃ consumes, (Pat.withSkipper (.recur 0 false) (.char (.single 32))).loopsEat consumes = true ∧
    (∀ a ∈ (Pat.withSkipper (.recur 0 false) (.char (.single 32))).refs, nestEnv a ≠ none) ∧
    nestEnv.LoopsEat consumes ∧ WellFounded (LeftCalls nestEnv consumes) := by
  have hq : ∀ id q, nestEnv id = some q → q = nestPat := by
    intro id q h
    simp only [nestEnv] at h
    split at h
    · cases h; rfl
    · cases h
  refine ⟨fun _ => true, rfl, ?_, ⟨?_, ?_, ?_⟩, ⟨fun b => ⟨_, ?_⟩⟩⟩
  · intro a ha
    simp [Pat.refs] at ha
    subst ha
    simp [nestEnv]
  · intro id q h; rw [hq id q h]; rfl
  · intro id q h _; rw [hq id q h]; rfl
  · intro id q h a ha
    rw [hq id q h] at ha
    simp [nestPat, Pat.refs, Pat.refsAll] at ha
    subst ha
    simp [nestEnv]
  · rintro a ⟨q, h, ha⟩
    rw [hq b q h] at ha
    simp [nestPat, Pat.heads, Pat.headsAll, Pat.headsSeq, Pat.eats] at ha

/-- `*pass` never ends, on any text: its operand does not consume. -/
theorem C38_hypothesis_on_repetitions (env : Env) (dst : Ref) (m : Mem) (t : List Ch) (v : Verdict) :
    ¬ Parses env (.rep 0 0 .pass) dst m t v := by
  have key : ∀ n k (w : World Cursor Mem),
      run env n (topParser (.rep 0 0 .pass)) dst dst (.rep k .unit) w = .error .fuel := by
    intro n
    induction n with
    | zero => intro k w; rfl
    | succ n ih =>
      intro k w
      cases n with
      | zero => rfl
      | succ n => exact ih (k + 1) w
  exact never_of_diverges rfl (fun n => key n 0 _) v

/-- `x := x` never ends, on any text: left recursion. -/
theorem C38_hypothesis_on_recursion (dst : Ref) (m : Mem) (t : List Ch) (v : Verdict) :
    ¬ Parses (fun _ => some (.recur 0 false)) (.recur 0 false) dst m t v := by
  have key : ∀ n, (∀ (w : World Cursor Mem),
      run (fun _ => some (.recur 0 false)) n (.recur 0 .fail) dst dst .recurNone w
        = .error .fuel) ∧ (∀ (w : World Cursor Mem),
      run (fun _ => some (.recur 0 false)) n (.recur 0 .fail) dst dst (.recurSome .recurNone) w
        = .error .fuel) := by
    intro n
    induction n with
    | zero => exact ⟨fun w => rfl, fun w => rfl⟩
    | succ n ih =>
      refine ⟨fun w => ih.2 w, fun w => ?_⟩
      rw [run_succ_eq]
      simp only [body, exec]
      rw [show elabP .fail RecurChildReqs (.recur 0 false) = .recur 0 .fail from rfl, ih.1]
  exact never_of_diverges rfl (fun n => (key n).1 _) v

end Abu
