import Verif.Proofs.SinglePass
import Verif.Props.Buffers
/-
C72: `parse` on iterators that pass only once.
-/
namespace Abu

/-- C72: when the iterators pass only once, a result of `parse` is the result on iterators that can
go back, with the same values and action calls. What is left of the stream has not been read. -/
theorem C72_result_is_right (env : Env) (p : Pat) (dst : Ref) (m m' : Mem) (t left : List Ch)
    (r : Res) (h : ParsesOnce env p dst m t (.ok (r, m', left))) :
    ∃ rest, Parses env p dst m t (.ok (r, m', rest)) ∧ left <:+ rest := by
  generalize hv : Except.ok (r, m', left) = v at h
  cases h with
  | construct => cases hv
  | error => cases hv
  | @ok st w r st' w' hc he =>
    cases hv
    have h1 := construct_once (topParser p) dst dst m (SinglePass.rel_make t)
    rw [hc] at h1
    generalize hc' : construct (topParser p) dst dst (⟨.make t, m⟩ : World SingleForward Mem) = x at h1
    cases h1 with
    | @ok a s c m1 hr =>
      obtain ⟨hf, n, hn⟩ := he
      have h2 := run_once env n (topParser p) dst dst st m1 hr
      rw [hn] at h2
      generalize hn' : run env n (topParser p) dst dst st ⟨c, m1⟩ = y at h2
      cases h2 with
      | @ok a s c m2 hr' => exact ⟨_, .ok hc' ⟨by simp, n, hn'⟩ hr'.reads, hr'.suffix⟩

/-- C72: nothing else goes wrong than the use of an iterator that has become invalid. -/
theorem C72_nothing_else_goes_wrong (env : Env) (p : Pat) (dst : Ref) (m : Mem) (t : List Ch)
    (e : Err) (h : ParsesOnce env p dst m t (.error e)) :
    e = .ubData ∨ Parses env p dst m t (.error e) := by
  generalize hv : Except.error e = v at h
  cases h with
  | construct hc =>
    cases hv
    have h1 := construct_once (topParser p) dst dst m (SinglePass.rel_make t)
    rw [hc] at h1
    generalize hc' : construct (topParser p) dst dst (⟨.make t, m⟩ : World SingleForward Mem) = x at h1
    cases h1 with
    | undef => exact .inl rfl
    | error => exact .inr (.construct hc')
  | ok => cases hv
  | @error st w e hc he =>
    cases hv
    have h1 := construct_once (topParser p) dst dst m (SinglePass.rel_make t)
    rw [hc] at h1
    generalize hc' : construct (topParser p) dst dst (⟨.make t, m⟩ : World SingleForward Mem) = x at h1
    cases h1 with
    | @ok a s c m1 hr =>
      obtain ⟨hf, n, hn⟩ := he
      have h2 := run_once env n (topParser p) dst dst st m1 hr
      rw [hn] at h2
      generalize hn' : run env n (topParser p) dst dst st ⟨c, m1⟩ = y at h2
      cases h2 with
      | undef => exact .inl rfl
      | error => exact .inr (.error hc' ⟨by simpa using hf, n, hn'⟩)

/-- C72: it ends whenever it ends on iterators that can go back. -/
theorem C72_ends (env : Env) (p : Pat) (dst : Ref) (m : Mem) (t : List Ch) (v : Verdict)
    (h : Parses env p dst m t v) : ∃ v', ParsesOnce env p dst m t v' := by
  have h1 := construct_once (topParser p) dst dst m (SinglePass.rel_make t)
  have key : ∀ {st w out}, construct (topParser p) dst dst (⟨.make t, m⟩ : World SingleForward Mem)
      = .ok (st, w) → Evals env (topParser p) dst dst st w out →
      ∃ v', ParsesOnce env p dst m t v' := by
    intro st w out hc he
    rw [hc] at h1
    generalize hc' : constructOnce (topParser p) dst dst ⟨.make t, m⟩ = x at h1
    cases h1 with
    | undef => exact ⟨_, .construct hc'⟩
    | @ok a s c m1 hr =>
      obtain ⟨hf, n, hn⟩ := he
      have h2 := run_once env n (topParser p) dst dst st m1 hr
      rw [hn] at h2
      generalize hn' : runOnce env n (topParser p) dst dst st ⟨s, m1⟩ = y at h2
      cases h2 with
      | undef => exact ⟨_, .error hc' ⟨by simp, n, hn'⟩⟩
      | error => exact ⟨_, .error hc' ⟨by simpa using hf, n, hn'⟩⟩
      | ok => exact ⟨_, .ok hc' ⟨by simp, n, hn'⟩⟩
  cases h with
  | construct hc =>
    rw [hc] at h1
    generalize hc' : constructOnce (topParser p) dst dst ⟨.make t, m⟩ = x at h1
    cases h1 with
    | undef => exact ⟨_, .construct hc'⟩
    | error => exact ⟨_, .construct hc'⟩
  | error hc he => exact key hc he
  | ok hc he => exact key hc he

/-- C72: for a pattern that can be decided one character at a time, `parse` does exactly the same on
both. Not proved for all patterns: `C72_refuted`. -/
theorem C72_streaming_works_partial (env : Env) (henv : env.streams) (p : Pat)
    (hp : p.streams false = true) (dst : Ref) (m : Mem) (t : List Ch) (v : Verdict) :
    ParsesOnce env p dst m t v ↔ Parses env p dst m t v := by
  have hm := elab_markless (r := DefaultReqs) p (K := .fail) rfl hp
  have h1 := construct_pass (topParser p) dst dst m hm ⟨SinglePass.rel_make t, rfl⟩
  generalize hc : constructOnce (topParser p) dst dst ⟨.make t, m⟩ = x at h1
  generalize hc' : construct (topParser p) dst dst (⟨.make t, m⟩ : World SingleForward Mem) = y at h1
  constructor
  · intro h
    cases h with
    | construct h =>
      rw [hc] at h; subst h
      cases h1
      exact .construct hc'
    | @error st w e h he =>
      rw [hc] at h; subst h
      cases h1 with
      | @ok _ s c m1 hr =>
        obtain ⟨hf, n, hn⟩ := he
        have h2 := run_pass henv.markless n (topParser p) dst dst st m1 hm hr
        rw [hn] at h2
        generalize hn' : run env n (topParser p) dst dst st ⟨c, m1⟩ = z at h2
        cases h2
        exact .error hc' ⟨by simpa using hf, n, hn'⟩
    | @ok st w r st' w' h he =>
      rw [hc] at h; subst h
      cases h1 with
      | @ok _ s c m1 hr =>
        obtain ⟨hf, n, hn⟩ := he
        have h2 := run_pass henv.markless n (topParser p) dst dst st m1 hm hr
        rw [hn] at h2
        generalize hn' : run env n (topParser p) dst dst st ⟨c, m1⟩ = z at h2
        cases h2 with
        | ok a hr' =>
          refine .ok hc' ⟨by simp, n, hn'⟩ ?_
          show Reads _ (SinglePass.stream _)
          rw [SinglePass.Rel.whole hr']
          exact hr'.1.reads
  · intro h
    cases h with
    | construct h =>
      rw [hc'] at h; subst h
      cases h1
      exact .construct hc
    | @error st w e h he =>
      rw [hc'] at h; subst h
      cases h1 with
      | @ok _ s c m1 hr =>
        obtain ⟨hf, n, hn⟩ := he
        have h2 := run_pass henv.markless n (topParser p) dst dst st m1 hm hr
        rw [hn] at h2
        generalize hn' : runOnce env n (topParser p) dst dst st ⟨s, m1⟩ = z at h2
        cases h2
        exact .error hc ⟨by simpa using hf, n, hn'⟩
    | @ok st w r st' w' rest h he hrd =>
      rw [hc'] at h; subst h
      cases h1 with
      | @ok _ s c m1 hr =>
        obtain ⟨hf, n, hn⟩ := he
        have h2 := run_pass henv.markless n (topParser p) dst dst st m1 hm hr
        rw [hn] at h2
        generalize hn' : runOnce env n (topParser p) dst dst st ⟨s, m1⟩ = z at h2
        cases h2 with
        | ok a hr' =>
          have := ParsesOnce.ok hc ⟨by simp, n, hn'⟩
          rw [show SinglePass.stream _ = _ from SinglePass.Rel.whole hr'] at this
          rw [hrd.unique hr'.1.reads]
          exact this

/-- The claim is false of the code in general: `lit("ab") | lit("ac")` on `ac` goes back to the
beginning (combinators/alternative.h, `CleanFailureAdapter`) with an iterator that is no longer
valid. -/
theorem C72_refuted : ParsesOnce noEnv twoWords .nil ⟨[], []⟩ [97, 99] (.error .ubData) ∧
    Parses noEnv twoWords .nil ⟨[], []⟩ [97, 99] (.ok (.SUCCESS, ⟨[], []⟩, [])) :=
  ⟨parsesOnce_of_parseOnceN (n := 9) rfl, parses_of_parseN (n := 9) rfl⟩

/-- One character of lookahead is not always enough either: `-char_('a') >> char_('b')`, skipping
spaces, on ` b`. -/
theorem C72_refuted_skipper : ParsesOnce noEnv
    (.withSkipper (.seq [.opt (.char (.single 97)), .char (.single 98)]) (.char (.single 32)))
    .nil ⟨[], []⟩ [32, 98] (.error .ubData) ∧ Parses noEnv
    (.withSkipper (.seq [.opt (.char (.single 97)), .char (.single 98)]) (.char (.single 32)))
    .nil ⟨[], []⟩ [32, 98] (.ok (.SUCCESS, ⟨[], []⟩, [])) :=
  ⟨parsesOnce_of_parseOnceN (n := 19) rfl, parses_of_parseN (n := 19) rfl⟩

/-- `streamed` (`Buffers.lean`) meets the hypotheses; here on `12 abc`. -/
example : ParsesOnce noEnv streamed .nil ⟨[], []⟩ [49, 50, 32, 97, 98, 99]
    (.ok (.SUCCESS, ⟨[], []⟩, [99])) :=
  parsesOnce_of_parseOnceN (n := 19) rfl
/-- More is gone from the stream than was read: `char_('a') >> -lit("bc")` on `abd`. -/
example : ParsesOnce noEnv (.seq [.char (.single 97), .opt (.strLit [98, 99])]) .nil ⟨[], []⟩
    [97, 98, 100] (.ok (.SUCCESS, ⟨[], []⟩, [100])) :=
  parsesOnce_of_parseOnceN (n := 19) rfl
example : Parses noEnv (.seq [.char (.single 97), .opt (.strLit [98, 99])]) .nil ⟨[], []⟩
    [97, 98, 100] (.ok (.SUCCESS, ⟨[], []⟩, [98, 100])) :=
  parses_of_parseN (n := 19) rfl

end Abu
