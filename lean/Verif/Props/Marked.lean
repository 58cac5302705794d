import Verif.Proofs.MarkedTop
import Verif.Proofs.Answers
import Verif.Props.Grammar
/-
C75: what every pattern recognises, tidy or not.

Where C15 accepts only the patterns on which the code does what the grammar says, the
specification used here (Spec/Marked.lean) has the rollback points of the code in it: one stack of
saved positions shared by all parts of the pattern. It says exactly what is recognised, for all
patterns, with skippers and `Recur` included.
-/
namespace Abu

/-- C75: what a parse recognises, with any destination, is what the specification says; it never
returns PARTIAL. -/
theorem C75_parse_follows_marks (env : Env) (p : Pat) (henv : env.filled) (hp : p.filled = true)
    (dst : Ref) (m : Mem) (t : List Ch) (r : Res) (m' : Mem) (rest : List Ch)
    (h : Parses env p dst m t (.ok (r, m', rest))) :
    (r = .SUCCESS ∧ MarkedFor env p t true rest) ∨ (r = .FAILURE ∧ MarkedFor env p t false rest) := by
  obtain ⟨b, rfl, hm⟩ := (ghost_marked henv hp).1 h.ghost_id
  cases b
  · exact .inr ⟨rfl, hm⟩
  · exact .inl ⟨rfl, hm⟩

/-- C75: what the specification says is what every parse recognises and every parser object
answers, however its text is delivered, unless a value does not fit its destination. -/
theorem C75_marks_are_parsed (env : Env) (p : Pat) (henv : env.filled) (hp : p.filled = true)
    (t : List Ch) (b : Bool) (rest : List Ch) (h : MarkedFor env p t b rest) (dst : Ref) (m : Mem) :
    (∃ m', Answers env p dst m t (.ok (if b then .SUCCESS else .FAILURE, m', rest))) ∨
    ∃ e, e.ofMem = true ∧ Answers env p dst m t (.error e) := by
  have hg := (ghost_marked henv hp).2 ⟨b, rfl, h⟩
  have hb : res b = if b then .SUCCESS else .FAILURE := by cases b <;> rfl
  rw [hb] at hg
  rcases hg.real_id dst m with ⟨m', h⟩ | ⟨e, he, h⟩
  · exact .inl ⟨m', .of_parses h⟩
  · exact .inr ⟨e, he, .of_parses h⟩

/-- C75: the specification allows one outcome at most. -/
theorem C75_one_outcome (env : Env) (p : Pat) (henv : env.filled) (hp : p.filled = true)
    (t : List Ch) (b b' : Bool) (rest rest' : List Ch) (h : MarkedFor env p t b rest)
    (h' : MarkedFor env p t b' rest') : b = b' ∧ rest = rest' := by
  have := ((ghost_marked henv hp).2 ⟨b, rfl, h⟩).unique ((ghost_marked henv hp).2 ⟨b', rfl, h'⟩)
  exact ⟨res_inj this.1, this.2⟩

theorem noEnv_filled : noEnv.filled := by intro id q h; cases h

/-- `(x >> -a >> b) | (x >> a >> c)` on "xac": the first alternative goes back to the point `-a`
left behind, the second one begins after the `x`, and both fail. -/
theorem C75_stale_point : MarkedFor noEnv exStale [120, 97, 99] false [97, 99] := by
  refine ⟨1, [0], .plain (.inr rfl) (.alt (.altCons (j := 1) (S1 := [0]) ?_ (.altCons (j := 1) (S1 := [0]) ?_ .altNil))), rfl⟩
  · refine .plain (.inr rfl) (.undone (j := 2) rfl (.seq (.seqCons (j := 1) (S1 := [0]) ?_
      (.seqCons (j := 2) (S1 := [1, 0]) ?_ (.seqNo ?_)))))
    · exact .plain (.inr rfl) (.discard (.plain (.inr rfl) (.leaf (fun h => by cases h) (.char rfl rfl))))
    · exact .plain (.inr rfl) (.opt (.plain (.inr rfl) (.discard (.plain (.inr rfl)
        (.leaf (fun h => by cases h) (.char rfl rfl))))))
    · exact .plain (.inr rfl) (.discard (.plain (.inr rfl)
        (.leaf (fun h => by cases h) (.charNo fun c hc => by cases hc; rfl))))
  · exact .plain (.inr rfl) (.undone (j := 1) rfl (.seq (.seqNo (.plain (.inr rfl) (.discard
      (.plain (.inr rfl) (.leaf (fun h => by cases h) (.charNo fun c hc => by cases hc; rfl))))))))

example : exStale.filled = true := by decide
/-- No parse and no parser object recognises "xac" with it, then. -/
example : ∃ m', Answers noEnv exStale .nil ⟨[], []⟩ [120, 97, 99] (.ok (.FAILURE, m', [97, 99])) := by
  rcases C75_marks_are_parsed noEnv exStale noEnv_filled rfl _ _ _ C75_stale_point .nil ⟨[], []⟩ with
    h | ⟨e, _, h⟩
  · exact h
  · cases h.1.unique (parses_of_parseN (n := 12) rfl)

/-- The hypotheses hold of a recursive grammar under a skipper that saves positions. -/
def exSkipRec : Pat := .withSkipper (.recur 0 true) (.strLit [32, 32])
example : exRecEnv.filled ∧ exSkipRec.filled = true := by
  refine ⟨?_, rfl⟩
  intro id q h
  unfold exRecEnv at h
  split at h
  · cases h; decide
  · cases h
example : Parses exRecEnv exSkipRec .nil ⟨[], []⟩ [40, 32, 32, 120, 41, 122]
    (.ok (.SUCCESS, ⟨[], []⟩, [122])) := parses_of_parseN (n := 60) rfl

/-- It does not match "(x  )": the skipper of the character inside `lit(')')` goes back to the
point saved before the skipper of the literal itself moved on. -/
example : MarkedFor exRecEnv exSkipRec [40, 120, 32, 32, 41] false [40, 120, 32, 32, 41] := by
  rcases C75_parse_follows_marks exRecEnv exSkipRec (by
    intro id q h
    unfold exRecEnv at h
    split at h
    · cases h; decide
    · cases h) rfl .nil ⟨[], []⟩ [40, 120, 32, 32, 41] .FAILURE ⟨[], []⟩ [40, 120, 32, 32, 41]
      (parses_of_parseN (n := 60) rfl) with ⟨h, _⟩ | ⟨_, h⟩
  · cases h
  · exact h

end Abu
