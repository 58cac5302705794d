import Verif.Proofs.Dispatch
import Verif.Props.Chunks
/-
C54: the assumptions the code makes about the child a sequence or an alternative is at.
-/
namespace Abu

/-! ### C54 -/

/-- C54, `visit_val`: the visitor is called with the value given, if that is in range. -/
theorem C54_visit_val (max v : Nat) (h : v < max) : visitVal max v = v := visitVal_eq h

/-- C54, `visit_val`: for values out of range the visitor is called with the last value in range, so that
there is always a child for it. -/
theorem C54_visit_val_out_of_range (max v : Nat) (h : max ≤ v) (h0 : 0 < max) :
    visitVal max v = max - 1 := by
  have key : ∀ left n, n + left < v → valVisitor left n v = n + left := by
    intro left
    induction left with
    | zero => intro n _; rfl
    | succ left ih =>
      intro n hn
      rw [valVisitor, if_neg (by omega), ih _ (by omega)]
      omega
  rw [visitVal, key _ _ (by omega)]
  omega

example : visitVal 4 2 = 2 ∧ visitVal 4 7 = 3 := ⟨rfl, rfl⟩

/-- C54, `parse`: starting every sequence and alternative at its first child, as the code does on a
data source that is not resumable, is starting it at its current child; the assumption that the two
are the same is never violated. -/
theorem C54_parse_assumptions (env : Env) (p : Pat) (dst : Ref) (m : Mem) (t : List Ch) (v : Verdict) :
    (ParsesExactly env p dst m t v ↔ Parses env p dst m t v) ∧
    (ParsesExactly env p dst m t v → v ≠ .error .ubAssume) := by
  have hc := construct_states mem_notAssume env (topParser p) dst dst
    (⟨SingleForward.make t, m⟩ : World SingleForward Mem)
  constructor
  · constructor
    · intro h
      cases h with
      | construct h => exact .construct h
      | error h h1 =>
        rw [h] at hc
        exact .error h ((Evals.exactly_once hc.1).1 h1)
      | ok h h1 h2 =>
        rw [h] at hc
        exact .ok h ((Evals.exactly_once hc.1).1 h1) h2
    · intro h
      cases h with
      | construct h => exact .construct h
      | error h h1 =>
        rw [h] at hc
        exact .error h ((Evals.exactly_once hc.1).2 h1)
      | ok h h1 h2 =>
        rw [h] at hc
        exact .ok h ((Evals.exactly_once hc.1).2 h1) h2
  · intro h
    cases h with
    | construct h => rw [h] at hc; rintro ⟨⟩; exact hc rfl
    | error h h1 =>
      rw [h] at hc
      obtain ⟨k, hk⟩ := hc.2
      have := Evals.possible hk ((Evals.exactly_once hc.1).1 h1)
      rintro ⟨⟩
      exact this rfl
    | ok h h1 h2 => simp

/-- C54, parser objects: when `consume` is called again, every sequence and alternative goes on with
the child it was at; the dispatch finds it, and the assumption that it does is never violated. -/
theorem C54_parser_object_assumptions (env : Env) (p : Pat) (dst : Ref) (m : Mem) (ops : List SOp)
    (v : Verdict) :
    (MakeParserRunsExactly env p dst m ops v ↔ MakeParserRun env p dst m ops v) ∧
    (MakeParserRunsExactly env p dst m ops v → v ≠ .error .ubAssume) := by
  have hc := construct_states mem_notAssume env (topParser p) dst dst
    (⟨ContainerSeq.make, m⟩ : World ContainerSeq Mem)
  constructor
  · constructor
    · intro h
      cases h with
      | construct h => exact .construct h
      | run h h1 =>
        rw [h] at hc
        obtain ⟨k, hk⟩ := hc.2
        exact .run h ((Session.exactly hk).1 h1)
    · intro h
      cases h with
      | construct h => exact .construct h
      | run h h1 =>
        rw [h] at hc
        obtain ⟨k, hk⟩ := hc.2
        exact .run h ((Session.exactly hk).2 h1)
  · intro h
    cases h with
    | construct h => rw [h] at hc; rintro ⟨⟩; exact hc rfl
    | run h h1 =>
      rw [h] at hc
      obtain ⟨k, hk⟩ := hc.2
      exact Session.notAssume hk ((Session.exactly hk).1 h1)

/-- The assumption can be violated: starting at the first child is wrong for an object that is in
the middle of a sequence. -/
example : consumeExactly false (fun _ => none) 5 (.seq [none, none] [.pass, .pass]) .nil .nil
    (.seq 1 .unit) (⟨SingleForward.make [], ⟨[], []⟩⟩ : World SingleForward Mem) = .error .ubAssume := rfl
/-- The code with its entry reads what it should. -/
example : ParsesExactly (fun _ => none) exPat (.at 0 [] .int) ⟨[.num 7], []⟩ [97, 98, 51, 120]
    (.ok (.SUCCESS, ⟨[.num 3], []⟩, [120])) :=
  (C54_parse_assumptions _ _ _ _ _ _).1.2 (parses_of_parseN (n := 20) rfl)

end Abu
