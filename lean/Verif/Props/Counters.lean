import Verif.Props.Terminate
import Verif.Proofs.Answers
import Verif.Proofs.CountersRun
/-
C66: the `int` counters of parser objects.
-/
namespace Abu

/-- C66, `parse`: `lim` being the largest value of the counters' type, if every repetition has an
operand that consumes or an upper bound (which has that type), then on a text of at most `lim`
characters no counter of digits or of repetitions overflows: a machine in which such an overflow is
undefined behaviour does the same as the machine of the other properties, whose counters are
unbounded. -/
theorem C66_parse (lim : Nat) (env : Env) (consumes : Nat → Bool) (p : Pat)
    (hfit : p.countsFit lim consumes = true) (henv : env.CountsFit lim consumes)
    (dst : Ref) (m : Mem) (t : List Ch) (ht : t.length ≤ lim) (v : Verdict) :
    ParsesCnt lim env p dst m t v ↔ Parses env p dst m t v :=
  ParsesBy.iff (runCnt_checked SingleForward.dsSim henv 0 _)
    (elabP_countsFit p _ _ rfl fun _ => hfit) ht

/-- C66, parser objects: the same, whatever the cut into buffers and whenever `consume` is called,
if all the buffers together have at most `lim` characters. -/
theorem C66_parser_object (lim : Nat) (env : Env) (consumes : Nat → Bool) (p : Pat)
    (hfit : p.countsFit lim consumes = true) (henv : env.CountsFit lim consumes)
    (dst : Ref) (m : Mem) (ops : List SOp) (ht : (opsText ops).length ≤ lim) (v : Verdict) :
    MakeParserRunCnt lim env p dst m ops v ↔ MakeParserRun env p dst m ops v :=
  MakeParserRunBy.iff (runCnt_checked ContainerSeq.dsSim henv 0 _)
    (elabP_countsFit p _ _ rfl fun _ => hfit) ht

/-- C66: in particular `parse` does not overflow a counter. -/
theorem C66_no_overflow (lim : Nat) (env : Env) (consumes : Nat → Bool) (p : Pat)
    (hfit : p.countsFit lim consumes = true) (henv : env.CountsFit lim consumes)
    (dst : Ref) (m : Mem) (t : List Ch) (ht : t.length ≤ lim) :
    ¬ ParsesCnt lim env p dst m t (.error .ubCounter) :=
  ParsesBy.quiet (runCnt_checked SingleForward.dsSim henv 0 _)
    (elabP_countsFit p _ _ rfl fun _ => hfit) ht rfl

/-- Lists of numbers of any length, in a recursive pattern with a repetition and a skipper, meet
the hypotheses, for texts below 2 GiB. -/
example : ∃ consumes, (Pat.withSkipper (.list (.alt [.recur 0 false, .uint 10 1 0])
      (.char (.single 44))) (.char (.single 32))).countsFit INT_MAX consumes = true ∧
    nestEnv.CountsFit INT_MAX consumes ∧ (List.replicate 1000000 (49 : Ch)).length ≤ INT_MAX := by
  have hq : ∀ id q, nestEnv id = some q → q = nestPat := by
    intro id q h
    simp only [nestEnv] at h
    split at h
    · cases h; rfl
    · cases h
  refine ⟨fun _ => true, rfl, ⟨?_, ?_⟩, ?_⟩
  · intro id q h; rw [hq id q h]; rfl
  · intro id q h _; rw [hq id q h]; rfl
  · rw [List.length_replicate]; decide

/-- An outcome of the checked machine on the plain cursor. -/
theorem parsesCnt_error {lim env p dst m t st w n e}
    (hc : construct (topParser p) dst dst (⟨Cursor.whole t, m⟩ : World Cursor Mem) = .ok (st, w))
    (hr : runCnt lim env n (topParser p) dst dst st w = .error e) (he : e ≠ .fuel) :
    ParsesCnt lim env p dst m t (.error e) :=
  parsesBy_error (fun n p d b st s k m hr => runCnt_sim SingleForward.dsSim lim env n p d b st s k m hr)
    hc hr he

/-- C66: the hypothesis on repetitions. `*pass` does not loop for ever (as C38 says of the machine
with unbounded counters): its counter overflows, whatever the text. -/
theorem C66_hypothesis_on_repetitions (lim : Nat) (env : Env) (dst : Ref) (m : Mem) (t : List Ch) :
    ParsesCnt lim env (.rep 0 0 .pass) dst m t (.error .ubCounter) ∧
    ∀ v, ¬ Parses env (.rep 0 0 .pass) dst m t v := by
  refine ⟨?_, C38_hypothesis_on_repetitions env dst m t⟩
  have key : ∀ d k (w : World Cursor Mem), k + d = lim →
      ∃ n, runCnt lim env (n + 2) (.rep 0 0 .pass) dst dst (.rep k .unit) w
        = .error .ubCounter := by
    intro d
    induction d with
    | zero =>
      intro k w hk
      refine ⟨0, ?_⟩
      have : lim < k + 1 := by omega
      simp [runCnt, body, exec, mk, Cmd.bind, Step.state, PState.counter, this]
    | succ d ih =>
      intro k w hk
      obtain ⟨n, hn⟩ := ih (k + 1) w (by omega)
      refine ⟨n + 1, ?_⟩
      rw [runCnt]
      have : ¬ lim < k + 1 := by omega
      have hp : ∀ w : World Cursor Mem, runCnt lim env (n + 2) .pass dst dst .unit w
          = .ok ((.SUCCESS, .unit), w) := by
        intro w
        simp [runCnt, body, exec, Step.state, PState.counter]
      simp only [body, exec, hp, mk, Cmd.bind, Step.state, PState.counter, this, if_false,
        ne_eq, not_true, false_and]
      exact hn
  obtain ⟨n, hn⟩ := key lim 0 ⟨Cursor.whole t, m⟩ (by omega)
  exact parsesCnt_error (st := .rep 0 .unit) (w := ⟨Cursor.whole t, m⟩) rfl hn (by simp)

/-- C66: the hypothesis on the length. One more character than `lim` is too much for `*char_('a')`:
`count_` overflows, on a text that the machine with unbounded counters parses. -/
theorem C66_hypothesis_on_length (lim : Nat) (env : Env) (m : Mem) :
    ParsesCnt lim env (.rep 0 0 (.char (.single 97))) .nil m (List.replicate (lim + 1) 97)
      (.error .ubCounter) ∧
    Parses env (.rep 0 0 (.char (.single 97))) .nil m (List.replicate (lim + 1) 97)
      (.ok (.SUCCESS, m, [])) := by
  have htext : ∀ k, k ≤ lim → (List.replicate (lim + 1) (97 : Ch))[k]? = some 97 := by
    intro k hk
    rw [List.getElem?_replicate, if_pos (by omega)]
  have hchar : ∀ call k, k ≤ lim →
      exec call (body env (.char (.single 97)) .nil .nil .unit)
        (⟨⟨List.replicate (lim + 1) 97, k, [], true⟩, m⟩ : World Cursor Mem) =
      .ok (.ret .SUCCESS .unit, ⟨⟨List.replicate (lim + 1) 97, k + 1, [], true⟩, m⟩) := by
    intro call k hk
    simp only [body]
    rw [exec_guarded_char (htext k hk)]
    have hv : (CharSet.single 97).isValid 97 = true := rfl
    simp only [hv, if_true, exec_mem]
    rw [show Store.op (MemOp.assign .nil (.num 97)) m = .ok m from rfl]
    simp only
    rw [exec_advance (htext k hk)]
    rfl
  constructor
  · have key : ∀ d k, k + d = lim → ∃ n,
        runCnt lim env (n + 2) (.rep 0 0 (.char (.single 97))) .nil .nil (.rep k .unit)
          (⟨⟨List.replicate (lim + 1) 97, k, [], true⟩, m⟩ : World Cursor Mem)
          = .error .ubCounter := by
      intro d
      have hc : ∀ n k, k ≤ lim → runCnt lim env (n + 1) (.char (.single 97)) .nil .nil .unit
          (⟨⟨List.replicate (lim + 1) 97, k, [], true⟩, m⟩ : World Cursor Mem) =
          .ok ((.SUCCESS, .unit), ⟨⟨List.replicate (lim + 1) 97, k + 1, [], true⟩, m⟩) := by
        intro n k hk
        rw [runCnt, hchar _ k hk]
        simp [Step.state, PState.counter]
      induction d with
      | zero =>
        intro k hk
        refine ⟨0, ?_⟩
        rw [runCnt]
        have : lim < k + 1 := by omega
        simp [body, exec, hc 0 k (by omega), mk, Cmd.bind, Step.state, PState.counter, this]
      | succ d ih =>
        intro k hk
        obtain ⟨n, hn⟩ := ih (k + 1) (by omega)
        refine ⟨n + 1, ?_⟩
        rw [runCnt]
        have : ¬ lim < k + 1 := by omega
        simp only [body, exec, hc (n + 1) k (by omega), mk, Cmd.bind, Step.state, PState.counter,
          this, if_false, ne_eq, not_true, false_and]
        exact hn
    obtain ⟨n, hn⟩ := key lim 0 (by omega)
    exact parsesCnt_error (st := .rep 0 .unit) rfl hn (by simp)
  · have key : ∀ d k, k + d = lim + 1 → ∃ n st,
        run env (n + 2) (.rep 0 0 (.char (.single 97))) .nil .nil (.rep k .unit)
          (⟨⟨List.replicate (lim + 1) 97, k, [], true⟩, m⟩ : World Cursor Mem)
          = .ok ((.SUCCESS, st), ⟨⟨List.replicate (lim + 1) 97, lim + 1, [], true⟩, m⟩) := by
      intro d
      induction d with
      | zero =>
        intro k hk
        have hk : k = lim + 1 := by omega
        subst hk
        refine ⟨0, .rep (lim + 1) .unit, ?_⟩
        rw [run_succ_eq]
        have hno := run_char_no (env := env) (s := .single 97) (dst := .nil) (bnd := .nil)
          (t := List.replicate (lim + 1) 97) (i := lim + 1) (S := []) (m := m)
          (by intro c h; rw [List.getElem?_replicate, if_neg (by omega)] at h; cases h)
        simp only [body, exec, hno]
        rfl
      | succ d ih =>
        intro k hk
        obtain ⟨n, st, hn⟩ := ih (k + 1) (by omega)
        refine ⟨n + 1, st, ?_⟩
        have hc : run env (n + 2) (.char (.single 97)) .nil .nil .unit
            (⟨⟨List.replicate (lim + 1) 97, k, [], true⟩, m⟩ : World Cursor Mem) =
            .ok ((.SUCCESS, .unit), ⟨⟨List.replicate (lim + 1) 97, k + 1, [], true⟩, m⟩) := by
          rw [run_succ_eq, hchar _ k (by omega)]
        rw [run_succ_eq]
        simp only [body, exec, hc, mk, Cmd.bind, ne_eq, not_true, false_and, if_false]
        exact hn
    obtain ⟨n, st, hn⟩ := key (lim + 1) 0 (by omega)
    have h := Parses.of_run (p := .rep 0 0 (.char (.single 97))) (st := .rep 0 .unit) (m := m) rfl hn
    have hd : (List.replicate (lim + 1) (97 : Ch)).drop (lim + 1) = [] := by simp
    rw [hd] at h
    exact h

/-- C66: the same for the digits of a number, whose value need not overflow: `lim + 1` zeros. -/
theorem C66_hypothesis_on_digits (lim : Nat) (env : Env) (m : Mem) :
    ParsesCnt lim env (.uint 10 1 0) .nil m (List.replicate (lim + 1) 48) (.error .ubCounter) := by
  have hstep : ∀ call k, k ≤ lim →
      exec call (body env (.uint 10 1 0) .nil .nil (.uint k))
        (⟨⟨List.replicate (lim + 1) 48, k, [], true⟩, m⟩ : World Cursor Mem) =
      .ok (.cont (.uint (k + 1)), ⟨⟨List.replicate (lim + 1) 48, k + 1, [], true⟩, m⟩) := by
    intro call k hk
    have ht : (List.replicate (lim + 1) (48 : Ch))[k]? = some 48 := by
      rw [List.getElem?_replicate, if_pos (by omega)]
    simp only [body]
    rw [exec_guarded_char ht]
    have hv : digitValid 10 48 = true := rfl
    simp only [hv, if_true, exec_mem]
    rw [show Store.op (MemOp.mulAdd ((10 : Nat) : Int) (digitValue 10 48) .nil) m = .ok m from rfl]
    simp only
    rw [exec_advance ht, if_neg (by omega)]
    rfl
  have key : ∀ d k, k + d = lim → ∃ n,
      runCnt lim env n (.uint 10 1 0) .nil .nil (.uint k)
        (⟨⟨List.replicate (lim + 1) 48, k, [], true⟩, m⟩ : World Cursor Mem)
        = .error .ubCounter := by
    intro d
    induction d with
    | zero =>
      intro k hk
      refine ⟨1, ?_⟩
      rw [runCnt, hstep _ k (by omega)]
      have : lim < k + 1 := by omega
      simp [Step.state, PState.counter, this]
    | succ d ih =>
      intro k hk
      obtain ⟨n, hn⟩ := ih (k + 1) (by omega)
      refine ⟨n + 1, ?_⟩
      rw [runCnt, hstep _ k (by omega)]
      have : ¬ lim < k + 1 := by omega
      simp only [Step.state, PState.counter, this, if_false]
      exact hn
  obtain ⟨n, hn⟩ := key lim 0 (by omega)
  exact parsesCnt_error (st := .uint 0) rfl hn (by simp)

end Abu
