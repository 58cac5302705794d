import Verif.Props.Terminate
import Verif.Proofs.StackDes
/-
C68: how deeply the calls of parsers nest.
-/
namespace Abu

/-- C68, `parse`: a pattern without `Recur` needs a stack that does not depend on the text: with
room for `D` nested calls of `consume` and of destructors, or more, `parse` does what it does on an
unbounded stack, on every text. -/
theorem C68_parse_without_recursion (env : Env) (p : Pat) (hp : p.refs = []) :
    ∃ D, ∀ d, D ≤ d → ∀ dst m t, ¬ ParsesStk d env p dst m t (.error .ubStack) ∧
      ∀ v, ParsesStk d env p dst m t v ↔ Parses env p dst m t v := by
  refine ⟨2 * ((topParser p).weight fun _ => 0) + 1, fun d hd dst m t => ?_⟩
  obtain ⟨e, rfl, he⟩ : ∃ e, d = e + (((topParser p).weight fun _ => 0) + 1) ∧
      ((topParser p).weight fun _ => 0) ≤ e :=
    ⟨d - (((topParser p).weight fun _ => 0) + 1), by omega, by omega⟩
  have henv : env.Counts false t.length (fun _ => false) :=
    ⟨fun h => (by cases h), fun _ _ _ h => (by cases h)⟩
  have hok : (topParser p).skipsIn fun _ => False :=
    elabP_skipsIn p _ _ trivial fun h => absurd hp h
  have hM := runStk_checked (R := SingleForward.Rel) (lo := 0) SingleForward.dsSim henv
    (ok := fun p => p.skipsIn fun _ => False) (need := fun _ p => p.weight fun _ => 0)
    (fun h1 h2 _ => weight_lt h1 h2) hok he
  have hA : AgreesStk (σ := SingleForward) _ (topParser p) (runStk env e) _ := runDes_agrees (c := fun _ => false)
    (f := fun _ => 0) (M := (topParser p).weight fun _ => 0)
    (ok := fun q => (q.skipsIn fun _ => False) ∧
      (q.weight fun _ => 0) ≤ (topParser p).weight fun _ => 0)
    (fun h1 h2 => by
      have h3 := weight_lt (f := fun _ => 0) h1.1 h2
      exact ⟨h3.1, by have := h1.2; omega⟩)
    (fun q hq => hq.2) ⟨hok, Nat.le_refl _⟩
  have hfit : (topParser p).countsFit false t.length (fun _ => false) = true :=
    elabP_countsFit p _ _ rfl fun h => (by cases h)
  have hiff : ∀ v, ParsesStk _ env p dst m t v ↔ Parses env p dst m t v := fun v =>
    ParsesBy.iff_low (f := fun _ => 0) hM hA (fun st h => by omega) hfit (Nat.le_refl _)
  exact ⟨fun h => ParsesBy.quiet hM hfit (Nat.le_refl _) rfl
    ((ParsesBy.iff hM hfit (Nat.le_refl _)).2 ((hiff _).1 h)), hiff⟩

/-- C68, parser objects: the same, for all buffers and all calls of `consume`. -/
theorem C68_parser_object_without_recursion (env : Env) (p : Pat) (hp : p.refs = []) :
    ∃ D, ∀ d, D ≤ d → ∀ dst m ops v,
      MakeParserRunStk d env p dst m ops v ↔ MakeParserRun env p dst m ops v := by
  refine ⟨2 * ((topParser p).weight fun _ => 0) + 1, fun d hd dst m ops v => ?_⟩
  obtain ⟨e, rfl, he⟩ : ∃ e, d = e + (((topParser p).weight fun _ => 0) + 1) ∧
      ((topParser p).weight fun _ => 0) ≤ e :=
    ⟨d - (((topParser p).weight fun _ => 0) + 1), by omega, by omega⟩
  have henv : env.Counts false (opsText ops).length (fun _ => false) :=
    ⟨fun h => (by cases h), fun _ _ _ h => (by cases h)⟩
  have hok : (topParser p).skipsIn fun _ => False :=
    elabP_skipsIn p _ _ trivial fun h => absurd hp h
  have hM := runStk_checked (R := ContainerSeq.Rel) (lo := 0) ContainerSeq.dsSim henv
    (ok := fun p => p.skipsIn fun _ => False) (need := fun _ p => p.weight fun _ => 0)
    (fun h1 h2 _ => weight_lt h1 h2) hok he
  have hA : AgreesStk (σ := ContainerSeq) _ (topParser p) (runStk env e) _ := runDes_agrees (c := fun _ => false)
    (f := fun _ => 0) (M := (topParser p).weight fun _ => 0)
    (ok := fun q => (q.skipsIn fun _ => False) ∧
      (q.weight fun _ => 0) ≤ (topParser p).weight fun _ => 0)
    (fun h1 h2 => by
      have h3 := weight_lt (f := fun _ => 0) h1.1 h2
      exact ⟨h3.1, by have := h1.2; omega⟩)
    (fun q hq => hq.2) ⟨hok, Nat.le_refl _⟩
  exact MakeParserRunBy.iff_low (f := fun _ => 0) hM hA (fun st h => by omega)
    (elabP_countsFit p _ _ rfl fun h => (by cases h)) (Nat.le_refl _)

/-- C68, `parse`: with finitely many `Recur` objects and without left recursion, the calls nest no
deeper than a constant times the length of the text (plus one): with that much room `parse` does
what it does on an unbounded stack. `consumes` is any correct account of which patterns used
through `Recur` consume. -/
theorem C68_parse (env : Env) (consumes : Nat → Bool) (ids : List Nat)
    (hids : ∀ id, env id ≠ none → id ∈ ids)
    (heats : ∀ id q, env id = some q → consumes id = true → q.eats consumes = true)
    (hleft : WellFounded (LeftCalls env consumes)) (p : Pat) :
    ∃ D, ∀ dst m t d, D * (t.length + 1) ≤ d → ¬ ParsesStk d env p dst m t (.error .ubStack) ∧
      ∀ v, ParsesStk d env p dst m t v ↔ Parses env p dst m t v := by
  obtain ⟨f, hf⟩ := exists_potential hleft
  obtain ⟨K, M, hp, hM⟩ := exists_sized f hids p
  refine ⟨(M + 1) * (M + 1) + (M + 1), fun dst m t d hd => ?_⟩
  obtain ⟨e, rfl, he⟩ : ∃ e, d = e + (M + 1) ∧ (M + 1) * (M + 1) * (t.length + 1) ≤ e := by
    have h1 : (M + 1) * 1 ≤ (M + 1) * (t.length + 1) := Nat.mul_le_mul_left _ (by omega)
    rw [Nat.add_mul] at hd
    rw [Nat.mul_one] at h1
    exact ⟨d - (M + 1), by omega, by omega⟩
  have hC := runStk_checked (R := SingleForward.Rel) (lim := t.length) (lo := 0)
    SingleForward.dsSim ⟨fun h => (by cases h), heats⟩ (fun h1 h2 h3 => needs_lt hf hM h1 h2 h3) hp
    (needs_le (env := env) hp he)
  have hA : AgreesStk (σ := SingleForward) _ (topParser p) (runStk env e) _ := runDes_agrees (c := consumes)
    (fun h1 h2 => (needs_lt hf hM h1 h2 (Nat.le_refl _)).1) (fun q hq => hq.1) hp
  have hfit : (topParser p).countsFit false t.length consumes = true :=
    elabP_countsFit p _ _ rfl fun h => (by cases h)
  have hiff : ∀ v, ParsesStk _ env p dst m t v ↔ Parses env p dst m t v := fun v =>
    ParsesBy.iff_low (f := f) hC hA (fun st h => by have := hp.1; omega) hfit (Nat.le_refl _)
  exact ⟨fun h => ParsesBy.quiet hC hfit (Nat.le_refl _) rfl
    ((ParsesBy.iff hC hfit (Nat.le_refl _)).2 ((hiff _).1 h)), hiff⟩

/-- C68, parser objects: the same, in terms of all the characters passed to `add_buffer`. -/
theorem C68_parser_object (env : Env) (consumes : Nat → Bool) (ids : List Nat)
    (hids : ∀ id, env id ≠ none → id ∈ ids)
    (heats : ∀ id q, env id = some q → consumes id = true → q.eats consumes = true)
    (hleft : WellFounded (LeftCalls env consumes)) (p : Pat) :
    ∃ D, ∀ dst m ops d, D * ((opsText ops).length + 1) ≤ d →
      ∀ v, MakeParserRunStk d env p dst m ops v ↔ MakeParserRun env p dst m ops v := by
  obtain ⟨f, hf⟩ := exists_potential hleft
  obtain ⟨K, M, hp, hM⟩ := exists_sized f hids p
  refine ⟨(M + 1) * (M + 1) + (M + 1), fun dst m ops d hd v => ?_⟩
  obtain ⟨e, rfl, he⟩ : ∃ e, d = e + (M + 1) ∧ (M + 1) * (M + 1) * ((opsText ops).length + 1) ≤ e := by
    have h1 : (M + 1) * 1 ≤ (M + 1) * ((opsText ops).length + 1) := Nat.mul_le_mul_left _ (by omega)
    rw [Nat.add_mul] at hd
    rw [Nat.mul_one] at h1
    exact ⟨d - (M + 1), by omega, by omega⟩
  have hC := runStk_checked (R := ContainerSeq.Rel) (lim := (opsText ops).length) (lo := 0)
    ContainerSeq.dsSim ⟨fun h => (by cases h), heats⟩ (fun h1 h2 h3 => needs_lt hf hM h1 h2 h3) hp
    (needs_le (env := env) hp he)
  have hA : AgreesStk (σ := ContainerSeq) _ (topParser p) (runStk env e) _ := runDes_agrees
    (c := consumes) (fun h1 h2 => (needs_lt hf hM h1 h2 (Nat.le_refl _)).1) (fun q hq => hq.1) hp
  exact MakeParserRunBy.iff_low (f := f) hC hA (fun st h => by have := hp.1; omega)
    (elabP_countsFit p _ _ rfl fun h => (by cases h)) (Nat.le_refl _)

/-- A list of numbers, with a skipper, of any length: no `Recur`. -/
example : (Pat.withSkipper (.list (.uint 10 1 0) (.char (.single 44)))
    (.char (.single 32))).refs = [] := rfl

/-- The recursive pattern of C38 meets the hypotheses. -/
example : ∃ (consumes : Nat → Bool) (ids : List Nat), (∀ id, nestEnv id ≠ none → id ∈ ids) ∧
    (∀ id q, nestEnv id = some q → consumes id = true → q.eats consumes = true) ∧
    WellFounded (LeftCalls nestEnv consumes) := by
  have hq : ∀ id q, nestEnv id = some q → q = nestPat := by
    intro id q h
    simp only [nestEnv] at h
    split at h
    · cases h; rfl
    · cases h
  refine ⟨fun _ => true, [0], ?_, ?_, ⟨fun b => ⟨_, ?_⟩⟩⟩
  · intro id h
    simp only [nestEnv] at h
    split at h
    · rename_i h'; simp [h']
    · exact absurd rfl h
  · intro id q h _; rw [hq id q h]; rfl
  · rintro a ⟨q, h, ha⟩
    rw [hq b q h] at ha
    simp [nestPat, Pat.heads, Pat.headsAll, Pat.headsSeq, Pat.eats] at ha

/-- `item := '(' item ')' | 'x'`. -/
def parenPat : Pat :=
  .alt [.seq [.char (.single 40), .recur 0 false, .char (.single 41)], .char (.single 120)]
def parenEnv : Env := fun n => if n = 0 then some parenPat else none

/-- Overflows of the machine that only counts calls of `consume`, on the plain cursor. -/
theorem parsesStk_error {d env p dst m t st w n}
    (hc : construct (topParser p) dst dst (⟨Cursor.whole t, m⟩ : World Cursor Mem) = .ok (st, w))
    (hr : runStk env d n (topParser p) dst dst st w = .error .ubStack) :
    ParsesStk d env p dst m t (.error .ubStack) := by
  refine parsesBy_error (mach' := runDes env d) (n := n)
    (fun n p d' b st s k m hr => runDes_sim SingleForward.dsSim env d n p d' b st s k m hr) hc ?_
    (by simp)
  rcases runDes_stk env d n (topParser p) dst dst st w with h | h
  · exact h.trans hr
  · exact h

/-- An error in a child. -/
theorem runStk_call_error {env : Env} {p q : Prog} {dst bnd d' b' : Ref} {st c : PState} {k}
    {w : World Cursor Mem} {e n : Nat} {x : Err} (hb : body env p dst bnd st = .call q d' b' c k)
    (h : runStk env e n q d' b' c w = .error x) :
    runStk env (e + 1) (n + 1) p dst bnd st w = .error x := by
  rw [runStk_succ, hb]
  simp only [exec]
  rw [show callStk env n (e + 1) q d' b' c w = .error x from h]

/-- C68: the dependence on the text. No stack is large enough for all texts: `d` opening
parentheses need room for more than `d` nested calls. -/
theorem C68_depth_grows (d : Nat) (m : Mem) :
    ParsesStk d parenEnv (.recur 0 false) .nil m (List.replicate d 40) (.error .ubStack) := by
  have hchar : ∀ (e n i : Nat) (S : List Nat), i < d →
      runStk parenEnv e (n + 1) (.char (.single 40)) .nil .nil .unit
        (⟨⟨List.replicate d 40, i, S, true⟩, m⟩ : World Cursor Mem) =
      .ok ((.SUCCESS, .unit), ⟨⟨List.replicate d 40, i + 1, S, true⟩, m⟩) := by
    intro e n i S hi
    have ht : (List.replicate d (40 : Ch))[i]? = some 40 := by
      rw [List.getElem?_replicate, if_pos hi]
    rw [runStk_succ]
    simp only [body]
    rw [exec_guarded_char ht]
    have hv : (CharSet.single 40).isValid 40 = true := rfl
    simp only [hv, if_true, exec_mem]
    rw [show Store.op (MemOp.assign .nil (.num 40)) m = .ok m from rfl]
    simp only
    rw [exec_advance ht]
    rfl
  have key : ∀ k i S, i + k ≤ d → ∃ N, ∀ n, N ≤ n →
      runStk parenEnv (4 * k) n (.recur 0 .fail) .nil .nil .recurNone
        (⟨⟨List.replicate d 40, i, S, true⟩, m⟩ : World Cursor Mem) = .error .ubStack := by
    intro k
    induction k with
    | zero =>
      intro i S _
      refine ⟨2, fun n hn => ?_⟩
      obtain ⟨n, rfl⟩ : ∃ n', n = n' + 2 := ⟨n - 2, by omega⟩
      rw [runStk_succ]
      show runStk parenEnv (4 * 0) (n + 1) _ _ _ _ _ = _
      rw [runStk_succ]
      rfl
    | succ k ih =>
      intro i S hi
      obtain ⟨N, hN⟩ := ih (i + 1) (i :: S) (by omega)
      refine ⟨N + 6, fun n hn => ?_⟩
      obtain ⟨n, rfl⟩ : ∃ n', n = n' + 6 := ⟨n - 6, by omega⟩
      rw [runStk_succ]
      show runStk parenEnv (4 * k + 4) (n + 5) (.recur 0 .fail) .nil .nil
        (.recurSome (.alt 0 (.wrap (.seq 0 .unit))))
        (⟨⟨List.replicate d 40, i, i :: S, true⟩, m⟩ : World Cursor Mem) = _
      refine runStk_call_error (q := elabP .fail RecurChildReqs parenPat) rfl ?_
      refine runStk_call_error (q := .clean (.seq [some 0, some 1, some 2]
        [.char (.single 40), .recur 0 .fail, .char (.single 41)])) rfl ?_
      refine runStk_call_error (q := .seq [some 0, some 1, some 2]
        [.char (.single 40), .recur 0 .fail, .char (.single 41)]) rfl ?_
      rw [runStk_succ]
      have h : exec (callStk parenEnv (n + 1) (4 * k + 1)) (body parenEnv (.seq [some 0, some 1, some 2]
          [.char (.single 40), .recur 0 .fail, .char (.single 41)]) .nil .nil (.seq 0 .unit))
          (⟨⟨List.replicate d 40, i, i :: S, true⟩, m⟩ : World Cursor Mem) =
          .ok (.cont (.seq 1 .recurNone), ⟨⟨List.replicate d 40, i + 1, i :: S, true⟩, m⟩) := by
        simp only [body, List.getElem?_cons_zero, seqDst, exec]
        rw [show callStk parenEnv (n + 1) (4 * k + 1) (.char (.single 40)) .nil .nil .unit
          (⟨⟨List.replicate d 40, i, i :: S, true⟩, m⟩ : World Cursor Mem) = _ from
          hchar _ _ _ _ (by omega)]
        rfl
      rw [h]
      exact runStk_call_error (q := .recur 0 .fail) rfl (hN n (by omega))
  obtain ⟨N, hN⟩ := key d 0 [] (by omega)
  have h := hN N (Nat.le_refl _)
  rcases runStk_less parenEnv (show d ≤ 4 * d by omega) N (.recur 0 .fail) .nil .nil .recurNone
    (⟨⟨List.replicate d 40, 0, [], true⟩, m⟩ : World Cursor Mem) with h' | h'
  · exact parsesStk_error (st := .recurNone) rfl (h'.trans h)
  · exact parsesStk_error (st := .recurNone) rfl h'

/-- C68: the hypothesis on recursion. `x := x` needs more than any stack has, on any text. -/
theorem C68_hypothesis_on_recursion (d : Nat) (dst : Ref) (m : Mem) (t : List Ch) :
    ParsesStk d (fun _ => some (.recur 0 false)) (.recur 0 false) dst m t (.error .ubStack) := by
  have key : ∀ d (w : World Cursor Mem), ∃ N, ∀ n, N ≤ n →
      runStk (fun _ => some (.recur 0 false)) d n (.recur 0 .fail) dst dst .recurNone w
        = .error .ubStack := by
    intro d w
    induction d with
    | zero =>
      refine ⟨2, fun n hn => ?_⟩
      obtain ⟨n, rfl⟩ : ∃ n', n = n' + 2 := ⟨n - 2, by omega⟩
      rw [runStk_succ]
      show runStk _ 0 (n + 1) _ _ _ _ _ = _
      rw [runStk_succ]
      rfl
    | succ d ih =>
      obtain ⟨N, hN⟩ := ih
      refine ⟨N + 2, fun n hn => ?_⟩
      obtain ⟨n, rfl⟩ : ∃ n', n = n' + 2 := ⟨n - 2, by omega⟩
      rw [runStk_succ]
      show runStk _ (d + 1) (n + 1) (.recur 0 .fail) dst dst (.recurSome .recurNone) w = _
      rw [runStk_succ]
      have h : exec (callStk (fun _ => some (.recur 0 false)) n (d + 1))
          (body (fun _ => some (.recur 0 false)) (.recur 0 .fail) dst dst (.recurSome .recurNone)) w
          = .error .ubStack := by
        simp only [body, exec]
        rw [show elabP .fail RecurChildReqs (.recur 0 false) = .recur 0 .fail from rfl]
        rw [show callStk (fun _ => some (.recur 0 false)) n (d + 1) (.recur 0 .fail) dst dst
          .recurNone w = .error .ubStack from hN n (by omega)]
      rw [h]
  obtain ⟨N, hN⟩ := key d ⟨Cursor.whole t, m⟩
  exact parsesStk_error (st := .recurNone) rfl (hN N (Nat.le_refl _))

end Abu
