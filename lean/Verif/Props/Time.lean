import Verif.Proofs.TimeExp
import Verif.Proofs.TimeLinear
import Verif.Proofs.TimeObject
import Verif.Props.NilDst
import Verif.Props.Stack
import Verif.Props.Terminate
/-
C71: how long a parse takes.
-/
namespace Abu

/-! ### What is counted -/

/-- C71: a parse that returns goes through one number of iterations. -/
theorem C71_iterations_are_counted (env : Env) (p : Pat) (dst : Ref) (m : Mem) (t : List Ch) (r : Res)
    (m' : Mem) (rest : List Ch) (h : Parses env p dst m t (.ok (r, m', rest))) :
    ∃ k, ParsesIn env p dst m t r k ∧ (∀ r' k', ParsesIn env p dst m t r' k' → r' = r ∧ k' = k) ∧
      (∀ n, parseSteps env n p dst m t ≤ k) ∧ ∃ n, parseSteps env n p dst m t = k := by
  obtain ⟨k, hk⟩ := ParsesIn.of_parses h
  exact ⟨k, hk, fun r' k' h' => h'.unique hk, hk.steps, hk.reaches⟩

/-! ### Without recursion -/

/-- C71 (partial: patterns without `Recur`): the number of iterations of a parse is bounded by a
polynomial in the length of the text. Its degree is the depth to which unbounded repetitions,
lists, numbers and the skipping of skippers are nested. The hypotheses on the loops are those of
C38 (termination). -/
theorem C71_parse_without_recursion_partial (env : Env) (p : Pat) (hp : p.refs = [])
    (consumes : Nat → Bool) (hloops : p.loopsEat consumes = true) :
    ∃ K, ∀ (n : Nat) (dst : Ref) (m : Mem) (t : List Ch),
      parseSteps env n p dst m t ≤ K * (t.length + 1) ^ p.loops 0 := by
  obtain ⟨K, h⟩ := takesPoly_elab p hp hloops .fail DefaultReqs 0 .fail
  have hc : Comp (topParser p) := comp_loops consumes p .fail hloops
  refine ⟨K, fun n dst m t => ?_⟩
  refine parseSteps_le (env0 := fun _ => none) hc ?_ (fun id q h => by cases h) (fun id q sk h => by cases h) n dst m
  have := h t 0 0 _ [] (.new (Nat.le_refl _) (Nat.zero_le _))
  rw [List.append_nil] at this
  exact this

/-- `apply_skipper(*(int_ % ',' >> ';'), ' ')`: two loops, the digits, and the skipping. -/
def exRows : Pat := .withSkipper (.rep 0 0 (.seq [.list int_ (litC 44), litC 59])) (litC 32)
example : exRows.refs = [] ∧ exRows.loopsEat (fun _ => false) = true ∧ exRows.loops 0 = 3 :=
  ⟨rfl, rfl, rfl⟩

/-- `*lit('a')` on "aab". -/
example : ParsesIn (fun _ => none) (.rep 0 0 (litC 97)) .nil ⟨[], []⟩ [97, 97, 98] .SUCCESS 9 :=
  ⟨6, _, _, _, _, rfl, rfl, rfl⟩

theorem streaming_ends {p : Pat} (hp : p.refs = []) {consumes : Nat → Bool}
    (hloops : p.loopsEat consumes = true) (hs : p.streams false = true) :
    ∃ K, ∀ t, EndsBy (fun _ => none) t (topParser p) (fresh (topParser p)) 0
      (List.replicate (marks (topParser p)) 0) (K * (t.length + 1)) := by
  have hc : Comp (topParser p) := comp_loops consumes p .fail hloops
  have hf : Flows consumes (topParser p) := elab_flows p (r := DefaultReqs) .fail hp hloops hs
  obtain ⟨K, h⟩ := hf.linear hc
  refine ⟨K, fun t => ?_⟩
  obtain ⟨r, i', k, hb, hle, hk⟩ := h t 0 [] (Nat.zero_le _)
  obtain ⟨L, _, he⟩ := low_ended (c := consumes) noEnv_comp (noEnv_eats _) hb.big (lo := 0) (own := [])
    (S := []) hc rfl (.inr ⟨rfl, ⟨Nat.le_refl _, Nat.zero_le _, by rw [hf.marks]; rfl, .nil⟩⟩)
  rw [hf.marks]
  refine ⟨r, i', _, k, hb, Nat.le_trans hk ?_⟩
  rw [Nat.mul_add, Nat.mul_one]
  exact Nat.add_le_add_right (Nat.mul_le_mul_left _ (by have := he.high; omega)) _

/-- C71 (partial: patterns without `Recur` that look at one character at a time, C61): the number of
iterations of a parse is linear in the length of the text, however deeply loops are nested. -/
theorem C71_streaming_is_linear_partial (env : Env) (p : Pat) (hp : p.refs = [])
    (consumes : Nat → Bool) (hloops : p.loopsEat consumes = true) (hs : p.streams false = true) :
    ∃ K, ∀ (n : Nat) (dst : Ref) (m : Mem) (t : List Ch),
      parseSteps env n p dst m t ≤ K * (t.length + 1) := by
  obtain ⟨K, h⟩ := streaming_ends hp hloops hs
  exact ⟨K, fun n dst m t => parseSteps_le (env0 := fun _ => none) (comp_loops consumes p .fail hloops)
    (h t) (fun id q h => by cases h) (fun id q sk h => by cases h) n dst m⟩

/-- `apply_skipper(repeat<2>(+char_('a', 'z') >> ':' >> +char_('0', '9') >> ';'), ' ')`: linear,
though loops are nested to depth two. -/
def exFields : Pat := .withSkipper (.rep 2 2 (.seq [.rep 1 0 (.char (.range 97 122)), litC 58,
  .rep 1 0 (.char (.range 48 57)), litC 59])) (litC 32)
example : exFields.refs = [] ∧ exFields.loopsEat (fun _ => false) = true ∧
    exFields.streams false = true ∧ exFields.loops 0 = 2 := ⟨rfl, rfl, rfl, rfl⟩

/-! ### Parser objects -/

/-- C71, parser objects (patterns without `Recur`): delivering a text in pieces, in any way, takes no
more than `parse` takes on the whole text, plus a constant for every call of `consume`. -/
theorem C71_resuming_is_cheap (env : Env) (p : Pat) (hp : p.refs = []) :
    ∃ H, ∀ (n : Nat) (dst : Ref) (m : Mem) (ops : List SOp) (r : Res) (k : Nat), Complete ops →
      ParsesIn env p dst m (opsText ops) r k →
      objectSteps env n p dst m ops ≤ k + H * consumeCalls ops :=
  ⟨_, fun n _ _ _ _ _ hc h => objectSteps_parse (topParser_shallow hp _) hc h n⟩

/-- `*lit('a')` on "aab", one character at a time. -/
def exPieces : List SOp :=
  [.add [97] false, .consume, .add [97] false, .consume, .add [98] true, .consume]
example : Complete exPieces ∧ opsText exPieces = [97, 97, 98] ∧ consumeCalls exPieces = 3 :=
  ⟨⟨trivial, rfl⟩, rfl, rfl⟩
example : objectSteps (fun _ => none) 6 (.rep 0 0 (litC 97)) .nil ⟨[], []⟩ exPieces = 15 := by
  decide +kernel

/-- C71, parser objects (partial: patterns without `Recur`): the number of iterations of all calls of
`consume` is bounded by a polynomial in the length of the text, of the same degree as for `parse`,
plus a constant for every call. -/
theorem C71_parser_object_without_recursion_partial (env : Env) (p : Pat) (hp : p.refs = [])
    (consumes : Nat → Bool) (hloops : p.loopsEat consumes = true) :
    ∃ K H, ∀ (n : Nat) (dst : Ref) (m : Mem) (ops : List SOp), objectSteps env n p dst m ops ≤
      K * ((opsText ops).length + 1) ^ p.loops 0 + H * consumeCalls ops := by
  obtain ⟨K, h⟩ := takesPoly_elab p hp hloops .fail DefaultReqs 0 .fail
  have hc : Comp (topParser p) := comp_loops consumes p .fail hloops
  refine ⟨K, (topParser p).size + 1, fun n dst m ops => ?_⟩
  refine Nat.le_trans (objectSteps_ghost (env0 := fun _ => none) hc (topParser_shallow hp _) ?_
    (fun id q h => by cases h) (fun id q sk h => by cases h) n dst m)
    (Nat.add_le_add_right (Nat.mul_le_mul_left K
      (Nat.pow_le_pow_left (Nat.add_le_add_right (opsGiven_le ops) 1) _)) _)
  have := h (opsGiven ops) 0 0 _ [] (.new (Nat.le_refl _) (Nat.zero_le _))
  rw [List.append_nil] at this
  exact this

/-- C71, parser objects (partial: patterns without `Recur` that look at one character at a time): the
number of iterations is linear in the length of the text and the number of calls. -/
theorem C71_parser_object_streaming_is_linear_partial (env : Env) (p : Pat) (hp : p.refs = [])
    (consumes : Nat → Bool) (hloops : p.loopsEat consumes = true) (hs : p.streams false = true) :
    ∃ K H, ∀ (n : Nat) (dst : Ref) (m : Mem) (ops : List SOp), objectSteps env n p dst m ops ≤
      K * ((opsText ops).length + 1) + H * consumeCalls ops := by
  have hc : Comp (topParser p) := comp_loops consumes p .fail hloops
  obtain ⟨K, h⟩ := streaming_ends hp hloops hs
  refine ⟨K, (topParser p).size + 1, fun n dst m ops => ?_⟩
  exact Nat.le_trans (objectSteps_ghost (env0 := fun _ => none) hc (topParser_shallow hp _) (h (opsGiven ops))
    (fun id q h => by cases h) (fun id q sk h => by cases h) n dst m)
    (Nat.add_le_add_right (Nat.mul_le_mul_left K (Nat.add_le_add_right (opsGiven_le ops) 1)) _)

/-! ### The degree is reached -/

/-- A character that is there. -/
theorem bigIn_lit {env : Env} {t i} {c x : Ch} (h : t[i]? = some x) (S : List Nat) :
    BigIn env t (.discard (.char (.single c))) (.wrap .unit) i S
      (if x = c then .SUCCESS else .FAILURE) (if x = c then i + 1 else i) S 2 := by
  have hx : exec (run env 0) (body env (.char (.single c)) .nil .nil .unit) (gw t i S) =
      .ok (.ret (if x = c then .SUCCESS else .FAILURE) .unit, gw t (if x = c then i + 1 else i) S) := by
    simp only [body]
    rw [exec_guarded_char h]
    by_cases hx : x = c
    · subst hx
      simp only [CharSet.isValid, beq_self_eq_true, if_true, exec_mem, Store.op]
      rw [exec_advance h]
      simp [exec]
    · simp [CharSet.isValid, hx, exec, retS]
  have hr : run env 1 (.char (.single c)) .nil .nil .unit (gw t i S) =
      .ok ((if x = c then .SUCCESS else .FAILURE, .unit), gw t (if x = c then i + 1 else i) S) := by
    rw [run_succ_eq, hx]
  have hs : steps env 1 (.char (.single c)) .nil .nil .unit (gw t i S) = 1 := by
    rw [steps_succ, hx, callSteps_leaf rfl]; rfl
  have hl : BigIn env t (.char (.single c)) .unit i S _ _ S _ := .leaf rfl hr
  rw [hs] at hl
  refine .ret (cs' := .unit) rfl hl ?_
  by_cases hx : x = c <;> simp [after, hx]

/-- The end of the text. -/
theorem bigIn_lit_end {env : Env} {t i} {c : Ch} (h : t.length ≤ i) (S : List Nat) :
    BigIn env t (.discard (.char (.single c))) (.wrap .unit) i S .FAILURE i S 2 := by
  have hx : exec (run env 0) (body env (.char (.single c)) .nil .nil .unit) (gw t i S) =
      .ok (.ret .FAILURE .unit, gw t i S) := by
    simp only [body]
    rw [exec_guarded_end h]
    simp [exec]
  have hr : run env 1 (.char (.single c)) .nil .nil .unit (gw t i S) =
      .ok ((.FAILURE, .unit), gw t i S) := by
    rw [run_succ_eq, hx]
  have hs : steps env 1 (.char (.single c)) .nil .nil .unit (gw t i S) = 1 := by
    rw [steps_succ, hx, callSteps_leaf rfl]; rfl
  have hl : BigIn env t (.char (.single c)) .unit i S _ _ S _ := .leaf rfl hr
  rw [hs] at hl
  exact .ret (cs' := .unit) rfl hl rfl

/-- `*(+lit('a') >> lit('b') | lit('a'))` -/
def exRescan : Pat := .rep 0 0 (.alt [.seq [.rep 1 0 (litC 97), litC 98], litC 97])
example : exRescan.loops 0 = 2 := rfl

/-- `+lit('a')` on what remains of `aa…a`. -/
theorem rescan_run {env : Env} (k : Nat) : ∀ j n i S, i + j = k → 0 < n + j →
    BigIn env (List.replicate k 97) (.rep 1 0 (.discard (.char (.single 97)))) (.rep n (.wrap .unit))
      i S .SUCCESS k S (3 * j + 3) := by
  intro j
  induction j with
  | zero =>
    intro n i S hi hn
    obtain rfl : i = k := by omega
    refine .ret (k := 2) (cs' := .unit) rfl (bigIn_lit_end (by simp) S) ?_
    obtain ⟨n, rfl⟩ : ∃ m, n = m + 1 := ⟨n - 1, by omega⟩
    simp [after, enough]
  | succ j ih =>
    intro n i S hi hn
    have h := ih (n + 1) (i + 1) S (by omega) (by omega)
    have := BigIn.cont (env := env) (p := .rep 1 0 (.discard (.char (.single 97)))) (st := .rep n (.wrap .unit))
      (cs' := .unit) rfl (bigIn_lit (c := 97) (t := List.replicate k 97) (i := i) (x := 97)
        (by simp [List.getElem?_replicate]; omega) S) rfl h
    rw [show 3 * (j + 1) + 3 = 2 + (3 * j + 3) + 1 by omega]
    exact this

theorem rescan_takes {env : Env} (k : Nat) : ∀ j n i S, i + j = k →
    ∃ l, j * j ≤ l ∧ BigIn env (List.replicate k 97) (topParser exRescan)
      (.rep n (.alt 0 (.wrap (.buffered .nil (.seq 0 (.rep 0 (.wrap .unit))))))) i (i :: S) .SUCCESS k S l := by
  intro j
  induction j with
  | zero =>
    intro n i S hi
    obtain rfl : i = k := by omega
    have he := fun S => bigIn_lit_end (env := env) (c := 97) (t := List.replicate i 97) (i := i) (by simp) S
    have h1 : BigIn env (List.replicate i 97) (.rep 1 0 (.discard (.char (.single 97))))
        (.rep 0 (.wrap .unit)) i (i :: S) .FAILURE i (i :: S) _ :=
      .ret (cs' := .unit) rfl (he _) rfl
    exact ⟨_, Nat.zero_le _, .ret (cs' := .unit) rfl (.cont (cs' := .unit) rfl
      (.ret (cs' := .unit) rfl (.ret (cs' := .unit) rfl (.ret (cs' := .unit) rfl h1 rfl) rfl) rfl) rfl
      (.ret (cs' := .unit) rfl (he S) rfl)) rfl⟩
  | succ j ih =>
    intro n i S hi
    obtain ⟨l, hl, h⟩ := ih (n + 1) (i + 1) S (by omega)
    have h1 := rescan_run (env := env) k (j + 1) 0 i (i :: S) hi (by omega)
    have h2 := bigIn_lit_end (env := env) (c := 98) (t := List.replicate k 97) (i := k) (by simp) (i :: S)
    have h3 := bigIn_lit (env := env) (c := 97) (t := List.replicate k 97) (i := i) (x := 97)
      (by simp [List.getElem?_replicate]; omega) S
    refine ⟨_, ?_, .cont (cs' := .unit) rfl (.cont (cs' := .unit) rfl
      (.ret (cs' := .unit) rfl (.ret (cs' := .unit) rfl (.cont (cs' := .unit) rfl h1 rfl
        (.ret (cs' := .unit) rfl h2 rfl)) rfl) rfl) rfl
      (.ret (cs' := .unit) rfl h3 rfl)) rfl h⟩
    have : (j + 1) * (j + 1) = j * j + 2 * j + 1 := by rw [Nat.add_mul, Nat.mul_add]; omega
    omega

/-- What the ghost machine does with a pattern that accepts `nil`, `parse` does with `nil`. -/
theorem parsesIn_nil {env : Env} {p : Pat} {t i' S' k} (hcomp : Comp (topParser p))
    (henv : ∀ id q sk, env id = some q → Comp sk → Comp (elabP sk RecurChildReqs q))
    {A : Bool} {G : Nat → Bool} (hn : env.forNil A G) (hpn : p.forNil A G = true) (m : Mem)
    (hb : BigIn env t (topParser p) (fresh (topParser p)) 0
      (List.replicate (marks (topParser p)) 0) .SUCCESS i' S' k) :
    ParsesIn env p .nil m t .SUCCESS k := by
  obtain ⟨N, st', hr, _⟩ := run_of_bigIn hb henv hcomp
  have hg : GhostParses env (topParser p) t .SUCCESS _ :=
    ⟨_, _, N, st', _, by
      have := exec_mk (call := fun _ _ _ _ _ => .error .stuck) hcomp
        (⟨Cursor.whole t, ()⟩ : World Cursor Unit)
      simp only [push, Cursor.whole, List.append_nil] at this
      exact this, hr, rfl⟩
  rcases hg.real_id .nil m with ⟨m', hp⟩ | ⟨e, he, hp⟩
  · exact parsesIn_of_bigIn hcomp henv hb hp
  · refine absurd ?_ ((C48_nil_is_accepted_partial env p m A G hn hpn e).1 _ hp)
    cases e <;> simp_all [Err.ofMem, Err.ofDestination]

/-- C71: the degree is not less than the depth of the loops. `*(+lit('a') >> lit('b') | lit('a'))`,
with loops nested to depth two, takes more than the square of the length of `aa…a`. -/
theorem C71_degree_is_reached (k : Nat) (m : Mem) :
    ∃ n, k * k ≤ n ∧ ParsesIn (fun _ => none) exRescan .nil m (List.replicate k 97) .SUCCESS n := by
  obtain ⟨l, hl, h⟩ := rescan_takes (env := fun _ => none) k k 0 0 [] (by omega)
  exact ⟨l, hl, parsesIn_nil (comp_loops (fun _ => false) exRescan .fail rfl)
    (fun id q sk h => by cases h) (A := true) (G := fun _ => true) (fun id q _ h => by cases h) rfl m h⟩

/-! ### With recursion -/

/-- `x := '(' >> x >> ')' | '(' >> x >> ']' | 'a'` -/
def bracketPat : Pat :=
  .alt [.seq [litC 40, .recur 0 false, litC 41], .seq [litC 40, .recur 0 false, litC 93], litC 97]
def bracketEnv : Env := fun n => if n = 0 then some bracketPat else none

/-- `((…(a]]…]` -/
def bracketText (k : Nat) : List Ch := List.replicate k 40 ++ 97 :: List.replicate k 93

/-- The parser of `x`. -/
def bracketProg : Prog := elabP .fail RecurChildReqs bracketPat

theorem bracketEnv_comp (id : Nat) (q : Pat) (sk : Prog) (h : bracketEnv id = some q)
    (hs : Comp sk) : Comp (elabP sk RecurChildReqs q) := by
  unfold bracketEnv at h
  split at h
  · cases h
    exact comp_loops (fun _ => false) bracketPat hs rfl
  · cases h

/-- `'(' >> x >> c`, as an alternative. -/
def bracketBranch (c : Ch) : Prog := .clean (.seq [none, some 0, none]
  [.discard (.char (.single 40)), .recur 0 .fail, .discard (.char (.single c))])

theorem bracketProg_eq : bracketProg =
    .alt [bracketBranch 41, bracketBranch 93, .discard (.char (.single 97))] := rfl

/-- One of the alternatives, on `(`: it takes as long as `x` inside it, whatever comes of it. -/
theorem bracket_branch {t i e n} {c x : Ch} (hi : t[i]? = some 40) (he : t[e]? = some x)
    (hin : ∀ S, BigIn bracketEnv t bracketProg (fresh bracketProg) (i + 1) ((i + 1) :: S)
      .SUCCESS e S n) (S : List Nat) :
    BigIn bracketEnv t (bracketBranch c) (fresh (bracketBranch c)) i (i :: S)
      (if x = c then .SUCCESS else .FAILURE) (if x = c then e + 1 else i) S (n + 10) := by
  have hx : BigIn bracketEnv t (.recur 0 .fail) .recurNone (i + 1) (i :: S) .SUCCESS e (i :: S)
      (n + 2) := .recurNone rfl (hin _)
  have hseq : BigIn bracketEnv t (.seq [none, some 0, none]
      [.discard (.char (.single 40)), .recur 0 .fail, .discard (.char (.single c))])
      (.seq 0 (.wrap .unit)) i (i :: S) (if x = c then .SUCCESS else .FAILURE)
      (if x = c then e + 1 else e) (i :: S) (2 + (n + 2 + (2 + 1) + 1) + 1) := by
    refine .cont (k := 2) (l := n + 2 + (2 + 1) + 1) (cs' := .unit) rfl (bigIn_lit hi _) rfl
      (.cont (k := n + 2) (l := 2 + 1) (cs' := .unit) rfl hx rfl
        (.ret (k := 2) (cs' := .unit) rfl (bigIn_lit he _) ?_))
    by_cases hc : x = c <;> simp [after, hc, marks]
  have : n + 10 = 2 + (n + 2 + (2 + 1) + 1) + 1 + 1 := by omega
  rw [this]
  refine .ret (cs' := .unit) rfl hseq ?_
  by_cases hc : x = c <;> simp [after, back, hc, bracketBranch, fresh]

/-- On another character than `(`. -/
theorem bracket_branch_fails {t i} {c x : Ch} (hi : t[i]? = some x) (hx : x ≠ 40) (S : List Nat) :
    BigIn bracketEnv t (bracketBranch c) (fresh (bracketBranch c)) i (i :: S) .FAILURE i S 4 := by
  have h1 := bigIn_lit (env := bracketEnv) (c := 40) hi (i :: S)
  rw [if_neg hx, if_neg hx] at h1
  exact .ret (cs' := .unit) rfl (.ret (cs' := .unit) rfl h1 rfl) rfl

theorem bracketText_open {k i : Nat} (h : i < k) : (bracketText k)[i]? = some 40 := by
  simp [bracketText, List.getElem?_append, h]

theorem bracketText_mid {k : Nat} : (bracketText k)[k]? = some 97 := by
  simp [bracketText]

theorem bracketText_close {k j : Nat} (h : j < k) : (bracketText k)[k + 1 + j]? = some 93 := by
  have : k + 1 + j - k = j + 1 := by omega
  simp [bracketText, List.getElem?_append, this, h, show ¬ k + 1 + j < k by omega]

theorem bracket_takes (k : Nat) : ∀ j, j ≤ k → ∀ i, i + j = k → ∃ n, 2 ^ j ≤ n ∧ ∀ S,
    BigIn bracketEnv (bracketText k) bracketProg (fresh bracketProg) i (i :: S) .SUCCESS
      (k + 1 + j) S n := by
  intro j
  induction j with
  | zero =>
    intro _ i hi
    have hi : i = k := by omega
    subst hi
    refine ⟨_, ?_, fun S => .cont (cs' := .unit) rfl (bracket_branch_fails bracketText_mid (by decide) S)
      rfl (.cont (cs' := .unit) rfl (bracket_branch_fails bracketText_mid (by decide) S) rfl
        (.ret (cs' := .unit) rfl (bigIn_lit bracketText_mid S) rfl))⟩
    decide
  | succ j ih =>
    intro hj i hi
    obtain ⟨n, hn, hin⟩ := ih (by omega) (i + 1) (by omega)
    have h1 := bracket_branch (c := 41) (bracketText_open (k := k) (i := i) (by omega))
      (bracketText_close (k := k) (j := j) (by omega)) hin
    have h2 := bracket_branch (c := 93) (bracketText_open (k := k) (i := i) (by omega))
      (bracketText_close (k := k) (j := j) (by omega)) hin
    refine ⟨_, ?_, fun S => .cont (cs' := .unit) rfl (h1 S) rfl (.ret (cs' := .unit) rfl (h2 S) rfl)⟩
    rw [Nat.pow_succ]
    omega

/-- C71 is false in general: `x := '(' >> x >> ')' | '(' >> x >> ']' | 'a'` matches the text of
`k` opening brackets, an `a` and `k` closing ones, and takes more than `2 ^ k` iterations. -/
theorem C71_refuted (k : Nat) (m : Mem) :
    ∃ n, 2 ^ k ≤ n ∧ ParsesIn bracketEnv (.recur 0 false) .nil m (bracketText k) .SUCCESS n := by
  obtain ⟨n, hn, h⟩ := bracket_takes k k (Nat.le_refl _) 0 (by omega)
  have hb : BigIn bracketEnv (bracketText k) (topParser (.recur 0 false)) (fresh (topParser (.recur 0 false)))
      0 (List.replicate (marks (topParser (.recur 0 false))) 0) .SUCCESS (k + 1 + k) [] (n + 2) :=
    .recurNone rfl (h [])
  refine ⟨n + 2, by omega, parsesIn_nil (p := .recur 0 false) (.recur .fail) bracketEnv_comp (A := true) (G := fun _ => true) ?_ rfl m hb⟩
  intro id q _ hq
  unfold bracketEnv at hq
  split at hq
  · cases hq; rfl
  · cases hq

/-- C71 (partial: this bound is exponential, not polynomial): with finitely many `Recur` objects, under
the hypotheses of C38 (termination), the number of iterations of a parse is at most exponential in the
length of the text. `C71_refuted` shows that it may be that large. -/
theorem C71_at_most_exponential_partial (env : Env) (consumes : Nat → Bool) (ids : List Nat)
    (hids : ∀ id, env id ≠ none → id ∈ ids) (p : Pat) (hloops : p.loopsEat consumes = true)
    (hset : ∀ a ∈ p.refs, env a ≠ none) (henv : env.LoopsEat consumes)
    (hleft : WellFounded (LeftCalls env consumes)) :
    ∃ K C, ∀ (n : Nat) (dst : Ref) (m : Mem) (t : List Ch),
      parseSteps env n p dst m t ≤ K * C ^ t.length := by
  obtain ⟨K, C, h⟩ := ends_exp henv hleft hids hloops hset
  exact ⟨K, C, fun n dst m t => parseSteps_le (comp_loops consumes p .fail hloops) (h t)
    (fun _ _ h => h) henv.comp n dst m⟩

/-- The pattern of `C71_refuted`. -/
example : (∀ id, bracketEnv id ≠ none → id ∈ [0]) ∧ (Pat.recur 0 false).loopsEat (fun _ => true) = true ∧
    (∀ a ∈ (Pat.recur 0 false).refs, bracketEnv a ≠ none) ∧ bracketEnv.LoopsEat (fun _ => true) ∧
    WellFounded (LeftCalls bracketEnv fun _ => true) := by
  have hq : ∀ id q, bracketEnv id = some q → q = bracketPat := by
    intro id q h
    unfold bracketEnv at h
    split at h
    · cases h; rfl
    · cases h
  have h0 : bracketEnv 0 ≠ none := by simp [bracketEnv]
  refine ⟨fun id h => ?_, rfl, ?_, ⟨?_, ?_, ?_⟩, ⟨fun b => ⟨_, ?_⟩⟩⟩
  · unfold bracketEnv at h
    split at h
    · simpa
    · exact absurd rfl h
  · intro a ha
    simp [Pat.refs] at ha
    subst ha; exact h0
  · intro id q h; rw [hq id q h]; rfl
  · intro id q h _; rw [hq id q h]; rfl
  · intro id q h a ha
    rw [hq id q h] at ha
    simp [bracketPat, Pat.refs, Pat.refsAll, litC, charP] at ha
    subst ha; exact h0
  · rintro a ⟨q, h, ha⟩
    rw [hq b q h] at ha
    simp [bracketPat, Pat.heads, Pat.headsAll, Pat.headsSeq, Pat.eats, litC, charP] at ha

/-- C71, parser objects with `Recur` (finitely many, without left recursion): delivering a text in
pieces, in any way, takes no more than `parse` takes on the whole text, plus, for every call of
`consume`, a constant times the length of the text: as many parsers may be suspended. -/
theorem C71_resuming_with_recursion (env : Env) (consumes : Nat → Bool) (ids : List Nat)
    (hids : ∀ id, env id ≠ none → id ∈ ids)
    (heats : ∀ id q, env id = some q → consumes id = true → q.eats consumes = true)
    (hleft : WellFounded (LeftCalls env consumes)) (p : Pat) :
    ∃ H, ∀ (n : Nat) (dst : Ref) (m : Mem) (ops : List SOp) (r : Res) (k : Nat), Complete ops →
      ParsesIn env p dst m (opsText ops) r k →
      objectSteps env n p dst m ops ≤ k + H * ((opsText ops).length + 1) * consumeCalls ops := by
  obtain ⟨D, hD⟩ := exists_shallow hids heats hleft p
  refine ⟨D + 1, fun n dst m ops r k hc h => Nat.le_trans (objectSteps_parse (hD _) hc h n)
    (Nat.add_le_add_left (Nat.mul_le_mul_right _ ?_) _)⟩
  rw [Nat.add_mul, Nat.one_mul]
  omega

/-- C71, parser objects (partial: this bound is exponential, not polynomial): the same hypotheses as
for `parse`. -/
theorem C71_parser_object_at_most_exponential_partial (env : Env) (consumes : Nat → Bool)
    (ids : List Nat) (hids : ∀ id, env id ≠ none → id ∈ ids) (p : Pat)
    (hloops : p.loopsEat consumes = true) (hset : ∀ a ∈ p.refs, env a ≠ none)
    (henv : env.LoopsEat consumes) (hleft : WellFounded (LeftCalls env consumes)) :
    ∃ K C H, ∀ (n : Nat) (dst : Ref) (m : Mem) (ops : List SOp), objectSteps env n p dst m ops ≤
      K * C ^ (opsText ops).length + H * ((opsText ops).length + 1) * consumeCalls ops := by
  obtain ⟨K, C, h⟩ := ends_exp henv hleft hids hloops hset
  obtain ⟨D, hD⟩ := exists_shallow hids henv.eats hleft p
  refine ⟨K, C + 1, D + 1, fun n dst m ops => Nat.le_trans (objectSteps_ghost
    (comp_loops consumes p .fail hloops) (hD _) (h (opsGiven ops)) (fun _ _ h => h) henv.comp n dst m)
    (Nat.add_le_add (Nat.mul_le_mul_left K ?_) (Nat.mul_le_mul_right _ ?_))⟩
  · exact Nat.le_trans (Nat.pow_le_pow_left (Nat.le_succ C) _)
      (Nat.pow_le_pow_right (Nat.succ_pos C) (opsGiven_le ops))
  · rw [Nat.add_mul, Nat.one_mul]
    omega

/-- A child that suspends suspends its parent. -/
theorem run_call_partial {env : Env} {p q : Prog} {dst bnd d' b' : Ref} {st c c' st' : PState} {k}
    {w w' : World Cursor Mem} {n : Nat} (hb : body env p dst bnd st = .call q d' b' c k)
    (h : run env n q d' b' c w = .ok ((.PARTIAL, c'), w')) (hk : k .PARTIAL c' = retS .PARTIAL st') :
    run env (n + 1) p dst bnd st w = .ok ((.PARTIAL, st'), w') ∧
      steps env n q d' b' c w < steps env (n + 1) p dst bnd st w := by
  constructor
  · rw [run_succ_eq, hb]
    simp only [exec, h, hk]
  · rw [steps_succ_rest, hb]
    simp only [callSteps]
    omega

/-- The parser object of `x := '(' >> x >> ')' | 'x'` after `j` opening parentheses. -/
def parenState : Nat → PState
  | 0 => .recurSome (.alt 0 (.wrap (.seq 0 .unit)))
  | j + 1 => .recurSome (.alt 0 (.wrap (.seq 1 (parenState j))))

theorem paren_call {n c c'} {w w' : World Cursor Mem}
    (h : run parenEnv n (.seq [some 0, some 1, some 2]
      [.char (.single 40), .recur 0 .fail, .char (.single 41)]) .nil .nil c w = .ok ((.PARTIAL, c'), w')) :
    run parenEnv (n + 3) (.recur 0 .fail) .nil .nil (.recurSome (.alt 0 (.wrap c))) w =
      .ok ((.PARTIAL, .recurSome (.alt 0 (.wrap c'))), w') ∧
    steps parenEnv n (.seq [some 0, some 1, some 2]
      [.char (.single 40), .recur 0 .fail, .char (.single 41)]) .nil .nil c w <
      steps parenEnv (n + 3) (.recur 0 .fail) .nil .nil (.recurSome (.alt 0 (.wrap c))) w := by
  have h2 := run_call_partial (p := .clean (.seq [some 0, some 1, some 2]
    [.char (.single 40), .recur 0 .fail, .char (.single 41)])) (dst := .nil) (bnd := .nil) (st := .wrap c)
    (st' := .wrap c') rfl h rfl
  have h3 := run_call_partial (p := elabP .fail RecurChildReqs parenPat) (dst := .nil) (bnd := .nil)
    (st := .alt 0 (.wrap c)) (st' := .alt 0 (.wrap c')) rfl h2.1 rfl
  have h4 := run_call_partial (p := .recur 0 .fail) (dst := .nil) (bnd := .nil)
    (st := .recurSome (.alt 0 (.wrap c))) (st' := .recurSome (.alt 0 (.wrap c'))) rfl h3.1 rfl
  exact ⟨h4.1, Nat.lt_trans h2.2 (Nat.lt_trans h3.2 h4.2)⟩

theorem paren_waits (m : Mem) (k : Nat) (S : List Nat) (j : Nat) : ∀ n, 4 * j + 5 ≤ n →
    run parenEnv n (.recur 0 .fail) .nil .nil (parenState j)
        (⟨⟨List.replicate k 40, k, S, false⟩, m⟩ : World Cursor Mem) =
      .ok ((.PARTIAL, parenState j), ⟨⟨List.replicate k 40, k, S, false⟩, m⟩) ∧
    j < steps parenEnv n (.recur 0 .fail) .nil .nil (parenState j)
        (⟨⟨List.replicate k 40, k, S, false⟩, m⟩ : World Cursor Mem) := by
  induction j with
  | zero =>
    intro n hn
    obtain ⟨n, rfl⟩ : ∃ n', n = n' + 5 := ⟨n - 5, by omega⟩
    have h0 : run parenEnv (n + 1) (.char (.single 40)) .nil .nil .unit
        (⟨⟨List.replicate k 40, k, S, false⟩, m⟩ : World Cursor Mem) =
        .ok ((.PARTIAL, .unit), ⟨⟨List.replicate k 40, k, S, false⟩, m⟩) := by
      rw [run_succ_eq]
      have he : DataSource.empty (⟨List.replicate k 40, k, S, false⟩ : Cursor) = true := by
        show decide _ = true; simp
      have hf : DataSource.final (⟨List.replicate k 40, k, S, false⟩ : Cursor) = false := rfl
      simp [body, guarded, exec, he, hf]
    have h1 := run_call_partial (p := .seq [some 0, some 1, some 2]
        [.char (.single 40), .recur 0 .fail, .char (.single 41)]) (dst := .nil) (bnd := .nil) (st := .seq 0 .unit)
        (st' := .seq 0 .unit) rfl h0 rfl
    have h2 := paren_call h1.1
    exact ⟨h2.1, Nat.lt_of_le_of_lt (Nat.zero_le _) h2.2⟩
  | succ j ih =>
    intro n hn
    obtain ⟨n, rfl⟩ : ∃ n', n = n' + 4 := ⟨n - 4, by omega⟩
    obtain ⟨h0, hs⟩ := ih n (by omega)
    have h1 := run_call_partial (p := .seq [some 0, some 1, some 2]
        [.char (.single 40), .recur 0 .fail, .char (.single 41)]) (dst := .nil) (bnd := .nil)
        (st := .seq 1 (parenState j)) (st' := .seq 1 (parenState j)) rfl h0 rfl
    have h2 := paren_call h1.1
    exact ⟨h2.1, Nat.lt_of_le_of_lt (Nat.le_trans hs (Nat.le_of_lt h1.2)) h2.2⟩

theorem paren_opens (m : Mem) (k j : Nat) : ∀ i S, i + j = k → ∃ N S', ∀ n, N ≤ n →
    run parenEnv n (.recur 0 .fail) .nil .nil .recurNone
        (⟨⟨List.replicate k 40, i, S, false⟩, m⟩ : World Cursor Mem) =
      .ok ((.PARTIAL, parenState j), ⟨⟨List.replicate k 40, k, S', false⟩, m⟩) := by
  induction j with
  | zero =>
    intro i S hi
    obtain rfl : i = k := by omega
    refine ⟨6, i :: S, fun n hn => ?_⟩
    obtain ⟨n, rfl⟩ : ∃ n', n = n' + 1 := ⟨n - 1, by omega⟩
    rw [run_succ_eq]
    exact (paren_waits m i (i :: S) 0 n (by omega)).1
  | succ j ih =>
    intro i S hi
    obtain ⟨N, S', hN⟩ := ih (i + 1) (i :: S) (by omega)
    refine ⟨N + 6, S', fun n hn => ?_⟩
    obtain ⟨n, rfl⟩ : ∃ n', n = n' + 6 := ⟨n - 6, by omega⟩
    rw [run_succ_eq]
    show run parenEnv (n + 5) (.recur 0 .fail) .nil .nil
      (.recurSome (.alt 0 (.wrap (.seq 0 .unit))))
      (⟨⟨List.replicate k 40, i, i :: S, false⟩, m⟩ : World Cursor Mem) = _
    have ht : (List.replicate k (40 : Ch))[i]? = some 40 := by
      rw [List.getElem?_replicate, if_pos (by omega)]
    have hchar : run parenEnv (n + 1) (.char (.single 40)) .nil .nil .unit
        (⟨⟨List.replicate k 40, i, i :: S, false⟩, m⟩ : World Cursor Mem) =
        .ok ((.SUCCESS, .unit), ⟨⟨List.replicate k 40, i + 1, i :: S, false⟩, m⟩) := by
      rw [run_succ_eq]
      have he : DataSource.empty (⟨List.replicate k 40, i, i :: S, false⟩ : Cursor) = false := by
        show decide _ = false; simp; omega
      have hn : DataSource.next (⟨List.replicate k 40, i, i :: S, false⟩ : Cursor) = some 40 := ht
      have ha : DataSource.advance (⟨List.replicate k 40, i, i :: S, false⟩ : Cursor) =
          some ⟨List.replicate k 40, i + 1, i :: S, false⟩ := by
        show (if _ then _ else _) = _
        simp; omega
      have hv : (CharSet.single 40).isValid 40 = true := rfl
      simp only [body, guarded, exec, he, hn, hv, if_true, Bool.false_eq_true, if_false]
      rw [show Store.op (MemOp.assign .nil (.num 40)) m = .ok m from rfl]
      simp [exec, ha]
    have h1 : run parenEnv (n + 2) (.seq [some 0, some 1, some 2]
        [.char (.single 40), .recur 0 .fail, .char (.single 41)]) .nil .nil (.seq 0 .unit)
        (⟨⟨List.replicate k 40, i, i :: S, false⟩, m⟩ : World Cursor Mem) =
        .ok ((.PARTIAL, .seq 1 (parenState j)), ⟨⟨List.replicate k 40, k, S', false⟩, m⟩) := by
      rw [run_succ_eq]
      have h : exec (run parenEnv (n + 1)) (body parenEnv (.seq [some 0, some 1, some 2]
          [.char (.single 40), .recur 0 .fail, .char (.single 41)]) .nil .nil (.seq 0 .unit))
          (⟨⟨List.replicate k 40, i, i :: S, false⟩, m⟩ : World Cursor Mem) =
          .ok (.cont (.seq 1 .recurNone), ⟨⟨List.replicate k 40, i + 1, i :: S, false⟩, m⟩) := by
        simp only [body, List.getElem?_cons_zero, seqDst, exec, hchar]
        rfl
      rw [h]
      exact (run_call_partial (p := .seq [some 0, some 1, some 2]
        [.char (.single 40), .recur 0 .fail, .char (.single 41)]) (dst := .nil) (bnd := .nil)
        (st := .seq 1 .recurNone) (st' := .seq 1 (parenState j)) rfl (hN n (by omega)) rfl).1
    exact (paren_call h1).1

/-- C71, parser objects: with `Recur` the price of resuming is not a constant. After `k` opening
parentheses every further call of `consume` goes through more than `k` iterations, even if there
is nothing new to read. -/
theorem C71_resuming_grows (k c : Nat) (m : Mem) :
    ∃ n, c * k ≤ objectSteps parenEnv n (.recur 0 false) .nil m
      (.add (List.replicate k 40) false :: List.replicate (c + 1) .consume) := by
  obtain ⟨N, S', hN⟩ := paren_opens m k k 0 [] (by omega)
  refine ⟨N + (4 * k + 5), ?_⟩
  generalize hn : N + (4 * k + 5) = n
  have hwait : ∀ c, c * k ≤ sessionSteps Cursor.addBuffer parenEnv n (.recur 0 .fail) .nil (parenState k)
      (⟨⟨List.replicate k 40, k, S', false⟩, m⟩ : World Cursor Mem) (List.replicate c .consume) := by
    intro c
    induction c with
    | zero => simp
    | succ c ih =>
      obtain ⟨h1, h2⟩ := paren_waits m k S' k n (by omega)
      rw [List.replicate_succ, Nat.add_mul, Nat.one_mul]
      simp only [sessionSteps, h1]
      omega
  unfold objectSteps
  have hsim := construct_sim ContainerSeq.dsSim (topParser (.recur 0 false)) .nil .nil m
    (⟨_, ContainerSeq.sim_make⟩ : ContainerSeq.Rel ContainerSeq.make Cursor.start)
  generalize construct (topParser (.recur 0 false)) .nil .nil
    (⟨ContainerSeq.make, m⟩ : World ContainerSeq Mem) = x at *
  rw [show construct (topParser (.recur 0 false)) .nil .nil (⟨Cursor.start, m⟩ : World Cursor Mem) =
    .ok (.recurNone, ⟨Cursor.start, m⟩) from rfl] at hsim
  cases hsim with
  | ok _ hr =>
    simp only
    rw [sessionSteps_sim ContainerSeq.dsSim (fun b f h => ContainerSeq.addBuffer_rel h b f) n
      (topParser (.recur 0 false)) .nil _ hr, List.replicate_succ]
    simp only [sessionSteps, Cursor.addBuffer, Cursor.start]
    have := hN n (by omega)
    simp only [Bool.false_eq_true, if_false, Cursor.feed, List.nil_append]
    rw [show topParser (.recur 0 false) = .recur 0 .fail from rfl, this]
    exact Nat.le_trans (hwait c) (Nat.le_add_left _ _)

end Abu
