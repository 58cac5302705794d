import Verif.Model.Calculator
import Verif.Spec.Calculator
import Verif.Proofs.Ends
import Verif.Proofs.Sets
/-
What the parsers of the calculator do.
-/
namespace Abu

/-- If `s` ends with a digit, that is the last digit of the number. -/
def Whole (s rest : List Ch) : Prop :=
  ∀ s' c r, s = s' ++ [c] → r < 10 → IsDigitSymbol r c → NoDigitNext 10 rest

mutual
/-- No expression starts here. -/
inductive NoExpr : List Ch → Prop
  | blank {t} : NoExpr t → NoExpr (32 :: t)
  /-- neither a number nor a parenthesis -/
  | other {t} : (∀ c t', t = c :: t' → c ≠ 32 ∧ c ≠ 40) →
      (∀ sg neg c t', t = sg ++ c :: t' → Sign sg neg → ∀ r, r < 10 → ¬ IsDigitSymbol r c) → NoExpr t
  /-- a parenthesis without an expression -/
  | hollow {t} : NoExpr t → NoExpr (40 :: t)
  /-- a parenthesis that is not closed; its content has a value -/
  | unclosed {w e s rest} : Blanks w → Written .sum e s → e.value.isSome → Whole s rest → NoOperation rest →
      (∀ w' t', rest = w' ++ 41 :: t' → ¬ Blanks w') → NoExpr (40 :: (w ++ (s ++ rest)))
/-- No operation and operand come next. -/
inductive NoOperation : List Ch → Prop
  | intro {t} :
      (∀ (w : List Ch) (op : Op) (t' : List Ch), t = w ++ op.symbol :: t' → Blanks w → NoExpr t') →
      NoOperation t
end

/-! ### The parsers -/

/-- The skipper: `lit(' ')`. -/
def blankP : Prog := .discard (.char (.single 32))

/-- A literal character. -/
def litP (c : Ch) : Prog := .skip blankP (.discard (.skip blankP (.char (.single c))))

/-- A parenthesised expression. -/
def parenP : Prog :=
  .clean (.seq [none, some 0, none] [litP 40, .skip blankP (.recur 0 blankP), litP 41])

/-- Numbers and parenthesised expressions. -/
def primaryP : Prog :=
  .skip blankP (.alt [.skip blankP (.clean (.int 10 1 0)), .skip blankP parenP])

/-- An operation and its right operand. -/
def itemP (ops : List Ch) (Y : Prog) : Prog :=
  .skip blankP (.action binopAct (.skip blankP (.clean (.seq [some 0, some 1]
    [.skip blankP (.char (setOfCString ops)), Y]))))

/-- A level of operations. -/
def chainP (ops : List Ch) (Y : Prog) : Prog :=
  .seq [none, none] [.skip blankP (.action assignAct Y), .skip blankP (.rep 0 0 (itemP ops Y))]

def levelP (ops : List Ch) (Y : Prog) : Prog := .bindDst (.skip blankP (chainP ops Y))

def muldivP : Prog := levelP [42, 47, 0] primaryP
def addsubP : Prog := levelP [43, 45, 0] (.skip blankP muldivP)

theorem elab_addsub : elabP blankP RecurChildReqs calcAddsub = addsubP := by rfl
theorem elab_top : topParser calculator = .withSkipper (.skip blankP (.recur 0 blankP)) := by rfl

/-! ### Leaves -/

section
variable {env : Env} {dst bnd : Ref} {t : List Ch} {j i : Nat} {m m' : Mem}

theorem Ends.char {s : CharSet} {c} (hc : t[i]? = some c) (hv : s.isValid c = true)
    (ha : m.assign dst (.num c) = .ok m') :
    Ends env (.char s) dst bnd t j i m .SUCCESS (i + 1) m' := by
  refine ⟨.unit, m, fun call S => rfl, 1, .unit, fun S => ?_⟩
  unfold cw
  rw [run_succ_eq]
  simp only [body]
  rw [exec_guarded_char hc]
  simp only [hv, if_true, exec_mem]
  rw [show Store.op (MemOp.assign dst (.num c)) m = .ok m' from ha]
  simp only
  rw [exec_advance hc]
  rfl

theorem Ends.char_fail {s : CharSet} (h : ∀ c, t[i]? = some c → s.isValid c = false) :
    Ends env (.char s) dst bnd t j i m .FAILURE i m := by
  refine ⟨.unit, m, fun call S => rfl, 1, .unit, fun S => ?_⟩
  unfold cw
  rw [run_succ_eq]
  simp only [body]
  cases hc : t[i]? with
  | none =>
    rw [exec_guarded_end (List.getElem?_eq_none_iff.1 hc)]
    rfl
  | some c =>
    rw [exec_guarded_char hc]
    simp only [h c hc, Bool.false_eq_true, if_false]
    rfl

theorem blank_stateless : Stateless blankP (.wrap .unit) :=
  ⟨rfl, fun _ _ _ _ _ => rfl⟩

/-- The blanks from `i` on end at `k`. -/
inductive Lead (t : List Ch) : Nat → Nat → Prop
  | here {i : Nat} : t[i]? ≠ some 32 → Lead t i i
  | more {i k : Nat} : t[i]? = some 32 → Lead t (i + 1) k → Lead t i k

theorem Ends.runs_blank {r i'} (h : Ends env blankP .nil .nil t i i m r i' m') :
    Runs env blankP .nil .nil (.wrap .unit) t i [] m r i' [] m' := by
  obtain ⟨st, m1, hb, hr⟩ := h
  have h1 := hb (fun _ _ _ _ _ => .error .stuck) []
  have h2 := blank_stateless.built t i m (fun _ _ _ _ _ => .error .stuck) []
  rw [h1] at h2
  simp only [Except.ok.injEq, Prod.mk.injEq, cw, World.mk.injEq] at h2
  obtain ⟨rfl, _, rfl⟩ := h2
  exact hr

theorem Lead.skips {k} (h : Lead t i k) : Skips env blankP (.wrap .unit) t i k := by
  induction h with
  | here h =>
    refine .stop fun m => Ends.runs_blank (Ends.discard (Ends.char_fail fun c hc => ?_))
    have : c ≠ 32 := by rintro rfl; exact h hc
    simp [CharSet.isValid, this]
  | more h _ ih => exact .more (fun m => Ends.runs_blank (Ends.discard (Ends.char h rfl rfl))) ih

theorem Lead.end_at {k} (h : Lead t i k) : Lead t k k := by
  induction h with
  | here h => exact .here h
  | more _ _ ih => exact ih

theorem Lead.det {k k'} (h : Lead t i k) (h' : Lead t i k') : k = k' := by
  induction h generalizing k' with
  | here h =>
    cases h' with
    | here _ => rfl
    | more h' _ => exact absurd h' h
  | more h _ ih =>
    cases h' with
    | here h' => exact absurd h h'
    | more _ h' => exact ih h'

theorem lead_blanks : ∀ {w rest : List Ch} {i : Nat}, t.drop i = w ++ rest → Blanks w →
    t[i + w.length]? ≠ some 32 → Lead t i (i + w.length)
  | [], rest, i, _, _, hn => Lead.here hn
  | c :: w, rest, i, h, hw, hn => by
    obtain ⟨h1, h2, _⟩ := drop_cons h
    have hc : c = 32 := hw c (by simp)
    subst hc
    have hl : i + (32 :: w : List Ch).length = i + 1 + w.length := by simp only [List.length_cons]; omega
    rw [hl] at hn ⊢
    exact Lead.more h1 (lead_blanks h2 (fun c hc => hw c (by simp [hc])) hn)

/-- There are finitely many blanks. -/
theorem exists_lead (t : List Ch) (i : Nat) :
    ∃ w, t.drop i = w ++ t.drop (i + w.length) ∧ Blanks w ∧ t[i + w.length]? ≠ some 32 ∧
      Lead t i (i + w.length) := by
  generalize hl : t.drop i = l
  induction l generalizing i with
  | nil =>
    refine ⟨[], by simp [hl], fun _ h => (by cases h), ?_, Lead.here ?_⟩ <;> simp [(drop_nil hl).2]
  | cons c l ih =>
    obtain ⟨h1, h2, _⟩ := drop_cons hl
    by_cases hc : c = 32
    · subst hc
      obtain ⟨w, h3, h4, h5, h6⟩ := ih (i + 1) h2
      have e : i + (32 :: w : List Ch).length = i + 1 + w.length := by simp only [List.length_cons]; omega
      refine ⟨32 :: w, ?_, ?_, by rw [e]; exact h5, by rw [e]; exact Lead.more h1 h6⟩
      · rw [e, List.cons_append, ← h3]
      · intro c hc
        rcases List.mem_cons.1 hc with h | h
        · exact h
        · exact h4 c h
    · refine ⟨[], by simp [hl], fun _ h => (by cases h), ?_, Lead.here ?_⟩ <;>
        · simp only [List.length_nil, Nat.add_zero, h1, ne_eq, Option.some.injEq]; exact hc

theorem Ends.blank {P k r i'} (hk : Lead t i k) (h : Ends env P dst bnd t j k m r i' m') :
    Ends env (.skip blankP P) dst bnd t j i m r i' m' := Ends.skip blank_stateless hk.skips h

theorem Ends.lit {c k} (hk : Lead t i k) (hc : t[k]? = some c) :
    Ends env (litP c) .nil bnd t j i m .SUCCESS (k + 1) m :=
  .blank hk (.discard (.blank hk.end_at (.char hc (by simp [CharSet.isValid]) rfl)))

theorem Ends.lit_fail {c k} (hk : Lead t i k) (hc : t[k]? ≠ some c) :
    Ends env (litP c) .nil bnd t j i m .FAILURE k m := by
  refine .blank hk (.discard (.blank hk.end_at (.char_fail fun c' h => ?_)))
  have : c' ≠ c := by rintro rfl; exact hc h
  simp [CharSet.isValid, this]

/-! ### Numbers -/

theorem Ends.int_built {o p k} {m1 : Mem} (h0 : m.zero (.at o p (.num k)) = .ok m1) {r i' m'}
    (h : ∃ f st', run env f (.int 10 1 0) (.at o p (.num k)) bnd (.int 0 true false) (cw t i [] m1) =
      .ok ((r, st'), cw t i' [] m')) : Ends env (.int 10 1 0) (.at o p (.num k)) bnd t j i m r i' m' := by
  refine ⟨.int 0 true false, m1, fun call S => ?_, ?_⟩
  · simp only [mk]
    rw [exec_mem]
    rw [show Store.op (MemOp.zero (.at o p (.num k))) (cw t j S m).mem = .ok m1 from h0]
    rfl
  · obtain ⟨f, st', hf⟩ := h
    obtain ⟨i2, L2, m2, heq, hr⟩ := Runs.of_run hf
    unfold cw at heq
    simp only [World.mk.injEq, Cursor.mk.injEq, true_and, and_true] at heq
    obtain ⟨⟨rfl, rfl⟩, rfl⟩ := heq
    exact hr

theorem fitsInt_iff {x : Int} : fitsInt x = true ↔ (NumKind.signed 32).inRange x := by
  simp only [fitsInt, NumKind.inRange, Bool.and_eq_true, decide_eq_true_eq]
  omega

theorem drop_add {s rest : List Ch} {k : Nat} (h : t.drop k = s ++ rest) : t.drop (k + s.length) = rest := by
  rw [← List.drop_drop, h, List.drop_left]

theorem DigitString.length_eq {B ds rs} (h : DigitString B ds rs) : ds.length = rs.length := by
  induction h with
  | nil => rfl
  | cons _ _ _ ih => simp [ih]

theorem Ends.int {o p k sg neg ds rs rest} (hs : Sign sg neg) (hd : DigitString 10 ds rs) (hne : ds ≠ [])
    (hv : fitsInt (positional 10 rs : Int) = true) (ht : t.drop k = sg ++ ds ++ rest)
    (hn : NoDigitNext 10 rest) (hm : Has m o p) :
    ∃ m', Ends env (.int 10 1 0) (.at o p .int) bnd t j k m .SUCCESS (k + (sg ++ ds).length) m' ∧
      Sets m o p (.num (withSign neg (positional 10 rs))) m' := by
  have hrun : LongestRun 10 0 ds rs rest := ⟨hd, fun h => absurd rfl h, .inr hn⟩
  have hfst : ∀ c l', ds ++ rest = c :: l' → c ≠ 43 ∧ c ≠ 45 := by
    intro c l' h
    cases hd with
    | nil => exact absurd rfl hne
    | @cons c' r ds rs hr hc _ =>
      rw [List.cons_append, List.cons.injEq] at h
      obtain ⟨rfl, _⟩ := h
      rw [isDigitSymbol_iff _ _ (by omega)] at hc
      split at hc <;> omega
  rw [List.append_assoc] at ht
  obtain ⟨hsl, hng⟩ := hs.spec (l := ds ++ rest) fun _ => hfst
  obtain ⟨m1, h0, h1⟩ := zero_sets (k := .signed 32) hm
  rw [fitsInt_iff] at hv
  have hacc : (NumKind.signed 32).accums (10 : Nat) (ds.map (digitValue 10)) 0 = .ok (positional 10 rs : Int) := by
    rw [hd.values (by decide)]
    exact accums_fits (by simp) (by decide) rs 0 hv
  have hfin : (NumKind.signed 32).finish neg (positional 10 rs : Int) =
      .ok (withSign neg (positional 10 rs)) := by
    refine store_neg (by simp) hv ?_
    cases neg with
    | false => exact hv
    | true =>
      simp only [withSign, if_true, NumKind.inRange] at hv ⊢
      omega
  obtain ⟨m2, h2, h3⟩ := opRun_digits_sets h1 hacc
  obtain ⟨m3, h4, h5⟩ := opRun_neg_sets h3 hfin
  refine ⟨m3, Ends.int_built h0 ?_, h5⟩
  obtain ⟨f, st', hf⟩ := run_int (env := env) (S := []) (t := t) (i := k) 10 1 0
    (.at o p .int) bnd m1
  rw [ht, hsl, drop_add ht, hng, hrun.digitRun (by decide) (by decide), List.take_left, opRun_append] at hf
  rw [show Ty.int = .num (.signed 32) from rfl] at hf
  rw [h2] at hf
  simp only [h4, outOf] at hf
  have hpos : 1 ≤ ds.length := by
    cases ds with
    | nil => exact absurd rfl hne
    | cons => simp
  rw [digitRes_ok hpos] at hf
  refine ⟨f, st', ?_⟩
  rw [List.length_append, ← Nat.add_assoc]
  exact hf

/-- No number starts here. -/
def NoNumber (t : List Ch) : Prop :=
  ∀ sg neg c t', t = sg ++ c :: t' → Sign sg neg → ∀ r, r < 10 → ¬ IsDigitSymbol r c

theorem digitRun_no {l : List Ch} (hl : ∀ c ∈ l, IsChar c)
    (h : ∀ c l', l = c :: l' → ∀ r, r < 10 → ¬ IsDigitSymbol r c) : digitRun 10 0 l = 0 := by
  cases l with
  | nil => rfl
  | cons c l =>
    refine digitRun_cons_no ?_
    rw [Bool.eq_false_iff]
    intro hd
    obtain ⟨r, hr, hs⟩ := (C07_digits_recognised_partial 10 (by decide) (by decide) c (hl c (by simp))).1 hd
    exact h c l rfl r hr hs

theorem NoNumber.digitRun {l : List Ch} (h : NoNumber l) (hl : ∀ c ∈ l, IsChar c) :
    Abu.digitRun 10 0 (l.drop (signLen l)) = 0 := by
  refine digitRun_no (fun c hc => hl c (List.mem_of_mem_drop hc)) fun c l' he => ?_
  cases l with
  | nil => simp at he
  | cons a l =>
    by_cases h1 : a = 43
    · subst h1
      simp only [signLen, true_or, if_true, List.drop_succ_cons, List.drop_zero] at he
      exact h [43] false c l' (by rw [he]; rfl) .plus
    · by_cases h2 : a = 45
      · subst h2
        simp only [signLen, or_true, if_true, List.drop_succ_cons, List.drop_zero] at he
        exact h [45] true c l' (by rw [he]; rfl) .minus
      · simp only [signLen, h1, h2, or_self, if_false, List.drop_zero] at he
        exact h [] false c l' (by rw [he]; rfl) .none

theorem Ends.int_fail {o p k} (hl : ∀ c ∈ t, IsChar c) (hn : NoNumber (t.drop k)) (hm : Has m o p) :
    ∃ i' m', Ends env (.int 10 1 0) (.at o p .int) bnd t j k m .FAILURE i' m' ∧
      Sets m o p (.num 0) m' := by
  obtain ⟨m1, h0, h1⟩ := zero_sets (k := .signed 32) hm
  obtain ⟨f, st', hf⟩ := run_int (env := env) (S := []) (t := t) (i := k) 10 1 0
    (.at o p .int) bnd m1
  have hz := hn.digitRun fun c hc => hl c (List.mem_of_mem_drop hc)
  rw [List.drop_drop] at hz
  rw [hz, List.take_zero, digitRes_no (by decide) (.inl rfl)] at hf
  obtain ⟨m2, h2, h3⟩ := opRun_neg_sets (k := .signed 32) (neg := isNeg (t.drop k)) (y := 0) h1 (by
    generalize isNeg (t.drop k) = b
    cases b <;> rfl)
  rw [show Ty.int = .num (.signed 32) from rfl] at hf ⊢
  simp only [digitOps, List.map_nil, List.nil_append, h2, outOf] at hf
  exact ⟨_, m2, Ends.int_built h0 ⟨f, st', hf⟩, h3⟩

end
end Abu
