import Verif.Spec.Peg
import Verif.Proofs.Post
/-
What the leaf parsers do on a complete text, with any memory.
-/
namespace Abu

section
variable {μ : Type} [Store μ]

/-- A list of operations on destinations. -/
def opRun : List MemOp → μ → Except Err μ
  | [], m => .ok m
  | o :: os, m =>
    match Store.op o m with
    | .error e => .error e
    | .ok m' => opRun os m'

theorem opRun_append (os os' : List MemOp) (m : μ) :
    opRun (os ++ os') m = match opRun os m with
      | .error e => .error e
      | .ok m' => opRun os' m' := by
  induction os generalizing m with
  | nil => rfl
  | cons o os ih =>
    simp only [List.cons_append, opRun]
    cases Store.op o m with
    | error e => rfl
    | ok m' => exact ih m'

/-- The outcome of a parser that performed some operations. -/
def outOf (r : Res) (st : PState) (t : List Ch) (i : Nat) (S : List Nat) :
    Except Err μ → Out Cursor μ (Res × PState)
  | .error e => .error e
  | .ok m => .ok ((r, st), ⟨⟨t, i, S, true⟩, m⟩)

variable {env : Env} {call : Prog → Ref → Ref → PState → World Cursor μ →
  Out Cursor μ (Res × PState)} {t : List Ch} {i : Nat} {S : List Nat} {m : μ}

theorem exec_guarded_end {st A B} (h : t.length ≤ i) :
    exec call (guarded st A B) ⟨⟨t, i, S, true⟩, m⟩ = exec call A ⟨⟨t, i, S, true⟩, m⟩ := by
  simp only [guarded, exec]
  have he : DataSource.empty (⟨t, i, S, true⟩ : Cursor) = true := by
    show decide (t.length ≤ i) = true
    simpa using h
  simp only [he, if_true, exec]
  rfl

theorem exec_guarded_char {st A B c} (h : t[i]? = some c) :
    exec call (guarded st A B) ⟨⟨t, i, S, true⟩, m⟩ = exec call (B c) ⟨⟨t, i, S, true⟩, m⟩ := by
  simp only [guarded, exec]
  have hlt : i < t.length := (List.getElem?_eq_some_iff.1 h).1
  have he : DataSource.empty (⟨t, i, S, true⟩ : Cursor) = false := by
    show decide (t.length ≤ i) = false
    simpa using hlt
  have hn : DataSource.next (⟨t, i, S, true⟩ : Cursor) = some c := h
  simp only [he, Bool.false_eq_true, if_false, exec, hn]

theorem exec_mem {α : Type} {o : MemOp} {k : Cmd α} {w : World Cursor μ} :
    exec call (.mem o k) w = match Store.op o w.mem with
      | .error e => .error e
      | .ok mem => exec call k ⟨w.ds, mem⟩ := rfl

/-! ### Texts -/

theorem drop_cons {l : List Ch} {c} (h : t.drop i = c :: l) :
    t[i]? = some c ∧ t.drop (i + 1) = l ∧ i < t.length := by
  have hlt : i < t.length := by
    rcases Nat.lt_or_ge i t.length with h1 | h1
    · exact h1
    · rw [List.drop_eq_nil_of_le h1] at h; cases h
  rw [List.drop_eq_getElem_cons hlt] at h
  simp only [List.cons.injEq] at h
  exact ⟨by rw [List.getElem?_eq_getElem hlt, h.1], h.2, hlt⟩

theorem drop_nil (h : t.drop i = []) : t.length ≤ i ∧ t[i]? = none := by
  rw [List.drop_eq_nil_iff] at h
  exact ⟨h, List.getElem?_eq_none h⟩

/-! ### Digits -/

theorem digitRun_nil (b mx : Nat) : digitRun b mx [] = 0 := by
  simp [digitRun]

theorem digitRun_cons_no {b mx : Nat} {c : Ch} {l : List Ch} (h : digitValid b c = false) :
    digitRun b mx (c :: l) = 0 := by
  simp [digitRun, h]

theorem digitRun_cons_one {b : Nat} {c : Ch} {l : List Ch} (h : digitValid b c = true) :
    digitRun b 1 (c :: l) = 1 := by
  simp [digitRun, h]

theorem digitRun_cons {b mx : Nat} {c : Ch} {l : List Ch} (h : digitValid b c = true)
    (hm : mx ≠ 1) : digitRun b mx (c :: l) = digitRun b (mx - 1) l + 1 := by
  simp only [digitRun, List.takeWhile_cons, h, if_true, List.length_cons]
  split
  · rename_i h0; rw [if_pos (by omega)]
  · rw [if_neg (by omega)]; omega

theorem digitRun_le (b mx : Nat) (l : List Ch) : digitRun b mx l ≤ l.length := by
  have h := (List.takeWhile_prefix (digitValid b) (l := l)).length_le
  simp only [digitRun]
  split <;> omega

theorem digitRun_le_max {b mx : Nat} {l : List Ch} (h : mx ≠ 0) : digitRun b mx l ≤ mx := by
  simp only [digitRun, if_neg h]; omega

/-- The memory operations for a run of digits. -/
def digitOps (b : Nat) (dst : Ref) (ds : List Ch) : List MemOp :=
  ds.map fun c => .mulAdd b (digitValue b c) dst

/-- Verdict of the numeric parsers after `k` more digits, `n` digits having been read. -/
def digitRes (mn mx n k : Nat) : Res :=
  if mx ≠ 0 ∧ n + k = mx then .SUCCESS else enough (n + k) mn

theorem run_uint (b mn mx : Nat) (dst bnd : Ref) :
    ∀ (l : List Ch) (i n : Nat) (m : μ), t.drop i = l → (mx = 0 ∨ n < mx) →
    ∃ f st', run env f (.uint b mn mx) dst bnd (.uint n) ⟨⟨t, i, S, true⟩, m⟩ =
      outOf (digitRes mn mx n (digitRun b (mx - n) l)) st' t (i + digitRun b (mx - n) l) S
        (opRun (digitOps b dst (l.take (digitRun b (mx - n) l))) m) := by
  intro l
  induction l with
  | nil =>
    intro i n m h hn
    refine ⟨1, .uint n, ?_⟩
    rw [run_succ_eq]
    simp only [body]
    rw [exec_guarded_end (drop_nil h).1]
    have : ¬ (mx ≠ 0 ∧ n = mx) := by omega
    simp [exec, digitRun_nil, digitOps, opRun, outOf, digitRes, this]
  | cons c l ih =>
    intro i n m h hn
    obtain ⟨hc, hl, hlt⟩ := drop_cons h
    by_cases hv : digitValid b c = true
    · cases ho : Store.op (MemOp.mulAdd b (digitValue b c) dst) m with
      | error e =>
        refine ⟨1, .uint n, ?_⟩
        rw [run_succ_eq]
        simp only [body]
        rw [exec_guarded_char hc]
        have hk : ∃ k, digitRun b (mx - n) (c :: l) = k + 1 := by
          by_cases h1 : mx - n = 1
          · exact ⟨0, by rw [h1, digitRun_cons_one hv]⟩
          · exact ⟨_, digitRun_cons hv h1⟩
        obtain ⟨k, hk⟩ := hk
        simp only [hv, if_true, exec_mem, ho, hk, List.take_succ_cons, digitOps, List.map_cons,
          opRun, outOf]
      | ok m' =>
        by_cases h1 : n + 1 = mx
        · refine ⟨1, .uint (n + 1), ?_⟩
          have h2 : mx - n = 1 := by omega
          rw [run_succ_eq]
          simp only [body]
          rw [exec_guarded_char hc]
          simp only [hv, if_true, exec_mem, ho]
          rw [exec_advance (c := c) hc]
          simp only [h1, if_true, exec, h2, digitRun_cons_one hv, List.take_succ_cons, digitOps,
            List.map_cons, opRun, ho, outOf, digitRes, List.take_zero, List.map_nil]
          rw [if_pos ⟨by omega, trivial⟩]
        · have h2 : mx - n ≠ 1 := by omega
          obtain ⟨f, st', hf⟩ := ih (i + 1) (n + 1) m' hl (by omega)
          refine ⟨f + 1, st', ?_⟩
          rw [run_succ_eq]
          simp only [body]
          rw [exec_guarded_char hc]
          simp only [hv, if_true, exec_mem, ho]
          rw [exec_advance (c := c) hc]
          simp only [h1, if_false, exec]
          have hs : mx - n - 1 = mx - (n + 1) := by omega
          rw [hf, digitRun_cons hv h2, hs]
          simp only [List.take_succ_cons, digitOps, List.map_cons, opRun, ho, digitRes]
          rw [show n + 1 + digitRun b (mx - (n + 1)) l = n + (digitRun b (mx - (n + 1)) l + 1) by omega,
            show i + 1 + digitRun b (mx - (n + 1)) l = i + (digitRun b (mx - (n + 1)) l + 1) by omega]
    · have hv : digitValid b c = false := by simpa using hv
      refine ⟨1, .uint n, ?_⟩
      rw [run_succ_eq]
      simp only [body]
      rw [exec_guarded_char hc]
      have : ¬ (mx ≠ 0 ∧ n = mx) := by omega
      simp [exec, digitRun_cons_no hv, digitOps, opRun, outOf, digitRes, this, hv]

/-- The operation that ends a signed number. -/
def negOps (neg : Bool) (dst : Ref) : List MemOp := if neg then [.neg dst] else []

theorem exec_negIf {neg dst r st} {w : World Cursor μ} :
    exec call (negIf neg dst (retS r st)) w =
      match opRun (negOps neg dst) w.mem with
      | .error e => .error e
      | .ok m => .ok (.ret r st, ⟨w.ds, m⟩) := by
  cases neg
  · rfl
  · simp only [negIf, if_true, exec_mem, negOps, opRun]
    cases Store.op (MemOp.neg dst) w.mem <;> rfl

/-- The numeric part of a signed number, once the sign cannot come any more. -/
theorem run_int_digits (b mn mx : Nat) (dst bnd : Ref) (neg : Bool) :
    ∀ (l : List Ch) (i n : Nat) (look : Bool) (m : μ), t.drop i = l → (mx = 0 ∨ n < mx) →
    (n ≠ 0 ∨ look = false ∨ signLen l = 0) →
    ∃ f st', run env f (.int b mn mx) dst bnd (.int n look neg) ⟨⟨t, i, S, true⟩, m⟩ =
      outOf (digitRes mn mx n (digitRun b (mx - n) l)) st' t (i + digitRun b (mx - n) l) S
        (opRun (digitOps b dst (l.take (digitRun b (mx - n) l)) ++ negOps neg dst) m) := by
  intro l
  induction l with
  | nil =>
    intro i n look m h hn hk
    refine ⟨1, .int n look neg, ?_⟩
    rw [run_succ_eq]
    simp only [body]
    rw [exec_guarded_end (drop_nil h).1, exec_negIf]
    have : ¬ (mx ≠ 0 ∧ n = mx) := by omega
    simp only [digitRun_nil, List.take_zero, digitOps, List.map_nil, List.nil_append,
      digitRes, Nat.add_zero, this, if_false]
    cases opRun (negOps neg dst) m <;> rfl
  | cons c l ih =>
    intro i n look m h hn hk
    obtain ⟨hc, hl, hlt⟩ := drop_cons h
    have hs1 : ¬ (n = 0 ∧ look = true ∧ c = 45) := by
      rintro ⟨h1, h2, h3⟩
      rcases hk with h | h | h
      · exact h h1
      · rw [h] at h2; cases h2
      · simp [signLen, h3] at h
    have hs2 : ¬ (n = 0 ∧ look = true ∧ c = 43) := by
      rintro ⟨h1, h2, h3⟩
      rcases hk with h | h | h
      · exact h h1
      · rw [h] at h2; cases h2
      · simp [signLen, h3] at h
    by_cases hv : digitValid b c = true
    · cases ho : Store.op (MemOp.mulAdd b (digitValue b c) dst) m with
      | error e =>
        refine ⟨1, .int n look neg, ?_⟩
        rw [run_succ_eq]
        simp only [body]
        rw [exec_guarded_char hc]
        have hk : ∃ k, digitRun b (mx - n) (c :: l) = k + 1 := by
          by_cases h1 : mx - n = 1
          · exact ⟨0, by rw [h1, digitRun_cons_one hv]⟩
          · exact ⟨_, digitRun_cons hv h1⟩
        obtain ⟨k, hk⟩ := hk
        simp only [if_neg hs1, if_neg hs2, hv, if_true, exec_mem, ho, hk, List.take_succ_cons,
          digitOps, List.map_cons, List.cons_append, opRun, outOf]
      | ok m' =>
        by_cases h1 : n + 1 = mx
        · refine ⟨1, .int (n + 1) (look && n != 0) neg, ?_⟩
          have h2 : mx - n = 1 := by omega
          rw [run_succ_eq]
          simp only [body]
          rw [exec_guarded_char hc]
          simp only [if_neg hs1, if_neg hs2, hv, if_true, exec_mem, ho]
          rw [exec_advance (c := c) hc]
          simp only [h1, if_true, exec_negIf, h2, digitRun_cons_one hv, List.take_succ_cons, digitOps,
            List.map_cons, List.cons_append, List.nil_append, opRun, ho, digitRes, List.take_zero,
            List.map_nil]
          rw [if_pos ⟨by omega, trivial⟩]
          cases opRun (negOps neg dst) m' <;> rfl
        · have h2 : mx - n ≠ 1 := by omega
          obtain ⟨f, st', hf⟩ := ih (i + 1) (n + 1) (look && n != 0) m' hl (by omega)
            (.inl (by omega))
          refine ⟨f + 1, st', ?_⟩
          rw [run_succ_eq]
          simp only [body]
          rw [exec_guarded_char hc]
          simp only [if_neg hs1, if_neg hs2, hv, if_true, exec_mem, ho]
          rw [exec_advance (c := c) hc]
          simp only [h1, if_false, exec]
          have hs : mx - n - 1 = mx - (n + 1) := by omega
          rw [hf, digitRun_cons hv h2, hs]
          simp only [List.take_succ_cons, digitOps, List.map_cons, List.cons_append, opRun, ho,
            digitRes]
          rw [show n + 1 + digitRun b (mx - (n + 1)) l = n + (digitRun b (mx - (n + 1)) l + 1) by omega,
            show i + 1 + digitRun b (mx - (n + 1)) l = i + (digitRun b (mx - (n + 1)) l + 1) by omega]
    · have hv : digitValid b c = false := by simpa using hv
      refine ⟨1, .int n (look && n != 0) neg, ?_⟩
      rw [run_succ_eq]
      simp only [body]
      rw [exec_guarded_char hc]
      have : ¬ (mx ≠ 0 ∧ n = mx) := by omega
      simp only [if_neg hs1, if_neg hs2, hv, Bool.false_eq_true, if_false, exec_negIf,
        digitRun_cons_no hv, List.take_zero, digitOps, List.map_nil, List.nil_append, digitRes,
        Nat.add_zero, this]
      cases opRun (negOps neg dst) m <;> rfl

/-- Is the sign at the start of the text a minus? -/
def isNeg : List Ch → Bool
  | c :: _ => c == 45
  | [] => false

theorem run_int (b mn mx : Nat) (dst bnd : Ref) (m : μ) :
    ∃ f st', run env f (.int b mn mx) dst bnd (.int 0 true false) ⟨⟨t, i, S, true⟩, m⟩ =
      outOf (digitRes mn mx 0 (digitRun b mx (t.drop (i + signLen (t.drop i))))) st' t
        (i + signLen (t.drop i) + digitRun b mx (t.drop (i + signLen (t.drop i)))) S
        (opRun (digitOps b dst ((t.drop (i + signLen (t.drop i))).take
          (digitRun b mx (t.drop (i + signLen (t.drop i))))) ++ negOps (isNeg (t.drop i)) dst) m) := by
  cases h : t.drop i with
  | nil =>
    obtain ⟨f, st', hf⟩ := run_int_digits (env := env) (S := S) b mn mx dst bnd false
      (t.drop i) i 0 true m rfl (by omega) (.inr (.inr (by rw [h]; rfl)))
    refine ⟨f, st', ?_⟩
    rw [hf, h]
    simp [signLen, isNeg, h]
  | cons c l =>
    obtain ⟨hc, hl, hlt⟩ := drop_cons h
    by_cases h45 : c = 45
    · subst h45
      obtain ⟨f, st', hf⟩ := run_int_digits (env := env) (S := S) b mn mx dst bnd true
        (t.drop (i + 1)) (i + 1) 0 false m rfl (by omega) (.inr (.inl rfl))
      refine ⟨f + 1, st', ?_⟩
      rw [run_succ_eq]
      simp only [body]
      rw [exec_guarded_char hc]
      simp only [and_self, if_true]
      rw [exec_advance hc]
      simp only [exec, hf]
      simp [signLen, isNeg]
    · by_cases h43 : c = 43
      · subst h43
        obtain ⟨f, st', hf⟩ := run_int_digits (env := env) (S := S) b mn mx dst bnd false
          (t.drop (i + 1)) (i + 1) 0 false m rfl (by omega) (.inr (.inl rfl))
        refine ⟨f + 1, st', ?_⟩
        rw [run_succ_eq]
        simp only [body]
        rw [exec_guarded_char hc]
        simp only [true_and, if_neg h45, if_true]
        rw [exec_advance hc]
        simp only [exec, hf]
        simp [signLen, isNeg]
      · have hs : signLen (c :: l) = 0 := by simp [signLen, h45, h43]
        obtain ⟨f, st', hf⟩ := run_int_digits (env := env) (S := S) b mn mx dst bnd false
          (t.drop i) i 0 true m rfl (by omega) (.inr (.inr (by rw [h]; exact hs)))
        refine ⟨f, st', ?_⟩
        rw [hf, hs]
        have : isNeg (c :: l) = false := by simp [isNeg, h45]
        simp [this]

/-! ### Literals and symbols -/

theorem run_strLit (s : List Ch) (dst bnd : Ref) :
    ∀ (r : List Ch) (i k : Nat) (m : μ), s.drop k = r →
    ∃ f st' i', run env f (.strLit s) dst bnd (.strLit k) (⟨⟨t, i, S, true⟩, m⟩ : World Cursor μ) =
      .ok ((if r <+: t.drop i then .SUCCESS else .FAILURE, st'), ⟨⟨t, i', S, true⟩, m⟩) ∧
      (r <+: t.drop i → i' = i + r.length) := by
  intro r
  induction r with
  | nil =>
    intro i k m h
    refine ⟨1, .strLit k, i, ?_, fun _ => rfl⟩
    rw [run_succ_eq]
    simp [body, (drop_nil h).2, exec]
  | cons e r ih =>
    intro i k m h
    obtain ⟨he, hr, _⟩ := drop_cons h
    cases ht : t.drop i with
    | nil =>
      refine ⟨1, .strLit k, i, ?_, fun h => by simp at h⟩
      rw [run_succ_eq]
      simp only [body, he]
      rw [exec_guarded_end (drop_nil ht).1]
      simp [exec]
    | cons c l =>
      obtain ⟨hc, hl, hlt⟩ := drop_cons ht
      by_cases hce : c = e
      · subst hce
        obtain ⟨f, st', i', hf, hi⟩ := ih (i + 1) (k + 1) m hr
        refine ⟨f + 1, st', i', ?_, ?_⟩
        · rw [run_succ_eq]
          simp only [body, he]
          rw [exec_guarded_char hc]
          simp only [if_true]
          rw [exec_advance hc]
          simp only [exec, hf]
          rw [hl]
          simp
        · intro hp
          rw [hl] at hi
          simp only [List.cons_prefix_cons, true_and] at hp
          rw [hi hp]
          simp only [List.length_cons]; omega
      · refine ⟨1, .strLit k, i, ?_, ?_⟩
        · rw [run_succ_eq]
          simp only [body, he]
          rw [exec_guarded_char hc]
          have : ¬ (e = c) := fun h => hce h.symm
          simp [hce, exec, this]
        · intro hp
          simp only [List.cons_prefix_cons] at hp
          exact absurd hp.1.symm hce

/-- Length and value of the longest non-empty key at the start of a text. -/
def longest : Node → List Ch → Option (Nat × Val)
  | _, [] => none
  | n, c :: l =>
    match n.child.find c with
    | none => none
    | some n' =>
      match longest n' l with
      | some (k, v) => some (k + 1, v)
      | none => n'.val.map (1, ·)

theorem longest_none {n : Node} {l : List Ch} (h : longest n l = none) :
    ∀ key, key ≠ [] → (n.get key).isSome = true → ¬ key <+: l := by
  induction l generalizing n with
  | nil => intro key hk _ hp; simp at hp; exact hk hp
  | cons c l ih =>
    intro key hk hs hp
    cases key with
    | nil => exact hk rfl
    | cons d key =>
      simp only [List.cons_prefix_cons] at hp
      obtain ⟨rfl, hp⟩ := hp
      simp only [longest] at h
      cases hf : n.child.find d with
      | none => simp only [Node.get, hf] at hs; cases hs
      | some n' =>
        simp only [hf] at h
        simp only [Node.get, hf] at hs
        cases hl : longest n' l with
        | some x => rw [hl] at h; cases h
        | none =>
          rw [hl] at h
          cases key with
          | nil =>
            simp only [Option.map_eq_none_iff] at h
            simp only [Node.get, h] at hs
            cases hs
          | cons e key => exact ih hl _ (by simp) hs hp

theorem longest_some {n : Node} {l : List Ch} {k v} (h : longest n l = some (k, v)) :
    (k ≠ 0 ∧ k ≤ l.length ∧ n.get (l.take k) = some v) ∧
    ∀ key, key ≠ [] → (n.get key).isSome = true → key <+: l → key.length ≤ k := by
  induction l generalizing n k v with
  | nil => cases h
  | cons c l ih =>
    simp only [longest] at h
    cases hf : n.child.find c with
    | none => rw [hf] at h; cases h
    | some n' =>
      rw [hf] at h
      simp only at h
      have key_cons : ∀ key, key ≠ [] → (n.get key).isSome = true → key <+: c :: l →
          ∃ key', key = c :: key' ∧ (n'.get key').isSome = true ∧ key' <+: l := by
        intro key hk hs hp
        cases key with
        | nil => exact absurd rfl hk
        | cons d key =>
          simp only [List.cons_prefix_cons] at hp
          obtain ⟨rfl, hp⟩ := hp
          simp only [Node.get, hf] at hs
          exact ⟨key, rfl, hs, hp⟩
      cases hl : longest n' l with
      | some x =>
        obtain ⟨k', v'⟩ := x
        rw [hl] at h
        simp only [Option.some.injEq, Prod.mk.injEq] at h
        obtain ⟨rfl, rfl⟩ := h
        obtain ⟨⟨h1, h2, h3⟩, h4⟩ := ih hl
        refine ⟨⟨by omega, by simp; omega, by simp only [List.take_succ_cons, Node.get, hf]; exact h3⟩, ?_⟩
        intro key hk hs hp
        obtain ⟨key', rfl, hs', hp'⟩ := key_cons key hk hs hp
        cases key' with
        | nil => simp
        | cons d key' => have := h4 _ (by simp) hs' hp'; simp at this ⊢; omega
      | none =>
        rw [hl] at h
        simp only [Option.map_eq_some_iff, Prod.mk.injEq] at h
        obtain ⟨v', hv, rfl, rfl⟩ := h
        refine ⟨⟨by omega, by simp, ?_⟩, ?_⟩
        · simp only [List.take_succ_cons, List.take_zero, Node.get, hf]; exact hv
        · intro key hk hs hp
          obtain ⟨key', rfl, hs', hp'⟩ := key_cons key hk hs hp
          cases key' with
          | nil => simp
          | cons d key' =>
            exfalso
            exact longest_none hl _ (by simp) hs' hp'

/-- The rollback point of a symbol parser that has seen a key. -/
def symSaved (v : Option Val) (p : Nat) (S : List Nat) : List Nat :=
  match v with
  | none => S
  | some _ => p :: S

/-- What a symbol parser ends with. -/
def symOut (dst : Ref) (st : PState) (t : List Ch) (S : List Nat) (v : Option Val) (p i : Nat) (m : μ)
    (b : Option (Nat × Val)) (fi : Nat) : Out Cursor μ (Res × PState) :=
  match b with
  | some (k, x) => outOf .SUCCESS st t (i + k) S (opRun [.assign dst x] m)
  | none =>
    match v with
    | some x => outOf .SUCCESS st t p S (opRun [.assign dst x] m)
    | none => .ok ((.FAILURE, st), ⟨⟨t, fi, S, true⟩, m⟩)

theorem run_symbol (root : Node) (dst bnd : Ref) (m : μ) :
    ∀ (l : List Ch) (i : Nat) (n : Node) (v : Option Val) (p : Nat), t.drop i = l →
    ∃ f st' fi, run env f (.symbol root) dst bnd (.symbol n v) ⟨⟨t, i, symSaved v p S, true⟩, m⟩ =
      symOut dst st' t S v p i m (longest n l) fi := by
  intro l
  induction l with
  | nil =>
    intro i n v p h
    refine ⟨1, .symbol n v, i, ?_⟩
    rw [run_succ_eq]
    simp only [body]
    rw [exec_guarded_end (drop_nil h).1]
    cases v with
    | none => simp [exec, longest, symOut, symSaved]
    | some x =>
      simp only [exec_mem, longest, symOut, opRun, symSaved]
      cases Store.op (MemOp.assign dst x) m with
      | error e => rfl
      | ok m' => rfl
  | cons c l ih =>
    intro i n v p h
    obtain ⟨hc, hl, hlt⟩ := drop_cons h
    cases hf : n.child.find c with
    | none =>
      refine ⟨1, .symbol n v, i, ?_⟩
      rw [run_succ_eq]
      simp only [body]
      rw [exec_guarded_char hc]
      cases v with
      | none => simp [exec, longest, symOut, symSaved, hf]
      | some x =>
        simp only [hf, exec_mem, longest, symOut, opRun, symSaved]
        cases Store.op (MemOp.assign dst x) m with
        | error e => rfl
        | ok m' => rfl
    | some n' =>
      cases hv : n'.val with
      | none =>
        obtain ⟨f, st', fi, hr⟩ := ih (i + 1) n' v p hl
        refine ⟨f + 1, st', fi, ?_⟩
        rw [run_succ_eq]
        simp only [body]
        rw [exec_guarded_char hc]
        simp only [hf]
        rw [exec_advance hc]
        simp only [hv, exec, hr, longest, hf]
        cases hlo : longest n' l with
        | none => rfl
        | some b =>
          simp only [symOut]
          rw [show i + 1 + b.1 = i + (b.1 + 1) by omega]
      | some x =>
        have hcancel : ∀ (k : Cmd Step), exec (run env 0) (if v.isSome = true then Cmd.cancel k else k)
            (⟨⟨t, i + 1, symSaved v p S, true⟩, m⟩ : World Cursor μ) =
            exec (run env 0) k ⟨⟨t, i + 1, S, true⟩, m⟩ := by
          intro k
          cases v with
          | none => rfl
          | some y => rfl
        have hcancel' : ∀ (f : Nat) (k : Cmd Step),
            exec (run env f) (if v.isSome = true then Cmd.cancel k else k)
            (⟨⟨t, i + 1, symSaved v p S, true⟩, m⟩ : World Cursor μ) =
            exec (run env f) k ⟨⟨t, i + 1, S, true⟩, m⟩ := by
          intro f k
          cases v with
          | none => rfl
          | some y => rfl
        cases hce : n'.child.isEmpty with
        | true =>
          have hlo : longest n' l = none := by
            cases l with
            | nil => rfl
            | cons d l =>
              have : n'.child.find d = none := by
                cases hk : n'.child with
                | nil => rfl
                | cons => rw [hk] at hce; cases hce
              simp [longest, this]
          refine ⟨1, .symbol n' v, i, ?_⟩
          rw [run_succ_eq]
          simp only [body]
          rw [exec_guarded_char hc]
          simp only [hf]
          rw [exec_advance hc]
          simp only [hv, hce, if_true]
          rw [hcancel]
          simp only [exec_mem, longest, hf, hlo, hv, Option.map_some, symOut, opRun]
          cases Store.op (MemOp.assign dst x) m with
          | error e => rfl
          | ok m' => rfl
        | false =>
          obtain ⟨f, st', fi, hr⟩ := ih (i + 1) n' (some x) (i + 1) hl
          refine ⟨f + 1, st', fi, ?_⟩
          rw [run_succ_eq]
          simp only [body]
          rw [exec_guarded_char hc]
          simp only [hf]
          rw [exec_advance hc]
          simp only [hv, hce, Bool.false_eq_true, if_false]
          rw [hcancel', exec_prepare]
          simp only [symSaved] at hr
          simp only [exec, hr, longest, hf]
          cases hlo : longest n' l with
          | none => simp only [symOut, hv, Option.map_some]
          | some b =>
            simp only [symOut]
            rw [show i + 1 + b.1 = i + (b.1 + 1) by omega]

end
end Abu
