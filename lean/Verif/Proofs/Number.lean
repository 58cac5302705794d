import Verif.Proofs.Answers
import Verif.Props.Chars
/-
What the numeric parsers compute.
-/
namespace Abu

/-! ### Digit strings -/

theorem IsDigitSymbol.isChar {r : Nat} {c : Ch} (hr : r < 36) (h : IsDigitSymbol r c) : IsChar c := by
  rw [isDigitSymbol_iff r c hr] at h
  unfold IsChar
  split at h
  · omega
  · omega

theorem DigitString.valid {B : Nat} (h2 : 2 ≤ B) (h35 : B ≤ 35) {ds rs} (h : DigitString B ds rs) :
    ∀ c ∈ ds, digitValid B c = true := by
  induction h with
  | nil => simp
  | cons hr hc _ ih =>
    intro c hm
    rcases List.mem_cons.1 hm with rfl | hm
    · exact (C07_digits_recognised_partial B h2 h35 _ (hc.isChar (by omega))).2 ⟨_, hr, hc⟩
    · exact ih c hm

theorem DigitString.values {B : Nat} (h35 : B ≤ 35) {ds rs} (h : DigitString B ds rs) :
    ds.map (digitValue B) = rs.map Int.ofNat := by
  induction h with
  | nil => rfl
  | cons hr hc _ ih =>
    simp only [List.map_cons, ih, C07_digit_value B h35 _ _ hr hc,
      Int.ofNat_eq_natCast]

theorem LongestRun.digitRun {B mx : Nat} (h2 : 2 ≤ B) (h35 : B ≤ 35) {ds rs rest}
    (h : LongestRun B mx ds rs rest) : Abu.digitRun B mx (ds ++ rest) = ds.length := by
  have hv := h.digits.valid h2 h35
  have htw : (ds ++ rest).takeWhile (digitValid B) = ds ++ rest.takeWhile (digitValid B) := by
    have : ∀ ds : List Ch, (∀ c ∈ ds, digitValid B c = true) →
        (ds ++ rest).takeWhile (digitValid B) = ds ++ rest.takeWhile (digitValid B) := by
      intro ds
      induction ds with
      | nil => intro _; rfl
      | cons c ds ih =>
        intro hv
        rw [List.cons_append, List.takeWhile_cons, if_pos (hv c (by simp)),
          ih fun c hc => hv c (by simp [hc])]
        rfl
    exact this ds hv
  have hno : NoDigitNext B rest → rest.takeWhile (digitValid B) = [] := by
    intro hn
    cases rest with
    | nil => rfl
    | cons c l =>
      obtain ⟨h1, h3⟩ := hn c l rfl
      rw [List.takeWhile_cons, if_neg]
      intro hd
      obtain ⟨r, hr, hs⟩ := (C07_digits_recognised_partial B h2 h35 c h1).1 hd
      exact h3 r hr hs
  simp only [Abu.digitRun, htw, List.length_append]
  rcases h.longest with ⟨h0, hl⟩ | hn
  · rw [if_neg h0]; omega
  · rw [hno hn]
    simp only [List.length_nil, Nat.add_zero]
    split
    · rfl
    · rename_i h0; have := h.bound h0; omega

/-! ### Accumulation -/

/-- `dst *= b; dst += d` for a variable of numeric type `k`. -/
def NumKind.accum (k : NumKind) (b d a : Int) : Except Err Int :=
  match k.store (a * b) with
  | .error e => .error e
  | .ok j => k.store (j + d)

/-- The same for all digits. -/
def NumKind.accums (k : NumKind) (b : Int) : List Int → Int → Except Err Int
  | [], a => .ok a
  | d :: ds, a =>
    match k.accum b d a with
    | .error e => .error e
    | .ok a' => k.accums b ds a'

/-- The memory after the number variable `o` got the value `a`. -/
def cell (m : Mem) (o : Nat) (a : Int) : Mem := ⟨m.objs.set o (.num a), m.log⟩

theorem cell_get {m : Mem} {o a} (h : o < m.objs.length) : (cell m o a).objs[o]? = some (.num a) := by
  simp [cell, h]

theorem cell_cell {m : Mem} {o a b} : cell (cell m o a) o b = cell m o b := by
  simp [cell]

theorem mul_cell {m : Mem} {o a k} (b : Int) (h : o < m.objs.length) :
    (cell m o a).mul b (.at o [] (.num k)) =
      match k.store (a * b) with
      | .error e => .error e
      | .ok j => .ok (cell m o j) := by
  simp only [Mem.mul, Mem.onNum, Mem.modify, cell_get h, Val.update]
  cases k.store (a * b) with
  | error e => rfl
  | ok j => simp [cell]

theorem add_cell {m : Mem} {o a k} (b : Int) (h : o < m.objs.length) :
    (cell m o a).add b (.at o [] (.num k)) =
      match k.store (a + b) with
      | .error e => .error e
      | .ok j => .ok (cell m o j) := by
  simp only [Mem.add, Mem.onNum, Mem.modify, cell_get h, Val.update]
  cases k.store (a + b) with
  | error e => rfl
  | ok j => simp [cell]

theorem mulAdd_cell {m : Mem} {o a k} (b d : Int) (h : o < m.objs.length) :
    (cell m o a).mulAdd b d (.at o [] (.num k)) =
      match k.accum b d a with
      | .error e => .error e
      | .ok j => .ok (cell m o j) := by
  simp only [Mem.mulAdd, mul_cell b h, NumKind.accum]
  cases k.store (a * b) with
  | error e => rfl
  | ok j => exact add_cell d h

theorem zero_cell {m : Mem} {o k} (h : o < m.objs.length) :
    m.zero (.at o [] (.num k)) = .ok (cell m o 0) := by
  simp only [Mem.zero, Mem.onNum, Mem.modify, List.getElem?_eq_getElem h, Val.update, cell]

theorem opRun_digits {m : Mem} {o a k} (B : Nat) (h : o < m.objs.length) (ds : List Ch) :
    opRun (digitOps B (.at o [] (.num k)) ds) (cell m o a) =
      match k.accums B (ds.map (digitValue B)) a with
      | .error e => .error e
      | .ok j => .ok (cell m o j) := by
  induction ds generalizing a with
  | nil => rfl
  | cons c ds ih =>
    simp only [digitOps, List.map_cons, opRun, NumKind.accums]
    rw [show Store.op (MemOp.mulAdd B (digitValue B c) (.at o [] (.num k))) (cell m o a) =
      (cell m o a).mulAdd B (digitValue B c) (.at o [] (.num k)) from rfl, mulAdd_cell _ _ h]
    cases k.accum B (digitValue B c) a with
    | error e => rfl
    | ok j => exact ih

theorem opRun_digits_nil {m : Mem} (B : Nat) (ds : List Ch) :
    opRun (digitOps B .nil ds) m = .ok m := by
  induction ds with
  | nil => rfl
  | cons c ds ih => exact ih

/-- Positional value, continuing from `a`. -/
def posFrom (B : Nat) (rs : List Nat) (a : Nat) : Nat := rs.foldl (fun a d => a * B + d) a

theorem posFrom_ge {B : Nat} (hB : 1 ≤ B) (rs : List Nat) (a : Nat) : a ≤ posFrom B rs a := by
  induction rs generalizing a with
  | nil => exact Nat.le_refl _
  | cons r rs ih =>
    have h1 := ih (a * B + r)
    have h2 : a * 1 ≤ a * B := Nat.mul_le_mul_left a hB
    simp only [posFrom, List.foldl_cons] at h1 ⊢
    omega

theorem NumKind.inRange_mono {k : NumKind} {x y : Int} (h0 : 0 ≤ x) (h : x ≤ y)
    (hy : k.inRange y) : k.inRange x := by
  cases k with
  | ideal => trivial
  | unsigned w => exact ⟨h0, by have := hy.2; omega⟩
  | signed w =>
    have : (0 : Int) < 2 ^ (w - 1) := Int.pow_pos (by decide)
    exact ⟨by omega, by have := hy.2; omega⟩

theorem NumKind.store_fits {k : NumKind} (hk : k ≠ .signed 0) {x : Int} (h : k.inRange x) :
    k.store x = .ok x := by
  cases k with
  | ideal => rfl
  | unsigned w => simp only [NumKind.store, NumKind.wrap_of_inRange hk h]
  | signed w =>
    simp only [NumKind.store]
    split
    · rw [NumKind.wrap_of_inRange hk h]
    · rfl

theorem accums_fits {k : NumKind} (hk : k ≠ .signed 0) {B : Nat} (hB : 1 ≤ B) :
    ∀ (rs : List Nat) (a : Nat), k.inRange (posFrom B rs a) →
    k.accums B (rs.map Int.ofNat) a = .ok (posFrom B rs a)
  | [], a, _ => rfl
  | r :: rs, a, h => by
    have h1 := posFrom_ge hB rs (a * B + r)
    have hf : posFrom B (r :: rs) a = posFrom B rs (a * B + r) := rfl
    rw [hf] at h ⊢
    have hs1 : k.store ((a : Int) * B) = .ok ((a * B : Nat) : Int) := by
      rw [← Int.natCast_mul]
      exact NumKind.store_fits hk (NumKind.inRange_mono (by omega) (by omega) h)
    have hs2 : k.store (((a * B : Nat) : Int) + r) = .ok ((a * B + r : Nat) : Int) := by
      rw [← Int.natCast_add]
      exact NumKind.store_fits hk (NumKind.inRange_mono (by omega) (by omega) h)
    simp only [List.map_cons, NumKind.accums, NumKind.accum, hs1, Int.ofNat_eq_natCast, hs2]
    exact accums_fits hk hB rs _ h

theorem accums_unsigned {w : Nat} {B : Nat} :
    ∀ (rs : List Nat) (a : Nat) (x : Int), x = (a : Int) % 2 ^ w →
    (NumKind.unsigned w).accums B (rs.map Int.ofNat) x =
      .ok ((posFrom B rs a : Int) % 2 ^ w)
  | [], a, x, h => by rw [h]; rfl
  | r :: rs, a, x, h => by
    simp only [List.map_cons, NumKind.accums, NumKind.accum, NumKind.store, NumKind.wrap]
    refine accums_unsigned rs (a * B + r) _ ?_
    rw [h, Int.emod_add_emod, Int.natCast_add, Int.natCast_mul, Int.ofNat_eq_natCast]
    rw [Int.add_emod, Int.mul_emod, Int.emod_emod_of_dvd _ (Int.dvd_refl _), ← Int.mul_emod,
      ← Int.add_emod]

theorem accums_overflow {w : Nat} (hw : 32 ≤ w) {B : Nat} :
    ∀ (rs : List Nat) (a : Nat), (a : Int) < 2 ^ (w - 1) →
    ¬ (posFrom B rs a : Int) < 2 ^ (w - 1) →
    (NumKind.signed w).accums B (rs.map Int.ofNat) a = .error .ubOverflow
  | [], a, h, h' => absurd h h'
  | r :: rs, a, h, h' => by
    have hp : (0 : Int) < 2 ^ (w - 1) := Int.pow_pos (by decide)
    have hst : ∀ x : Nat, (NumKind.signed w).store x =
        if (x : Int) < 2 ^ (w - 1) then .ok (x : Int) else .error .ubOverflow := by
      intro x
      simp only [NumKind.store, if_neg (show ¬ w < 32 by omega)]
      by_cases hx : (x : Int) < 2 ^ (w - 1)
      · rw [if_pos hx, if_pos (show (NumKind.signed w).inRange x from ⟨by omega, hx⟩)]
      · rw [if_neg hx, if_neg (show ¬ (NumKind.signed w).inRange x from fun h => hx h.2)]
    simp only [List.map_cons, NumKind.accums, NumKind.accum, Int.ofNat_eq_natCast]
    rw [← Int.natCast_mul, hst]
    by_cases h1 : ((a * B : Nat) : Int) < 2 ^ (w - 1)
    · rw [if_pos h1]
      simp only
      rw [← Int.natCast_add, hst]
      by_cases h2 : ((a * B + r : Nat) : Int) < 2 ^ (w - 1)
      · rw [if_pos h2]
        exact accums_overflow hw rs _ h2 h'
      · rw [if_neg h2]
    · rw [if_neg h1]

theorem NumKind.store_no_fuel {k : NumKind} {x : Int} {e} (h : k.store x = .error e) : e ≠ .fuel := by
  rintro rfl
  unfold NumKind.store at h
  cases k with
  | ideal => cases h
  | unsigned w => cases h
  | signed w =>
    simp only at h
    split at h
    · cases h
    · split at h <;> cases h

theorem accums_no_fuel {k : NumKind} {b : Int} : ∀ {ds : List Int} {a e},
    k.accums b ds a = .error e → e ≠ .fuel
  | [], a, e, h => by cases h
  | d :: ds, a, e, h => by
    simp only [NumKind.accums, NumKind.accum] at h
    cases h1 : k.store (a * b) with
    | error e' => rw [h1] at h; cases h; exact NumKind.store_no_fuel h1
    | ok j =>
      rw [h1] at h
      simp only at h
      cases h2 : k.store (j + d) with
      | error e' => rw [h2] at h; cases h; exact NumKind.store_no_fuel h2
      | ok j' => rw [h2] at h; exact accums_no_fuel h

/-! ### The parsers -/

theorem uint_answers {env : Env} {B mn mx : Nat} (h2 : 2 ≤ B) (h35 : B ≤ 35) {ds rs rest}
    (hrun : LongestRun B mx ds rs rest) {o k} {m : Mem} (ho : o < m.objs.length) :
    Answers env (.uint B mn mx) (.at o [] (.num k)) m (ds ++ rest)
      (match k.accums B (rs.map Int.ofNat) 0 with
      | .error e => .error e
      | .ok j => .ok (digitRes mn mx 0 ds.length, cell m o j, rest)) := by
  refine .of_parses ?_
  have hc : construct (topParser (.uint B mn mx)) (.at o [] (.num k)) (.at o [] (.num k))
      (⟨Cursor.whole (ds ++ rest), m⟩ : World Cursor Mem) =
      .ok (.uint 0, ⟨⟨ds ++ rest, 0, [], true⟩, cell m o 0⟩) := by
    change exec _ (.mem (.zero _) _) _ = _
    rw [exec_mem]
    rw [show Store.op (MemOp.zero (.at o [] (.num k))) m = m.zero (.at o [] (.num k)) from rfl]
    rw [zero_cell ho]
    rfl
  obtain ⟨f, st', hf⟩ := run_uint (env := env) (S := []) (t := ds ++ rest) B mn mx (.at o [] (.num k))
    (.at o [] (.num k)) (ds ++ rest) 0 0 (cell m o 0) rfl (by omega)
  rw [Nat.sub_zero, hrun.digitRun h2 h35, List.take_left, opRun_digits B ho,
    hrun.digits.values h35] at hf
  cases hx : k.accums B (rs.map Int.ofNat) 0 with
  | error e =>
    rw [hx] at hf
    refine Parses.of_error hc hf ?_
    rintro rfl
    have := accums_no_fuel hx
    exact this rfl
  | ok j =>
    rw [hx] at hf
    have := Parses.of_run hc hf
    rwa [Nat.zero_add, List.drop_left] at this

theorem uint_answers_nil {env : Env} {B mn mx : Nat} (h2 : 2 ≤ B) (h35 : B ≤ 35) {ds rs rest}
    (hrun : LongestRun B mx ds rs rest) {m : Mem} :
    Answers env (.uint B mn mx) .nil m (ds ++ rest)
      (.ok (digitRes mn mx 0 ds.length, m, rest)) := by
  refine .of_parses ?_
  obtain ⟨f, st', hf⟩ := run_uint (env := env) (S := []) (t := ds ++ rest) B mn mx .nil
    .nil (ds ++ rest) 0 0 m rfl (by omega)
  rw [Nat.sub_zero, hrun.digitRun h2 h35, List.take_left, opRun_digits_nil] at hf
  have := Parses.of_run (p := .uint B mn mx) (m := m) (S1 := []) rfl hf
  rwa [Nat.zero_add, List.drop_left] at this

theorem Sign.spec {sg neg} (h : Sign sg neg) {l : List Ch}
    (hn : sg = [] → ∀ c l', l = c :: l' → c ≠ 43 ∧ c ≠ 45) :
    signLen (sg ++ l) = sg.length ∧ isNeg (sg ++ l) = neg := by
  cases h with
  | none =>
    cases l with
    | nil => exact ⟨rfl, rfl⟩
    | cons c l =>
      obtain ⟨h1, h2⟩ := hn rfl c l rfl
      simp [signLen, isNeg, h1, h2]
  | plus => exact ⟨rfl, rfl⟩
  | minus => exact ⟨rfl, rfl⟩

/-- The end of a signed number. -/
def NumKind.finish (k : NumKind) (neg : Bool) (j : Int) : Except Err Int :=
  if neg then k.store (j * -1) else .ok j

theorem finish_no_fuel {k : NumKind} {neg j e} (h : k.finish neg j = .error e) : e ≠ .fuel := by
  unfold NumKind.finish at h
  cases neg with
  | false => cases h
  | true => exact NumKind.store_no_fuel h

/-- The value a signed number parser computes. -/
def NumKind.signed' (k : NumKind) (B : Nat) (neg : Bool) (rs : List Nat) : Except Err Int :=
  match k.accums B (rs.map Int.ofNat) 0 with
  | .error e => .error e
  | .ok j => k.finish neg j

theorem opRun_neg {m : Mem} {o k j neg} (ho : o < m.objs.length) :
    opRun (negOps neg (.at o [] (.num k))) (cell m o j) =
      match k.finish neg j with
      | .error e => .error e
      | .ok j' => .ok (cell m o j') := by
  cases neg with
  | false => rfl
  | true =>
    simp only [negOps, if_true, opRun, NumKind.finish]
    rw [show Store.op (MemOp.neg (.at o [] (.num k))) (cell m o j) =
      (cell m o j).mul (-1) (.at o [] (.num k)) from rfl, mul_cell _ ho]
    cases k.store (j * -1) <;> rfl

theorem int_answers {env : Env} {B mn mx : Nat} (h2 : 2 ≤ B) (h35 : B ≤ 35) {sg neg ds rs rest}
    (hs : Sign sg neg) (hn : sg = [] → ∀ c l', ds ++ rest = c :: l' → c ≠ 43 ∧ c ≠ 45)
    (hrun : LongestRun B mx ds rs rest) {o k} {m : Mem} (ho : o < m.objs.length) :
    Answers env (.int B mn mx) (.at o [] (.num k)) m (sg ++ (ds ++ rest))
      (match k.signed' B neg rs with
      | .error e => .error e
      | .ok j => .ok (digitRes mn mx 0 ds.length, cell m o j, rest)) := by
  refine .of_parses ?_
  obtain ⟨hsl, hng⟩ := hs.spec hn
  have hc : construct (topParser (.int B mn mx)) (.at o [] (.num k)) (.at o [] (.num k))
      (⟨Cursor.whole (sg ++ (ds ++ rest)), m⟩ : World Cursor Mem) =
      .ok (.int 0 true false, ⟨⟨sg ++ (ds ++ rest), 0, [], true⟩, cell m o 0⟩) := by
    change exec _ (.mem (.zero _) _) _ = _
    rw [exec_mem]
    rw [show Store.op (MemOp.zero (.at o [] (.num k))) m = m.zero (.at o [] (.num k)) from rfl]
    rw [zero_cell ho]
    rfl
  obtain ⟨f, st', hf⟩ := run_int (env := env) (S := []) (t := sg ++ (ds ++ rest)) (i := 0) B mn mx
    (.at o [] (.num k)) (.at o [] (.num k)) (cell m o 0)
  rw [List.drop_zero, Nat.zero_add, hsl, List.drop_left, hng, hrun.digitRun h2 h35, List.take_left,
    opRun_append, opRun_digits B ho, hrun.digits.values h35] at hf
  cases hx : k.accums B (rs.map Int.ofNat) 0 with
  | error e =>
    rw [hx] at hf
    simp only [NumKind.signed', hx]
    exact Parses.of_error hc hf (accums_no_fuel hx)
  | ok j =>
    rw [hx] at hf
    simp only [opRun_neg ho] at hf
    simp only [NumKind.signed', hx]
    cases hy : k.finish neg j with
    | error e =>
      rw [hy] at hf
      exact Parses.of_error hc hf (finish_no_fuel hy)
    | ok j' =>
      rw [hy] at hf
      have := Parses.of_run hc hf
      rwa [← List.drop_drop, List.drop_left, List.drop_left] at this

theorem int_answers_nil {env : Env} {B mn mx : Nat} (h2 : 2 ≤ B) (h35 : B ≤ 35) {sg neg ds rs rest}
    (hs : Sign sg neg) (hn : sg = [] → ∀ c l', ds ++ rest = c :: l' → c ≠ 43 ∧ c ≠ 45)
    (hrun : LongestRun B mx ds rs rest) {m : Mem} :
    Answers env (.int B mn mx) .nil m (sg ++ (ds ++ rest))
      (.ok (digitRes mn mx 0 ds.length, m, rest)) := by
  refine .of_parses ?_
  obtain ⟨hsl, hng⟩ := hs.spec hn
  obtain ⟨f, st', hf⟩ := run_int (env := env) (S := []) (t := sg ++ (ds ++ rest)) (i := 0) B mn mx
    .nil .nil m
  rw [List.drop_zero, Nat.zero_add, hsl, List.drop_left, hng, hrun.digitRun h2 h35, List.take_left,
    opRun_append, opRun_digits_nil] at hf
  have hneg : opRun (negOps neg .nil) m = .ok m := by cases neg <;> rfl
  simp only [hneg] at hf
  have := Parses.of_run (p := .int B mn mx) (m := m) (S1 := []) rfl hf
  rwa [← List.drop_drop, List.drop_left, List.drop_left] at this

theorem digitRes_ok {mn mx n : Nat} (h : mn ≤ n) : digitRes mn mx 0 n = .SUCCESS := by
  unfold digitRes enough
  split
  · rfl
  · rw [if_pos (by omega)]

theorem digitRes_no {mn mx n : Nat} (h : n < mn) (hm : mx = 0 ∨ mn ≤ mx) :
    digitRes mn mx 0 n = .FAILURE := by
  unfold digitRes enough
  rw [if_neg (by omega), if_neg (by omega)]

theorem posFrom_zero (B : Nat) (rs : List Nat) : posFrom B rs 0 = positional B rs := rfl

theorem store_neg {k : NumKind} (hk : k ≠ .signed 0) {n : Nat} {neg : Bool}
    (h : k.inRange n) (h' : k.inRange (withSign neg n)) :
    k.finish neg n = .ok (withSign neg n) := by
  cases neg with
  | false => rfl
  | true =>
    simp only [NumKind.finish, if_true, withSign] at h' ⊢
    rw [Int.mul_neg_one]
    exact NumKind.store_fits hk h'

theorem signed'_fits {k : NumKind} (hk : k ≠ .signed 0) {B : Nat} (hB : 1 ≤ B) {rs : List Nat}
    {neg : Bool} (h : k.inRange (positional B rs)) (h' : k.inRange (withSign neg (positional B rs))) :
    k.signed' B neg rs = .ok (withSign neg (positional B rs)) := by
  have := accums_fits hk hB rs 0 h
  simp only [NumKind.signed']
  rw [show (0 : Int) = ((0 : Nat) : Int) from rfl, this]
  exact store_neg hk h h'

end Abu
