import Verif.Props.Collect
/-
C10, C11: the parsers `uint_` and `int_` with their default base and limits.
-/
namespace Abu

/-- C10: `uint_` reads decimal numbers of any length: whatever number is written, and whatever comes
after it unless it is another digit, it stores this number. -/
theorem C10_uint_reads_decimals (env : Env) (n : Nat) (rest : List Ch) (hr : NoDigitNext 10 rest)
    (dst : Ref) (hd : dst.scalar) (m m' : Mem) (hm : Stores m dst (.num n) m') :
    Answers env uint_ dst m (decimal n ++ rest) (.ok (.SUCCESS, m', rest)) := by
  obtain ⟨rs, h1, h2, h3⟩ := decimal_digits n
  rw [← h2] at hm
  exact C10_uint_success env 10 1 0 (by decide) (by decide) _ _ rs
    ⟨h1, fun h => absurd rfl h, .inr hr⟩ (List.length_pos_iff.2 h3) dst hd m m' hm

/-- C10: `uint_` fails unless there is a digit. -/
theorem C10_uint_needs_a_digit (env : Env) (t : List Ch) (ht : NoDigitNext 10 t) (dst : Ref)
    (hd : dst.scalar) (m m' : Mem) (hm : Stores m dst (.num 0) m') :
    Answers env uint_ dst m t (.ok (.FAILURE, m', t)) :=
  C10_uint_failure env 10 1 0 (by decide) (by decide) (.inl rfl) [] t []
    ⟨.nil, fun h => absurd rfl h, .inr ht⟩ (by decide) dst hd m m' hm

/-- C11: `int_` reads decimal numbers of any length with a sign or without. -/
theorem C11_int_reads_decimals (env : Env) (sg : List Ch) (neg : Bool) (hs : Sign sg neg) (n : Nat)
    (rest : List Ch) (hr : NoDigitNext 10 rest) (dst : Ref) (hd : dst.scalar) (m m' m1 : Mem)
    (hm : Stores m dst (.num (withSign neg n)) m') (hfit : Stores m dst (.num n) m1) :
    Answers env int_ dst m (sg ++ (decimal n ++ rest)) (.ok (.SUCCESS, m', rest)) := by
  obtain ⟨rs, h1, h2, h3⟩ := decimal_digits n
  rw [← h2] at hm hfit
  refine C11_int_success env 10 1 0 (by decide) (by decide) sg neg hs _ _ rs ?_
    ⟨h1, fun h => absurd rfl h, .inr hr⟩ (List.length_pos_iff.2 h3) dst hd m m' m1 hm hfit
  intro _ x l h
  cases hdd : decimal n with
  | nil => exact absurd hdd h3
  | cons y ys =>
    rw [hdd] at h
    cases h
    have := decimal_first _ _ _ hdd
    omega

/-- C11: `int_` fails when no digit comes after the sign. -/
theorem C11_int_needs_a_digit (env : Env) (sg : List Ch) (neg : Bool) (hs : Sign sg neg)
    (t : List Ch) (ht : NoDigitNext 10 t) (hn : sg = [] → ∀ c l, t = c :: l → c ≠ 43 ∧ c ≠ 45)
    (dst : Ref) (hd : dst.scalar) (m m' : Mem) (hm : Stores m dst (.num 0) m') :
    Answers env int_ dst m (sg ++ t) (.ok (.FAILURE, m', t)) := by
  refine C11_int_failure env 10 1 0 (by decide) (by decide) (.inl rfl) sg neg hs [] t []
    (by simpa using hn) ⟨.nil, fun h => absurd rfl h, .inr ht⟩ (by decide) dst hd m m' m' ?_ hm
  cases neg <;> exact hm

theorem noDigit_x : NoDigitNext 10 [120] := by
  rintro c t' ⟨⟩
  refine ⟨by decide, fun r hr h => ?_⟩
  rw [isDigitSymbol_iff r _ (by omega), if_pos (by omega)] at h
  omega

/-- `uint_` on "1204x" -/
example : Answers noRecur uint_ (.at 0 [] .int) ⟨[.num 7], []⟩ (decimal 1204 ++ [120])
    (.ok (.SUCCESS, ⟨[.num 1204], []⟩, [120])) :=
  C10_uint_reads_decimals _ 1204 [120] noDigit_x _ (by intro o p t h; cases h) _ _
    (.value (m := ⟨[.num 7], []⟩) (o := 0) (v := .num (1204 : Nat)) (fun t h => by cases h)
      ⟨by simp, by decide⟩ rfl)
example : decimal 1204 = [49, 50, 48, 52] := by simp [decimal]

/-- `uint_` on "x" -/
example : Answers noRecur uint_ (.at 0 [] .int) ⟨[.num 7], []⟩ [120]
    (.ok (.FAILURE, ⟨[.num 0], []⟩, [120])) :=
  C10_uint_needs_a_digit _ _ noDigit_x _ (by intro o p t h; cases h) _ _
    (.value (m := ⟨[.num 7], []⟩) (o := 0) (v := .num 0) (fun t h => by cases h)
      ⟨by simp, by decide⟩ rfl)

/-- `int_` on "-1204x" -/
example : Answers noRecur int_ (.at 0 [] .int) ⟨[.num 7], []⟩ ([45] ++ (decimal 1204 ++ [120]))
    (.ok (.SUCCESS, ⟨[.num (-1204)], []⟩, [120])) :=
  C11_int_reads_decimals _ [45] true .minus 1204 [120] noDigit_x _ (by intro o p t h; cases h) _ _ _
    (.value (m := ⟨[.num 7], []⟩) (o := 0) (v := .num (-1204)) (fun t h => by cases h)
      ⟨by simp, by decide⟩ rfl)
    (.value (m := ⟨[.num 7], []⟩) (o := 0) (v := .num (1204 : Nat)) (fun t h => by cases h)
      ⟨by simp, by decide⟩ rfl)

/-- `int_` on "-x" -/
example : Answers noRecur int_ (.at 0 [] .int) ⟨[.num 7], []⟩ ([45] ++ [120])
    (.ok (.FAILURE, ⟨[.num 0], []⟩, [120])) :=
  C11_int_needs_a_digit _ [45] true .minus _ noDigit_x (by intro h; cases h) _
    (by intro o p t h; cases h) _ _
    (.value (m := ⟨[.num 7], []⟩) (o := 0) (v := .num 0) (fun t h => by cases h)
      ⟨by simp, by decide⟩ rfl)

end Abu
