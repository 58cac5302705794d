import Verif.Proofs.GuideNested
import Verif.Props.Grammar
import Verif.Props.NilDst
/-
C52: the recursive example of the user guide.
-/
namespace Abu

theorem guideEnv_plain : guideEnv.plain := by
  intro id q h
  unfold guideEnv at h
  split at h <;> cases h
  decide

theorem guideEnv_forNil : guideEnv.forNil true (fun _ => true) := by
  intro id q _ h
  unfold guideEnv at h
  split at h <;> cases h
  decide

/-- What the grammar says happens with `nil`. -/
theorem nested_nil {p : Pat} (hp : p = guideNested ∨ p = .recur 0 false) {t o}
    (h : PegRest guideEnv p t o) :
    Yields guideEnv p t o ∧ ∀ m : Mem, ∃ r m' rest, Answers guideEnv p .nil m t (.ok (r, m', rest)) ∧
      Fits o r rest ∧ m'.objs = m.objs := by
  have h1 : Yields guideEnv p t o :=
    (C15_plain_grammars_partial guideEnv p guideEnv_plain (by rcases hp with rfl | rfl <;> decide) t o).2 h
  have h2 : p.forNil true (fun _ => true) = true := by rcases hp with rfl | rfl <;> decide
  refine ⟨h1, fun m => ?_⟩
  rcases h1 .nil m with ⟨r, m', rest, h3, h4⟩ | ⟨e, h3, h4⟩
  · exact ⟨r, m', rest, .of_parses h3, h4, (C48_nothing_is_generated_partial _ _ _ _ _ _ guideEnv_forNil h2 _ _).1 t h3 |>.1⟩
  · exact absurd h3 ((C48_nil_is_accepted_partial _ _ m _ _ guideEnv_forNil h2 e).1 t h4)

/-! ### C52 -/

/-- C52: if the text starts with a number or a list in parentheses, nested as deep as one likes,
the recursive example of the guide succeeds and consumes exactly that, whatever the destination;
with `nil` it writes nothing and has no other outcome, however the text arrives. -/
theorem C52_nested (p : Pat) (hp : p = guideNested ∨ p = .recur 0 false) (s rest : List Ch)
    (ht : ∀ c ∈ s ++ rest, IsChar c) (h : Nested s) (hn : ∀ n, Numeral n s → NoDigitNext 10 rest) :
    Yields guideEnv p (s ++ rest) (some rest) ∧
      ∀ m : Mem, ∃ m', Answers guideEnv p .nil m (s ++ rest) (.ok (.SUCCESS, m', rest)) ∧ m'.objs = m.objs := by
  have h1 := h.peg ht (i := 0) (rest := rest) rfl hn
  have h2 : PegRest guideEnv p (s ++ rest) (some rest) := by
    refine ⟨0 + s.length, ?_, by simp⟩
    rcases hp with rfl | rfl
    · exact h1
    · exact h1.nestedR
  obtain ⟨h3, h4⟩ := nested_nil hp h2
  refine ⟨h3, fun m => ?_⟩
  obtain ⟨r, m', rest', h5, h6, h7⟩ := h4 m
  cases h6
  exact ⟨m', h5, h7⟩

/-- C52: otherwise it fails. -/
theorem C52_not_nested (p : Pat) (hp : p = guideNested ∨ p = .recur 0 false) (t : List Ch)
    (ht : ∀ c ∈ t, IsChar c) (h : ∀ s rest, t = s ++ rest → ¬ Nested s) :
    Yields guideEnv p t none ∧
      ∀ m : Mem, ∃ m' rest, Answers guideEnv p .nil m t (.ok (.FAILURE, m', rest)) ∧ m'.objs = m.objs := by
  have h1 : Peg guideEnv t guideNested 0 none := by
    rcases nested_total ht _ 0 (Nat.le_refl _) with ⟨s, rest, h1, h2, -⟩ | h1
    · exact absurd h2 (h s rest h1)
    · exact h1
  have h2 : PegRest guideEnv p t none := by
    rcases hp with rfl | rfl
    · exact h1
    · exact h1.nestedR
  obtain ⟨h3, h4⟩ := nested_nil hp h2
  refine ⟨h3, fun m => ?_⟩
  obtain ⟨r, m', rest', h5, h6, h7⟩ := h4 m
  cases h6
  exact ⟨m', rest', h5, h7⟩

/-- C52: a text starts with such a thing, a number with all of its digits, or with none. -/
theorem C52_every_text (t : List Ch) (ht : ∀ c ∈ t, IsChar c) :
    (∃ s rest, t = s ++ rest ∧ Nested s ∧ ∀ n, Numeral n s → NoDigitNext 10 rest) ∨
      ∀ s rest, t = s ++ rest → ¬ Nested s := by
  by_cases h : ∃ s rest, t = s ++ rest ∧ Nested s ∧ ∀ n, Numeral n s → NoDigitNext 10 rest
  · exact .inl h
  refine .inr fun s rest e hs => h ?_
  subst e
  by_cases hn : ∃ n, Numeral n s
  · obtain ⟨n, sg, neg, ds, rs, h1, hd, hne, rfl, rfl⟩ := hn
    obtain ⟨es, qs, rest, rfl, he, hr⟩ := exists_digits rest fun c hc => ht c (by simp [hc])
    have ha : DigitString 10 (ds ++ es) (rs ++ qs) := by
      clear hne hs ht h
      induction hd with
      | nil => exact he
      | cons hr hc _ ih => exact .cons hr hc ih
    exact ⟨sg ++ (ds ++ es), rest, by simp, .number ⟨sg, neg, _, _, h1, ha, by simp [hne], rfl, rfl⟩, fun _ _ => hr⟩
  · exact ⟨s, rest, rfl, hs, fun n h => absurd ⟨n, h⟩ hn⟩

/-- C52: and in one way only. -/
theorem C52_one_reading {s s' rest rest' : List Ch} (ht : ∀ c ∈ s ++ rest, IsChar c) (e : s ++ rest = s' ++ rest')
    (h : Nested s) (hn : ∀ n, Numeral n s → NoDigitNext 10 rest) (h' : Nested s')
    (hn' : ∀ n, Numeral n s' → NoDigitNext 10 rest') : s = s' := by
  obtain ⟨m1, h1, _⟩ := (C52_nested guideNested (.inl rfl) s rest ht h hn).2 ⟨[], []⟩
  obtain ⟨m2, h2, _⟩ := (C52_nested guideNested (.inl rfl) s' rest' (e ▸ ht) h' hn').2 ⟨[], []⟩
  rw [← e] at h2
  have h3 := h1.unique h2
  simp only [Except.ok.injEq, Prod.mk.injEq, true_and] at h3
  obtain ⟨_, rfl⟩ := h3
  exact List.append_cancel_right e

/-- "(1,(-2,()),3)" -/
theorem exNestedList : Nested [40, 49, 44, 40, 45, 50, 44, 40, 41, 41, 44, 51, 41] := by
  have hd : ∀ r : Nat, r < 10 → DigitString 10 [((48 + r : Nat) : Int)] [r] := fun r hr =>
    .cons hr (by rw [isDigitSymbol_iff _ _ (by omega), if_pos (by omega)]; omega) .nil
  have h1 : Nested [49] := .number ⟨[], _, _, _, .none, hd 1 (by omega), by simp, rfl, rfl⟩
  have h2 : Nested [45, 50] := .number ⟨[45], _, _, _, .minus, hd 2 (by omega), by simp, rfl, rfl⟩
  have h3 : Nested [51] := .number ⟨[], _, _, _, .none, hd 3 (by omega), by simp, rfl, rfl⟩
  have h4 : Nested [40, 45, 50, 44, 40, 41, 41] := .list (.more h2 (.one .empty))
  exact .list (.more h1 (.more h4 (.one h3)))

/-- It is no number. -/
theorem exNestedList_number {n l} : ¬ Numeral n (40 :: l) := by
  rintro ⟨sg, neg, ds, rs, hs, hd, -, -, h⟩
  have hd' : ∀ c l, ds = c :: l → c ≠ 40 := by
    rintro c l rfl
    cases hd with
    | cons hr hc _ => have := digit_range hr hc; omega
  cases hs with
  | none => exact absurd rfl (hd' 40 _ h.symm)
  | plus => cases h
  | minus => cases h

/-- Followed by "7". -/
example : ∃ m', Answers guideEnv guideNested .nil ⟨[.num 5], []⟩
    [40, 49, 44, 40, 45, 50, 44, 40, 41, 41, 44, 51, 41, 55] (.ok (.SUCCESS, m', [55])) ∧ m'.objs = [.num 5] :=
  (C52_nested guideNested (.inl rfl) _ [55] (by decide) exNestedList fun _ h => absurd h exNestedList_number).2 _

/-- There is no other way to read it. -/
example {s rest} (h : Nested s) (hn : ∀ n, Numeral n s → NoDigitNext 10 rest)
    (e : [40, 49, 44, 40, 45, 50, 44, 40, 41, 41, 44, 51, 41] ++ [55] = s ++ rest) :
    [40, 49, 44, 40, 45, 50, 44, 40, 41, 41, 44, 51, 41] = s :=
  C52_one_reading (by decide) e exNestedList (fun _ h => absurd h exNestedList_number) h hn

theorem Nested.close {s : List Ch} (h : Nested s) : ∀ l, s = 40 :: l → 41 ∈ l := by
  intro l e
  cases h with
  | number h =>
    obtain ⟨sg, neg, ds, rs, hs, hd, hne, -, rfl⟩ := h
    cases hs with
    | none =>
      cases hd with
      | nil => exact absurd rfl hne
      | cons hr hc _ =>
        have := digit_range hr hc
        simp only [List.nil_append, List.cons.injEq] at e
        omega
    | plus => cases e
    | minus => cases e
  | empty => cases e; simp
  | list h => cases e; simp

/-- "(1,2" is no list. -/
example : ∃ m' rest, Answers guideEnv (.recur 0 false) .nil ⟨[], []⟩ [40, 49, 44, 50]
    (.ok (.FAILURE, m', rest)) ∧ m'.objs = [] :=
  (C52_not_nested _ (.inr rfl) [40, 49, 44, 50] (by decide) (fun s rest e h => by
    cases s with
    | nil =>
      cases h with
      | number h =>
        obtain ⟨sg, neg, ds, rs, hs, hd, hne, -, h⟩ := h
        simp at h
        exact hne h.2
    | cons c s =>
      simp only [List.cons_append, List.cons.injEq] at e
      obtain ⟨rfl, e⟩ := e
      have h1 := h.close s rfl
      have h2 : 41 ∈ ([49, 44, 50] : List Ch) := by rw [e]; simp [h1]
      simp at h2)).2 _

end Abu
