import Verif.Proofs.CalculatorMain
/-
C85: the program around the calculator.
-/
namespace Abu

/-- C85 (partial: a line that starts with an expression and goes on differently is answered with the value
of the longest expression that it starts with, see `C85_refuted`; expressions must have a value): the
program asks for a line, prints the right reply and starts over, until there is an empty line or no more
input. -/
theorem C85_replies_partial (inp : List Ch) (ls : List (List Ch)) (rs : List Printed) (hl : Lines inp ls)
    (hc : ∀ c ∈ inp, IsChar c) (hr : Replies ls rs) : CalcMain inp (dialogue rs) none :=
  .replies hl hc hr

/-- C85: a line that is an expression is answered with its value, whatever the lines before were and
whatever comes after it. -/
theorem C85_expression (e : Arith) (l : List Ch) (v : Int) (hc : ∀ c ∈ l, IsChar c) (hl : 10 ∉ l)
    (h : Written .sum e l) (hv : e.value = some v) (inp : List Ch) (out : List Printed) (err : Option Err)
    (hi : CalcMain inp out err) : CalcMain (l ++ 10 :: inp) (.prompt :: .value v :: out) err := by
  obtain ⟨m, ha, hv, _⟩ := C43_whole_text e l v hc h hv ⟨[.num 0], []⟩ 0 (by simp)
  have hg := getLine_append (s := inp) hl
  exact .value (by rw [hg]; exact h.ne_nil) (by rw [hg]; exact ha.1) hv (by rw [hg]; exact hi)

/-- C85: if it has no value, the behaviour of the program is undefined. -/
theorem C85_undefined (e : Arith) (l : List Ch) (hc : ∀ c ∈ l, IsChar c) (hl : 10 ∉ l)
    (h : Written .sum e l) (hv : e.value = none) (inp : List Ch) :
    ∃ err, (err = .ubOverflow ∨ err = .ubUninit) ∧ CalcMain (l ++ 10 :: inp) [.prompt] (some err) := by
  have hg := getLine_append (s := inp) hl
  obtain ⟨err, he, ha⟩ := C43_whole_undefined e l hc h hv ⟨[.num 0], []⟩ 0 (by simp)
  exact ⟨err, he, .error (by rw [hg]; exact h.ne_nil) (by rw [hg]; exact ha.1)⟩

/-- C85, for every input: the replies are right, up to the end or to a line in which an expression without a
value is met, where the behaviour is undefined. -/
theorem C85_every_input (inp : List Ch) (hc : ∀ c ∈ inp, IsChar c) :
    ∃ answered others rs err, Lines inp (answered ++ others) ∧ Rights answered rs ∧
      CalcMain inp (dialogue rs) err ∧
      ((err = none ∧ others = []) ∨ (∃ e l more, (e = .ubOverflow ∨ e = .ubUninit) ∧ err = some e ∧
        others = l :: more ∧ ∃ a, Meets l a ∧ a.value = none)) :=
  calcMain_every _ inp (Nat.le_refl _) hc

/-- C85: the behaviour of the program is defined exactly if every expression met in the lines has a value. -/
theorem C85_defined_iff (inp : List Ch) (ls : List (List Ch)) (hc : ∀ c ∈ inp, IsChar c) (hl : Lines inp ls) :
    (∃ out, CalcMain inp out none) ↔ ∀ l ∈ ls, ∀ e, Meets l e → e.value.isSome := by
  constructor
  · rintro ⟨out, h⟩
    exact h.meets rfl hc hl
  · intro h
    obtain ⟨answered, others, rs, err, h1, _, h3, ⟨rfl, _⟩ | ⟨_, l, more, _, _, rfl, a, ha, hv⟩⟩ := C85_every_input inp hc
    · exact ⟨_, h3⟩
    · have := h l (by rw [hl.unique _ (Nat.le_refl _) h1]; simp) a ha
      rw [hv] at this
      cases this

/-- C85: then every line has the right reply. -/
theorem C85_right_if_defined (inp : List Ch) (ls : List (List Ch)) (hc : ∀ c ∈ inp, IsChar c) (hl : Lines inp ls)
    (hm : ∀ l ∈ ls, ∀ e, Meets l e → e.value.isSome) :
    ∃ rs, Rights ls rs ∧ CalcMain inp (dialogue rs) none := by
  obtain ⟨answered, others, rs, err, h1, h2, h3, ⟨rfl, rfl⟩ | ⟨_, l, more, _, _, rfl, a, ha, hv⟩⟩ := C85_every_input inp hc
  · rw [List.append_nil] at h1
    exact ⟨rs, by rw [hl.unique _ (Nat.le_refl _) h1]; exact h2, h3⟩
  · have := hm l (by rw [hl.unique _ (Nat.le_refl _) h1]; simp) a ha
    rw [hv] at this
    cases this

/-- C85: the program ends on every input, and prints one thing only. -/
theorem C85_ends (inp : List Ch) : ∃ out e, CalcMain inp out e ∧
    ∀ out' e', CalcMain inp out' e' → out' = out ∧ e' = e := by
  obtain ⟨out, e, h⟩ := calcMain_ends _ inp (Nat.le_refl _)
  exact ⟨out, e, h, fun _ _ h' => h'.unique h⟩

/-- C85 is false as stated: `1 +(` is not an expression, and 1 is printed. -/
theorem C85_refuted : ¬ ∀ (l : List Ch), l ≠ [] → 10 ∉ l → (∀ c ∈ l, IsChar c) → ¬ IsExpr l →
    CalcMain l [.prompt, .failure, .prompt] none := by
  intro h
  have h := h [49, 32, 43, 40] (by simp) (by decide) (by decide) ?_
  · have h2 := C85_replies_partial [49, 32, 43, 40] [[49, 32, 43, 40]] [.value 1] (.last (by simp) (by decide))
      (by decide) (.cons (.value exRest rfl exRest_inner) .nil)
    have := (h.unique h2).1
    simp [dialogue] at this
  · rintro ⟨w, e, s, w', h1, h2, h3, h4⟩
    have h5 := exRest.longest w e s w' h1 h2 h3
    have h6 := congrArg List.length h1
    simp only [List.length_append, List.length_cons, List.length_nil] at h5 h6
    have h7 : (40 : Ch) ∈ w ++ (s ++ w') := by rw [← h1]; simp
    have h8 : (43 : Ch) ∈ w ++ (s ++ w') := by rw [← h1]; simp
    simp only [List.mem_append] at h7 h8
    have b : ∀ {x : Ch} {u : List Ch}, Blanks u → x ≠ 32 → x ∉ u := fun hb hx hm => hx (hb _ hm)
    have h7 := (h7.resolve_left (b h2 (by decide))).resolve_right (b h4 (by decide))
    have h8 := (h8.resolve_left (b h2 (by decide))).resolve_right (b h4 (by decide))
    match s with
    | [] => cases h7
    | [x] =>
      simp only [List.mem_singleton] at h7 h8
      rw [← h7] at h8
      exact absurd h8 (by decide)
    | _ :: _ :: _ => simp at h5

/-! Examples: the lines `8 - 2*3 / ( 1 - 3 )`, `1 +(` and `(1`, an empty line, and something after it. -/

example : CalcMain (exSumText ++ 10 :: ([49, 32, 43, 40] ++ 10 :: ([40, 49] ++ 10 :: 10 :: [55])))
    [.prompt, .value 11, .prompt, .value 1, .prompt, .failure, .prompt] none := by
  refine C85_expression exSum exSumText 11 (by decide) (by decide) exSum_written (by decide) _ _ _ ?_
  exact C85_replies_partial _ [[49, 32, 43, 40], [40, 49]] [.value 1, .failure]
    (.line (by simp) (by decide) (.line (by simp) (by decide) .blank)) (by decide)
    (.cons (.value exRest rfl exRest_inner) (.cons (.failure exOpen exOpen_inner) .nil))

/-- `5 +(1/0)` and `99999999999` -/
example : ∃ err, CalcMain (exBadText ++ [10, 55]) [.prompt] (some err) :=
  (C85_undefined exBad exBadText (by decide) (by decide) exBad_written (by decide) [55]).imp fun _ h => h.2
example : ∃ err, CalcMain (exBigText ++ [10, 55]) [.prompt] (some err) :=
  (C85_undefined exBig exBigText (by decide) (by decide) exBig_written (by decide) [55]).imp fun _ h => h.2

/-- `(1/0`, which is no expression -/
example : ¬ ∃ out, CalcMain [40, 49, 47, 48] out none := by
  rw [C85_defined_iff _ [[40, 49, 47, 48]] (by decide) (.last (by simp) (by decide))]
  exact fun h => absurd (h _ (by simp) _ exVain) (by decide)

/-- After a line with a value. -/
example : ∃ err, CalcMain (exSumText ++ 10 :: (exBadText ++ [10, 55])) [.prompt, .value 11, .prompt] (some err) := by
  obtain ⟨err, _, h⟩ := C85_undefined exBad exBadText (by decide) (by decide) exBad_written (by decide) [55]
  exact ⟨err, C85_expression exSum exSumText 11 (by decide) (by decide) exSum_written (by decide) _ _ _ h⟩

/-- The last line without a newline. -/
example : CalcMain [40, 49] [.prompt, .failure, .prompt] none :=
  C85_replies_partial _ [[40, 49]] [.failure] (.last (by simp) (by decide)) (by decide)
    (.cons (.failure exOpen exOpen_inner) .nil)

example : CalcMain [] [.prompt] none := C85_replies_partial [] [] [] .done (by simp) .nil

end Abu
