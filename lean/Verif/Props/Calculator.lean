import Verif.Proofs.CalculatorUnique
import Verif.Proofs.CalculatorAll
import Verif.Proofs.Answers
import Verif.Proofs.Eval
/-
C43: the calculator of the examples.
-/
namespace Abu

/-- C43: if the text starts with an expression, the calculator succeeds, has consumed the longest one
and computed its value. -/
theorem C43_value (t w : List Ch) (e : Arith) (s rest : List Ch) (v : Int) (ht : ∀ c ∈ t, IsChar c)
    (h : LongestExpr t w e s rest) (hv : e.value = some v) (hr : InnerValues rest) (m : Mem) (o : Nat)
    (ho : o < m.objs.length) :
    ∃ m', Answers calcEnv calculator (.at o [] .int) m t (.ok (.SUCCESS, m', rest)) ∧
      m'.objs[o]? = some (.num v) ∧
      ∀ o', o' < m.objs.length → o' ≠ o → m'.objs[o']? = m.objs[o']? := by
  have hsplit := h.split
  have hsuf : rest <:+ t := ⟨w ++ s, by rw [hsplit]; simp⟩
  have hmore : NoOperation rest := h.noMore fun t' _ h2 h3 =>
    noExpr_of (Nat.le_refl _) (fun c hc => ht c ((h2.trans hsuf).mem hc)) (hr.suffix h2) h3
  have h0 : t.drop 0 = w ++ (s ++ rest) := hsplit
  have h1 := drop_add h0
  have h2 := drop_add h1
  obtain ⟨hs1, hs2⟩ := hmore.stuck ht _ h2
  have hlev := h.written.means hv h1 ht (h.whole ht) hs1
  have hlead := lead_blanks h0 h.blanks (h.written.lead h1)
  obtain ⟨x, hx⟩ : ∃ x, m.objs[o]? = some x := ⟨_, List.getElem?_eq_getElem ho⟩
  obtain ⟨m', h3, y, y', e1, e2, e3, e4⟩ := hlev.ends (bnd := .at o [] .int) hs2 hlead.end_at
    (m := m) (o := o) (p := []) ⟨x, x, hx, rfl⟩
  refine ⟨m', ?_, ?_, e4⟩
  · have h4 := (Ends.withSkipper (recur_ends (j := 0) hlead h3)).does
    rw [← elab_top] at h4
    have h5 := Answers.of_parses h4.parses
    rwa [h2] at h5
  · rw [e3]
    simpa [Val.update] using e2.symm

/-- C43: otherwise it fails and nothing has changed. -/
theorem C43_no_expression (t : List Ch) (ht : ∀ c ∈ t, IsChar c) (h : ¬ StartsWithExpr t)
    (hr : InnerValues t) (m : Mem) (o : Nat) (ho : o < m.objs.length) :
    ∃ m' rest, Answers calcEnv calculator (.at o [] .int) m t (.ok (.FAILURE, m', rest)) ∧
      ∀ o', o' < m.objs.length → m'.objs[o']? = m.objs[o']? := by
  have hn : NoExpr t := noExpr_of (Nat.le_refl _) ht hr fun w e s rest h1 h2 h3 =>
    h ⟨w, e, s, rest, h1, h2, h3.sum⟩
  obtain ⟨k, h1, h2⟩ := hn.fails ht 0 rfl
  obtain ⟨i', m', h3, h4⟩ := level_fails (ops := [43, 45, 0]) (m := m) (o := o) (p := []) (bnd := .at o [] .int)
    (h2.level (ops := [42, 47, 0])) h1.end_at
  have h5 := (Ends.withSkipper (recur_ends (j := 0) h1 h3)).does
  rw [← elab_top] at h5
  exact ⟨m', _, Answers.of_parses h5.parses, h4⟩

/-- C43, for a text that is an expression as a whole. -/
theorem C43_whole_text (e : Arith) (s : List Ch) (v : Int) (ht : ∀ c ∈ s, IsChar c)
    (h : Written .sum e s) (hv : e.value = some v) (m : Mem) (o : Nat) (ho : o < m.objs.length) :
    ∃ m', Answers calcEnv calculator (.at o [] .int) m s (.ok (.SUCCESS, m', [])) ∧
      m'.objs[o]? = some (.num v) ∧
      ∀ o', o' < m.objs.length → o' ≠ o → m'.objs[o']? = m.objs[o']? := by
  refine C43_value s [] e s [] v ht ⟨by simp, by simp [Blanks], h, ?_⟩ hv ?_ m o ho
  · intro w' e' s' rest' h1 _ _
    rw [h1]; simp; omega
  · intro a t' w e s rest h1
    simp at h1

/-- C43, for every text: an expression without a value is met and the behaviour is undefined; or the calculator
has consumed the longest expression and computed its value; or there is no expression, it fails and nothing
has changed. -/
theorem C43_every_text (t : List Ch) (ht : ∀ c ∈ t, IsChar c) (m : Mem) (o : Nat) (ho : o < m.objs.length) :
    ((∃ e, Meets t e ∧ e.value = none) ∧ ∃ err, (err = .ubOverflow ∨ err = .ubUninit) ∧
      Answers calcEnv calculator (.at o [] .int) m t (.error err)) ∨
    (∃ w e s rest v m', LongestExpr t w e s rest ∧ e.value = some v ∧
      Answers calcEnv calculator (.at o [] .int) m t (.ok (.SUCCESS, m', rest)) ∧
      m'.objs[o]? = some (.num v) ∧
      ∀ o', o' < m.objs.length → o' ≠ o → m'.objs[o']? = m.objs[o']?) ∨
    (¬ StartsWithExpr t ∧ ∃ m' rest, Answers calcEnv calculator (.at o [] .int) m t (.ok (.FAILURE, m', rest)) ∧
      ∀ o', o' < m.objs.length → m'.objs[o']? = m.objs[o']?) := by
  by_cases hs : StartsWithExpr t
  · obtain ⟨w, e, s, rest, h⟩ := hs.longest
    have hsplit := h.split
    have hsuf : rest <:+ t := ⟨w ++ s, by rw [hsplit]; simp⟩
    have h0 : t.drop 0 = w ++ (s ++ rest) := hsplit
    have h1 := drop_add h0
    have h2 := drop_add h1
    obtain ⟨hs1, hs2⟩ := h.stuck? (U := ∃ e, Meets t e ∧ e.value = none) ht (fun u _ h3 h4 h5 =>
      h4.fails ht (Nat.le_refl _) (fun c hc => ht c ((h3.trans hsuf).mem hc))
        fun e he hv => ⟨e, h5 e he, hv⟩) _ h2
    have hlev := h.written.means? h1 ht (h.whole ht) hs1
    have hlead := lead_blanks h0 h.blanks (h.written.lead h1)
    obtain ⟨x, hx⟩ : ∃ x, m.objs[o]? = some x := ⟨_, List.getElem?_eq_getElem ho⟩
    rcases hlev.ends (bnd := .at o [] .int) hs2 hlead.end_at
      (m := m) (o := o) (p := []) ⟨x, x, hx, rfl⟩ with ⟨m', h3, v, hv, y, y', e1, e2, e3, e4⟩ | ⟨hu, h3⟩
    · refine .inr (.inl ⟨w, e, s, rest, v, m', h, hv, ?_, ?_, e4⟩)
      · have h4 := (Ends.withSkipper (recur_ends (j := 0) hlead h3)).does
        rw [← elab_top] at h4
        have h5 := Answers.of_parses h4.parses
        rwa [h2] at h5
      · rw [e3]
        simpa [Val.update] using e2.symm
    · have h4 := Dies.withSkipper (recur_dies (j := 0) hlead h3)
      rw [← elab_top] at h4
      obtain ⟨err, h5, h6⟩ := h4.parses
      exact .inl ⟨hu.elim (fun hv => ⟨e, .here h, hv⟩) id, err, h5, .of_parses h6⟩
  · have hn : Primaryless t := fun w e s rest h1 h2 h3 => hs ⟨w, e, s, rest, h1, h2, h3.sum⟩
    obtain ⟨k, h1, h2⟩ := hn.fails (U := ∃ e, Meets t e ∧ e.value = none) ht (Nat.le_refl _) ht
      (fun e he hv => ⟨e, he, hv⟩) 0 rfl
    rcases level_fails? (ops := [43, 45, 0]) (m := m) (o := o) (p := []) (bnd := .at o [] .int)
      (h2.level (ops := [42, 47, 0])) h1.end_at with ⟨i', m', h3, h4⟩ | ⟨hu, h3⟩
    · have h5 := (Ends.withSkipper (recur_ends (j := 0) h1 h3)).does
      rw [← elab_top] at h5
      exact .inr (.inr ⟨hs, m', _, .of_parses h5.parses, h4⟩)
    · have h4 := Dies.withSkipper (recur_dies (j := 0) h1 h3)
      rw [← elab_top] at h4
      obtain ⟨err, h5, h6⟩ := h4.parses
      exact .inl ⟨hu, err, h5, .of_parses h6⟩

/-- C43: the behaviour is defined exactly if every expression that is met has a value. -/
theorem C43_defined_iff (t : List Ch) (ht : ∀ c ∈ t, IsChar c) (m : Mem) (o : Nat) (ho : o < m.objs.length) :
    (∃ r m' rest, Answers calcEnv calculator (.at o [] .int) m t (.ok (r, m', rest))) ↔
      ∀ e, Meets t e → e.value.isSome := by
  constructor
  · rintro ⟨r, m', rest, h⟩ e he
    cases hv : e.value with
    | some v => rfl
    | none =>
      obtain ⟨k, h1, h2, _⟩ := he.dies ht hv 0 rfl
      obtain ⟨x, hx⟩ : ∃ x, m.objs[o]? = some x := ⟨_, List.getElem?_eq_getElem ho⟩
      have h3 := h2 k m o [] (.at o [] .int) h1.end_at ⟨x, x, hx, rfl⟩
      have h4 := Dies.withSkipper (recur_dies (j := 0) h1 h3)
      rw [← elab_top] at h4
      obtain ⟨err, _, h6⟩ := h4.parses
      cases h.unique (.of_parses h6)
  · intro h
    rcases C43_every_text t ht m o ho with ⟨⟨e, he, hv⟩, _⟩ | ⟨w, e, s, rest, v, m', _, _, h', _⟩ | ⟨_, m', rest, h', _⟩
    · have := h e he
      rw [hv] at this
      cases this
    · exact ⟨_, _, _, h'⟩
    · exact ⟨_, _, _, h'⟩

/-- C43: in particular, the longest expression must have a value. -/
theorem C43_undefined (t w : List Ch) (e : Arith) (s rest : List Ch) (ht : ∀ c ∈ t, IsChar c)
    (h : LongestExpr t w e s rest) (hv : e.value = none) (m : Mem) (o : Nat) (ho : o < m.objs.length) :
    ∃ err, (err = .ubOverflow ∨ err = .ubUninit) ∧
      Answers calcEnv calculator (.at o [] .int) m t (.error err) := by
  have key : ¬ ∃ r m' rest, Answers calcEnv calculator (.at o [] .int) m t (.ok (r, m', rest)) := by
    rw [C43_defined_iff t ht m o ho]
    intro h'
    have := h' e (.here h)
    rw [hv] at this
    cases this
  rcases C43_every_text t ht m o ho with ⟨_, h'⟩ | ⟨_, _, _, _, _, _, _, _, h', _⟩ | ⟨_, _, _, h', _⟩
  · exact h'
  · exact absurd ⟨_, _, _, h'⟩ key
  · exact absurd ⟨_, _, _, h'⟩ key

/-- C43: whatever the text, when the calculator succeeds it has computed the right number. -/
theorem C43_never_wrong (t : List Ch) (ht : ∀ c ∈ t, IsChar c) (m : Mem) (o : Nat) (ho : o < m.objs.length)
    (m' : Mem) (rest : List Ch)
    (h : Answers calcEnv calculator (.at o [] .int) m t (.ok (.SUCCESS, m', rest))) :
    ∃ w e s v, LongestExpr t w e s rest ∧ e.value = some v ∧ m'.objs[o]? = some (.num v) := by
  rcases C43_every_text t ht m o ho with
    ⟨_, err, _, h'⟩ | ⟨w, e, s, rest', v, m2, h1, hv, h', h2, _⟩ | ⟨_, m2, rest', h', _⟩
  · cases h.unique h'
  · cases h.unique h'
    exact ⟨w, e, s, v, h1, hv, h2⟩
  · cases h.unique h'

/-- C43: and it does not fail where there is an expression. -/
theorem C43_failure_means_none (t : List Ch) (ht : ∀ c ∈ t, IsChar c) (m : Mem) (o : Nat) (ho : o < m.objs.length)
    (m' : Mem) (rest : List Ch)
    (h : Answers calcEnv calculator (.at o [] .int) m t (.ok (.FAILURE, m', rest))) : ¬ StartsWithExpr t := by
  rcases C43_every_text t ht m o ho with
    ⟨_, err, _, h'⟩ | ⟨w, e, s, rest', v, m2, h1, hv, h', h2, _⟩ | ⟨h', _⟩
  · cases h.unique h'
  · cases h.unique h'
  · exact h'

/-- `8 - 2*3 / ( 1 - 3 )` -/
def exSum : Arith :=
  .bin .sub (.num 8) (.bin .div (.bin .mul (.num 2) (.num 3)) (.bin .sub (.num 1) (.num 3)))
def exSumText : List Ch :=
  [56, 32, 45, 32, 50, 42, 51, 32, 47, 32, 40, 32, 49, 32, 45, 32, 51, 32, 41]

theorem digit_written {r : Nat} {c : Ch} (hr : r < 10) (hc : IsDigitSymbol r c) :
    Written .primary (.num r) [c] := by
  have := Written.num .none (.cons hr hc .nil) (by simp)
  simpa [withSign, positional] using this

theorem exSum_written : Written .sum exSum exSumText := by
  have d : ∀ {r : Nat} (hr : r < 10), Written .primary (.num r) [(lowerDigits[r]'(by
      rw [show lowerDigits.length = 36 from rfl]; omega)).toNat] := fun hr =>
    digit_written hr (.inl ⟨_, rfl⟩)
  have e : ∀ {e s}, Written .primary e s → Written .product e s := fun h => .operand (by decide) h
  have f : ∀ {e s}, Written .product e s → Written .sum e s := fun h => .operand (by decide) h
  have b : Blanks [32] := by simp [Blanks]
  have n : Blanks [] := by simp [Blanks]
  exact .bin rfl (f (e (d (r := 8) (by omega)))) b b (.bin rfl (.bin rfl (e (d (r := 2) (by omega))) n n
    (d (r := 3) (by omega))) b b
    (.paren b (.bin rfl (f (e (d (r := 1) (by omega)))) b b (e (d (r := 3) (by omega)))) b))

example : exSum.value = some 11 := by decide
example : ∀ c ∈ exSumText, IsChar c := by decide
example : ∃ m', Answers calcEnv calculator (.at 0 [] .int) ⟨[.num 7], []⟩ exSumText
    (.ok (.SUCCESS, m', [])) ∧ m'.objs[0]? = some (.num 11) := by
  obtain ⟨m', h1, h2, _⟩ := C43_whole_text exSum exSumText 11 (by decide) exSum_written (by decide)
    ⟨[.num 7], []⟩ 0 (by decide)
  exact ⟨m', h1, h2⟩

/-- `5 +(1/0)` and `99999999999`. -/
def exBad : Arith := .bin .add (.num 5) (.bin .div (.num 1) (.num 0))
def exBadText : List Ch := [53, 32, 43, 40, 49, 47, 48, 41]
def exBig : Arith := .num 99999999999
def exBigText : List Ch := [57, 57, 57, 57, 57, 57, 57, 57, 57, 57, 57]

theorem exBad_written : Written .sum exBad exBadText := by
  have n : Blanks [] := by simp [Blanks]
  have e : ∀ {e s}, Written .primary e s → Written .product e s := fun h => .operand (by decide) h
  have f : ∀ {e s}, Written .product e s → Written .sum e s := fun h => .operand (by decide) h
  have h0 := digit_written (r := 0) (c := 48) (by omega) (.inl ⟨by decide, rfl⟩)
  have h1 := digit_written (r := 1) (c := 49) (by omega) (.inl ⟨by decide, rfl⟩)
  have h5 := digit_written (r := 5) (c := 53) (by omega) (.inl ⟨by decide, rfl⟩)
  have h := Written.bin (L := .sum) (op := .add) (w1 := [32]) (w2 := []) rfl (f (e h5)) (by simp [Blanks]) n
    (e (.paren n (f (.bin (op := .div) rfl (e h1) n n h0)) n))
  simpa [exBad, exBadText, Op.symbol] using h

theorem exBig_written : Written .sum exBig exBigText := by
  have h : Written .primary _ ([] ++ exBigText) := Written.num .none (rs := [9, 9, 9, 9, 9, 9, 9, 9, 9, 9, 9]) (by
    repeat first
      | exact .nil
      | refine .cons (by decide) (.inl ⟨by decide, rfl⟩) ?_) (by decide)
  exact .operand (by decide) (.operand (by decide) h)

/-- C43, for a text that is an expression as a whole and has no value. -/
theorem C43_whole_undefined (e : Arith) (s : List Ch) (ht : ∀ c ∈ s, IsChar c) (h : Written .sum e s)
    (hv : e.value = none) (m : Mem) (o : Nat) (ho : o < m.objs.length) :
    ∃ err, (err = .ubOverflow ∨ err = .ubUninit) ∧
      Answers calcEnv calculator (.at o [] .int) m s (.error err) := by
  refine C43_undefined s [] e s [] ht ⟨by simp, by simp [Blanks], h, ?_⟩ hv m o ho
  intro w' e' s' rest' h1 _ _
  rw [h1]; simp; omega

example : exBad.value = none ∧ exBig.value = none := by decide
example : ∃ err, Answers calcEnv calculator (.at 0 [] .int) ⟨[.num 7], []⟩ exBadText (.error err) :=
  (C43_whole_undefined exBad exBadText (by decide) exBad_written (by decide) ⟨[.num 7], []⟩ 0 (by decide)).imp
    fun _ h => h.2

/-- `(1/0` is no expression, yet the behaviour is undefined. -/
theorem exVain : Meets [40, 49, 47, 48] (.bin .div (.num 1) (.num 0)) := by
  have n : Blanks [] := by simp [Blanks]
  have h0 := digit_written (r := 0) (c := 48) (by omega) (.inl ⟨by decide, rfl⟩)
  have h1 := digit_written (r := 1) (c := 49) (by omega) (.inl ⟨by decide, rfl⟩)
  have h : Written .product _ _ :=
    .bin (op := .div) (w1 := []) (w2 := []) rfl (.operand (by decide) h1) n n h0
  refine .paren (.here (w := []) (s := [49, 47, 48]) (rest := []) ⟨rfl, n, .operand (by decide) h, ?_⟩)
  intro w' e' s' rest' h1 _ _
  have := congrArg List.length h1
  simp at this
  simp
  omega
example : ¬ ∃ r m' rest, Answers calcEnv calculator (.at 0 [] .int) ⟨[.num 7], []⟩ [40, 49, 47, 48]
    (.ok (r, m', rest)) := by
  rw [C43_defined_iff _ (by decide) _ _ (by decide)]
  exact fun h => absurd (h _ exVain) (by decide)
example (e : Arith) (h : Meets exSumText e) : e.value.isSome := by
  obtain ⟨m', h1, _⟩ := C43_whole_text exSum exSumText 11 (by decide) exSum_written (by decide)
    ⟨[.num 7], []⟩ 0 (by decide)
  exact (C43_defined_iff exSumText (by decide) ⟨[.num 7], []⟩ 0 (by decide)).1 ⟨_, _, _, h1⟩ e h

example : ∃ w e s, LongestExpr exSumText w e s [] ∧ e.value = some 11 := by
  obtain ⟨m', h1, h2, _⟩ := C43_whole_text exSum exSumText 11 (by decide) exSum_written (by decide)
    ⟨[.num 7], []⟩ 0 (by decide)
  obtain ⟨w, e, s, v, h3, h4, h5⟩ := C43_never_wrong exSumText (by decide) ⟨[.num 7], []⟩ 0 (by decide) m' [] h1
  rw [h2] at h5
  cases h5
  exact ⟨w, e, s, h3, h4⟩

/-- `1 +(` starts with the expression `1`; what remains is `' +('`. -/
theorem exRest : LongestExpr [49, 32, 43, 40] [] (.num 1) [49] [32, 43, 40] := by
  refine ⟨rfl, by simp [Blanks], (digit_written (r := 1) (by omega) (.inl ⟨by decide, rfl⟩)).sum, ?_⟩
  intro w' e' s' rest' h1 h2 h3
  obtain ⟨u, c, rfl, hc⟩ := h3.last
  cases w' with
  | cons a w' =>
    have : a = 32 := h2 a (by simp)
    subst this
    simp at h1
  | nil =>
    match u with
    | [] => simp
    | [a] => simp at h1; omega
    | [a, b] => simp at h1; omega
    | [a, b, d] => simp at h1; omega
    | a :: b :: d :: f :: u => simp at h1

theorem exRest_inner : InnerValues [32, 43, 40] := by
  intro a t' w e s rest h1 h2
  have h3 := congrArg List.length h2.split
  obtain ⟨c, s', h4, _⟩ := h2.written.head
  have h5 : t' = [] := by
    match a with
    | [] => simp at h1
    | [_] => simp at h1
    | [_, _] => simp at h1; exact h1.2.2
    | _ :: _ :: _ :: _ => simp at h1
  rw [h4, h5] at h3
  simp at h3

/-- No expression: `(1` -/
theorem exOpen : ¬ StartsWithExpr [40, 49] := by
  rintro ⟨w, e, s, rest, h1, h2, h3⟩
  cases w with
  | cons a w' =>
    have : a = 32 := h2 a (by simp)
    subst this
    simp at h1
  | nil =>
    have hb := h3.balanced
    match s with
    | [] => exact h3.ne_nil rfl
    | [a] => simp at h1; obtain ⟨rfl, _⟩ := h1; simp at hb
    | [a, b] => simp at h1; obtain ⟨rfl, rfl, _⟩ := h1; simp at hb
    | a :: b :: d :: u => simp at h1

theorem exOpen_inner : InnerValues [40, 49] := by
  intro a t' w e s rest h1 h2
  have h5 : t' = [49] := by
    match a with
    | [] => simp at h1; exact h1.symm
    | [_] => simp at h1
    | _ :: _ :: _ => simp at h1
  subst h5
  have h3 := h2.split
  have hw : w = [] := by
    cases w with
    | nil => rfl
    | cons a w' =>
      have : a = 32 := h2.blanks a (by simp)
      subst this
      simp at h3
  subst hw
  have hs : s = [49] := by
    match s with
    | [] => exact absurd rfl h2.written.ne_nil
    | [a] => simp at h3; rw [h3.1]
    | _ :: _ :: _ => simp at h3
  subst hs
  have no_bin : ∀ {op : Op} {s w1 w2 u : List Ch}, s ≠ [] → s ++ w1 ++ op.symbol :: (w2 ++ u) ≠ [49] := by
    intro op s w1 w2 u hs h
    have := congrArg List.length h
    simp at this
    exact hs (List.length_eq_zero_iff.1 (by omega))
  generalize hx : ([49] : List Ch) = x at h2
  have h6 := h2.written
  clear h2 h3 h1
  cases h6 with
  | bin _ h _ _ _ => exact absurd hx.symm (no_bin h.ne_nil)
  | operand _ h6 =>
    generalize hL : Prec.sum.inner = L at h6
    cases h6 with
    | num => cases hL
    | paren => cases hL
    | bin _ h _ _ _ => exact absurd hx.symm (no_bin h.ne_nil)
    | operand _ h6 =>
      subst hL
      generalize hL : Prec.sum.inner.inner = L at h6
      cases h6 with
      | @num sg neg ds rs hs hds hne =>
        have : positional 10 rs < 10 := by
          cases hds with
          | nil => exact absurd rfl hne
          | @cons c r ds rs hr _ hds =>
            cases hds with
            | nil => simpa [positional] using hr
            | cons _ _ _ =>
              have := congrArg List.length hx
              simp at this
              omega
        have hn : (withSign neg (positional 10 rs)).natAbs < 10 := by
          cases neg <;> simp [withSign] <;> omega
        simp only [Arith.value]
        rw [if_pos (by simp [fitsInt]; omega)]
        rfl
      | paren => simp at hx
      | operand h => exact absurd hL.symm h
      | bin _ h _ _ _ => exact absurd hx.symm (no_bin h.ne_nil)

/-- C43: a text is a way to write one expression only. -/
theorem C43_one_expression (e e' : Arith) (s : List Ch) (h : Written .sum e s) (h' : Written .sum e' s) : e = e' :=
  h.unique h'

example (e : Arith) (h : Written .sum e exSumText) : e = exSum := C43_one_expression _ _ _ h exSum_written

/-- C43, with the exact condition: if every expression that is met has a value and the text starts with an
expression, the calculator consumes the longest one and computes its value. -/
theorem C43_value_exact (t w : List Ch) (e : Arith) (s rest : List Ch) (ht : ∀ c ∈ t, IsChar c)
    (h : LongestExpr t w e s rest) (hm : ∀ e', Meets t e' → e'.value.isSome) (m : Mem) (o : Nat)
    (ho : o < m.objs.length) :
    ∃ v m', e.value = some v ∧ Answers calcEnv calculator (.at o [] .int) m t (.ok (.SUCCESS, m', rest)) ∧
      m'.objs[o]? = some (.num v) ∧
      ∀ o', o' < m.objs.length → o' ≠ o → m'.objs[o']? = m.objs[o']? := by
  rcases C43_every_text t ht m o ho with ⟨⟨a, ha, hv⟩, _⟩ | ⟨w', e', s', rest', v, m', h1, h2, h3, h4, h5⟩ | ⟨hn, _⟩
  · have := hm a ha
    rw [hv] at this
    cases this
  · obtain ⟨rfl, rfl, rfl⟩ := h.same h1
    refine ⟨v, m', ?_, h3, h4, h5⟩
    rw [← h2, C43_one_expression e e' s h.written h1.written]
  · exact absurd ⟨w, e, s, rest, h.split, h.blanks, h.written⟩ hn

/-- C43: and otherwise it fails and nothing has changed. -/
theorem C43_no_expression_exact (t : List Ch) (ht : ∀ c ∈ t, IsChar c) (h : ¬ StartsWithExpr t)
    (hm : ∀ e, Meets t e → e.value.isSome) (m : Mem) (o : Nat) (ho : o < m.objs.length) :
    ∃ m' rest, Answers calcEnv calculator (.at o [] .int) m t (.ok (.FAILURE, m', rest)) ∧
      ∀ o', o' < m.objs.length → m'.objs[o']? = m.objs[o']? := by
  rcases C43_every_text t ht m o ho with ⟨⟨a, ha, hv⟩, _⟩ | ⟨w, e, s, rest, _, _, h1, _⟩ | ⟨_, h'⟩
  · have := hm a ha
    rw [hv] at this
    cases this
  · exact absurd ⟨w, e, s, rest, h1.split, h1.blanks, h1.written⟩ h
  · exact h'

/-! Both hypotheses are met by `1 +(` and `(1`. -/

example (e : Arith) (h : Meets [49, 32, 43, 40] e) : e.value.isSome := by
  obtain ⟨m', h1, _⟩ := C43_value _ _ _ _ _ 1 (by decide) exRest rfl exRest_inner ⟨[.num 7], []⟩ 0 (by decide)
  exact (C43_defined_iff _ (by decide) ⟨[.num 7], []⟩ 0 (by decide)).1 ⟨_, _, _, h1⟩ e h
example (e : Arith) (h : Meets [40, 49] e) : e.value.isSome := by
  obtain ⟨m', rest, h1, _⟩ := C43_no_expression _ (by decide) exOpen exOpen_inner ⟨[.num 7], []⟩ 0 (by decide)
  exact (C43_defined_iff _ (by decide) ⟨[.num 7], []⟩ 0 (by decide)).1 ⟨_, _, _, h1⟩ e h

end Abu
