import Verif.Proofs.CalculatorRun
/-
Texts with and without expressions.
-/
namespace Abu

theorem Blanks.append {w w' : List Ch} (h : Blanks w) (h' : Blanks w') : Blanks (w ++ w') := by
  intro c hc
  rcases List.mem_append.1 hc with hc | hc
  · exact h c hc
  · exact h' c hc

theorem digitString_snoc {B ds rs c r} (h : DigitString B ds rs) (hr : r < B) (hc : IsDigitSymbol r c) :
    DigitString B (ds ++ [c]) (rs ++ [r]) := by
  induction h with
  | nil => exact .cons hr hc .nil
  | cons h1 h2 _ ih => exact .cons h1 h2 ih

theorem append_last {a b s : List Ch} {c : Ch} (hb : b ≠ []) (h : a ++ b = s ++ [c]) : ∃ b', b = b' ++ [c] := by
  refine ⟨b.dropLast, ?_⟩
  have h1 : (a ++ b).getLast (by simp [hb]) = c := by simp [h]
  rw [List.getLast_append_of_ne_nil _ hb] at h1
  rw [← h1, List.dropLast_concat_getLast]

/-- One more digit. -/
theorem Written.digit {L e s} (h : Written L e s) {d r} (hr : r < 10) (hd : IsDigitSymbol r d) :
    ∀ {s' c r'}, s = s' ++ [c] → r' < 10 → IsDigitSymbol r' c → ∃ e', Written L e' (s ++ [d]) := by
  induction h with
  | num hs hds hne =>
    intro s' c r' _ _ _
    rw [List.append_assoc]
    exact ⟨_, .num hs (digitString_snoc hds hr hd) (by simp)⟩
  | @paren e s w1 w2 _ _ _ _ =>
    intro s' c r' h1 h2 h3
    exfalso
    have := append_last (a := 40 :: (w1 ++ s ++ w2)) (b := [41]) (by simp) h1
    obtain ⟨b', hb⟩ := this
    have : c = 41 := by
      cases b' with
      | nil => simpa using hb.symm
      | cons a l => simp at hb
    exact (symbol_noDigit (.inl this)).2.2 r' h2 h3
  | operand hL _ ih =>
    intro s' c r' h1 h2 h3
    obtain ⟨e', he⟩ := ih h1 h2 h3
    exact ⟨e', .operand hL he⟩
  | @bin L op a b s u w1 w2 hop ha hw1 hw2 hb _ ih =>
    intro s' c r' h1 h2 h3
    obtain ⟨u', hu⟩ := append_last (a := s ++ w1 ++ op.symbol :: w2) (b := u) hb.ne_nil (by simpa using h1)
    obtain ⟨e', he⟩ := ih hu h2 h3
    refine ⟨.bin op a e', ?_⟩
    have := Written.bin hop ha hw1 hw2 he
    simpa using this

/-- One more operation. -/
theorem Written.extend {e s b u w1 w2} {op : Op} (h : Written .sum e s) (hw1 : Blanks w1) (hw2 : Blanks w2)
    (hb : Written .primary b u) : ∃ e', Written .sum e' (s ++ w1 ++ op.symbol :: (w2 ++ u)) := by
  have product : ∀ {a s}, Prec.product.has op → Written .product a s →
      Written .product (.bin op a b) (s ++ w1 ++ op.symbol :: (w2 ++ u)) :=
    fun hop ha => .bin hop ha hw1 hw2 hb
  by_cases hs : Prec.sum.has op
  · exact ⟨_, .bin hs h hw1 hw2 (.operand (by decide) hb)⟩
  · have hp : Prec.product.has op := by revert hs; cases op <;> simp [Prec.has]
    cases h with
    | operand _ h => exact ⟨_, .operand (by simp) (product hp h)⟩
    | @bin _ op1 a b1 s u1 v1 v2 hop ha hv1 hv2 hb1 =>
      refine ⟨.bin op1 a (.bin op b1 b), ?_⟩
      have := Written.bin hop ha hv1 hv2 (product hp hb1)
      simpa using this

theorem Written.sum {e s} (h : Written .primary e s) : Written .sum e s :=
  .operand (by decide) (.operand (by decide) h)

/-- If a text starts with an expression, it starts with a longest one. -/
theorem StartsWithExpr.longest {t} (h : StartsWithExpr t) : ∃ w e s rest, LongestExpr t w e s rest := by
  have key : ∀ n, ∀ w e s rest, t = w ++ (s ++ rest) → Blanks w → Written .sum e s →
      t.length - s.length ≤ n → ∃ w e s rest, LongestExpr t w e s rest := by
    intro n
    induction n with
    | zero =>
      intro w e s rest h1 h2 h3 h4
      refine ⟨w, e, s, rest, h1, h2, h3, fun w' e' s' rest' h _ _ => ?_⟩
      have : t.length = w'.length + (s'.length + rest'.length) := by rw [h]; simp
      omega
    | succ n ih =>
      intro w e s rest h1 h2 h3 h4
      by_cases h : ∃ w' e' s' rest', t = w' ++ (s' ++ rest') ∧ Blanks w' ∧ Written .sum e' s' ∧
          s.length < s'.length
      · obtain ⟨w', e', s', rest', g1, g2, g3, g4⟩ := h
        refine ih w' e' s' rest' g1 g2 g3 ?_
        have : t.length = w'.length + (s'.length + rest'.length) := by rw [g1]; simp
        omega
      · refine ⟨w, e, s, rest, h1, h2, h3, fun w' e' s' rest' g1 g2 g3 => ?_⟩
        apply Nat.le_of_not_lt
        intro g4
        exact h ⟨w', e', s', rest', g1, g2, g3, g4⟩
  obtain ⟨w, e, s, rest, h1, h2, h3⟩ := h
  exact key _ w e s rest h1 h2 h3 (Nat.le_refl _)

/-- The last number of a longest expression is complete. -/
theorem LongestExpr.whole {t w e s rest} (h : LongestExpr t w e s rest) (hl : ∀ c ∈ t, IsChar c) :
    Whole s rest := by
  intro s' c r hs hr hc d rest' hd
  have hsp := h.split
  refine ⟨hl d (by rw [hsp, hd]; simp), fun r' hr' hd' => ?_⟩
  obtain ⟨e', he⟩ := h.written.digit hr' hd' hs hr hc
  have := h.longest w e' (s ++ [d]) rest' (by rw [hsp, hd]; simp) h.blanks he
  simp at this
  omega

/-- No primary comes next. -/
def Primaryless (t : List Ch) : Prop :=
  ∀ w e s rest, t = w ++ (s ++ rest) → Blanks w → ¬ Written .primary e s

theorem LongestExpr.noMore {t w e s rest} (h : LongestExpr t w e s rest)
    (hc : ∀ t', t'.length < rest.length → t' <:+ rest → Primaryless t' → NoExpr t') : NoOperation rest := by
  refine .intro fun w1 op t' h1 h2 => hc t' ?_ ?_ ?_
  · rw [h1]; simp; omega
  · exact ⟨w1 ++ [op.symbol], by rw [h1]; simp⟩
  · intro w2 b u rest' h3 h4 hb
    obtain ⟨e', he⟩ := h.written.extend (op := op) h2 h4 hb
    have := h.longest w e' _ rest' (by rw [h.split, h1, h3]; simp) h.blanks he
    simp at this
    omega

theorem InnerValues.suffix {t t' : List Ch} (h : InnerValues t) (hs : t' <:+ t) : InnerValues t' := by
  obtain ⟨p, rfl⟩ := hs
  intro a t1 w e s rest h1 h2
  exact h (p ++ a) t1 w e s rest (by rw [h1]; simp) h2

/-- Texts either start with a primary or have a reason not to. -/
theorem noExpr_of {n : Nat} : ∀ {t : List Ch}, t.length ≤ n → (∀ c ∈ t, IsChar c) → InnerValues t →
    Primaryless t → NoExpr t := by
  induction n with
  | zero =>
    intro t hn hl hv hp
    cases t with
    | nil => exact .other (by simp) (by simp)
    | cons c t => simp at hn
  | succ n ih =>
    intro t hn hl hv hp
    cases t with
    | nil => exact .other (by simp) (by simp)
    | cons c t =>
      have hn' : t.length ≤ n := by simpa using hn
      have hl' : ∀ c ∈ t, IsChar c := fun c hc => hl c (List.mem_cons_of_mem _ hc)
      have hv' : InnerValues t := hv.suffix (List.suffix_cons _ _)
      by_cases h32 : c = 32
      · subst h32
        refine .blank (ih hn' hl' hv' fun w e s rest h1 h2 => ?_)
        refine hp (32 :: w) e s rest (by rw [h1]; rfl) fun c hc => ?_
        rcases List.mem_cons.1 hc with rfl | hc
        · rfl
        · exact h2 c hc
      by_cases h40 : c = 40
      · subst h40
        by_cases hs : StartsWithExpr t
        · obtain ⟨w, e, s, rest, h⟩ := hs.longest
          have hsuf : rest <:+ t := ⟨w ++ s, by rw [h.split]; simp⟩
          have hmore : NoOperation rest := h.noMore fun t' h1 h2 h3 =>
            ih (by have := hsuf.length_le; omega) (fun c hc => hl' c ((h2.trans hsuf).mem hc))
              (hv'.suffix (h2.trans hsuf)) h3
          have hsplit := h.split
          subst hsplit
          refine .unclosed h.blanks h.written (hv [] _ w e s rest rfl h) (h.whole hl') hmore ?_
          intro w' t' h1 h2
          refine hp [] e (40 :: (w ++ s ++ w' ++ [41])) t' ?_ (by simp [Blanks]) (.paren h.blanks h.written h2)
          rw [h1]; simp
        · refine .hollow (ih hn' hl' hv' fun w e s rest h1 h2 h3 => hs ⟨w, e, s, rest, h1, h2, h3.sum⟩)
      · refine .other (fun c' t' h => by cases h; exact ⟨h32, h40⟩) fun sg neg d t' h1 h2 r hr hd => ?_
        exact hp [] _ (sg ++ [d]) t' (by rw [h1]; simp) (by simp [Blanks])
          (.num h2 (.cons hr hd .nil) (by simp))

/-! ### For the examples -/

theorem digit_range {r : Nat} {c : Ch} (hr : r < 10) (h : IsDigitSymbol r c) : 48 ≤ c ∧ c ≤ 57 := by
  rw [isDigitSymbol_iff _ _ (by omega)] at h
  split at h <;> omega

theorem DigitString.range {ds rs} (h : DigitString 10 ds rs) : ∀ c ∈ ds, 48 ≤ c ∧ c ≤ 57 := by
  induction h with
  | nil => simp
  | cons hr hc _ ih =>
    intro c h
    rcases List.mem_cons.1 h with rfl | h
    · exact digit_range hr hc
    · exact ih c h

theorem Written.balanced {L e s} (h : Written L e s) : s.count 40 = s.count 41 := by
  have blanks : ∀ {w : List Ch} {c : Ch}, Blanks w → c ≠ 32 → w.count c = 0 := by
    intro w c hw hc
    exact List.count_eq_zero.2 fun h => hc (hw c h)
  induction h with
  | num hs hds _ =>
    have h1 := List.count_eq_zero.2 fun h => absurd (hds.range 40 h).1 (by decide)
    have h2 := List.count_eq_zero.2 fun h => absurd (hds.range 41 h).1 (by decide)
    cases hs <;> simp [List.count_cons, h1, h2]
  | paren h1 _ h2 ih =>
    simp [List.count_cons, ih, blanks h1, blanks h2]
  | operand _ _ ih => exact ih
  | @bin L op a b s u w1 w2 _ _ h1 h2 _ ih1 ih2 =>
    cases op <;> simp [List.count_cons, ih1, ih2, blanks h1, blanks h2, Op.symbol]

theorem Written.last {L e s} (h : Written L e s) : ∃ s' c, s = s' ++ [c] ∧ (c = 41 ∨ 48 ≤ c ∧ c ≤ 57) := by
  induction h with
  | @num sg neg ds rs hs hds hne =>
    obtain ⟨l, c, rfl⟩ : ∃ l c, ds = l ++ [c] := ⟨_, _, (List.dropLast_concat_getLast hne).symm⟩
    exact ⟨sg ++ l, c, by simp, .inr (hds.range c (by simp))⟩
  | @paren e s w1 w2 _ _ _ _ => exact ⟨40 :: (w1 ++ s ++ w2), 41, by simp, .inl rfl⟩
  | operand _ _ ih => exact ih
  | @bin L op a b s u w1 w2 _ _ _ _ _ _ ih =>
    obtain ⟨u', c, rfl, h⟩ := ih
    exact ⟨s ++ w1 ++ op.symbol :: (w2 ++ u'), c, by simp, h⟩

end Abu
