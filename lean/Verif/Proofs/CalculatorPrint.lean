import Verif.Spec.CalculatorPrint
import Verif.Proofs.CalculatorText
/-
Printed expressions are ways to write them.
-/
namespace Abu

theorem decimal_symbol {r : Nat} (h : r < 10) : IsDigitSymbol r (48 + r) := by
  have : ∀ r, r < 10 → ∃ h : r < lowerDigits.length, (48 + r : Int) = (lowerDigits[r].toNat : Int) := by decide
  exact .inl (this r h)

theorem decimal_positional (n : Nat) : ∃ rs, DigitString 10 (decimal n) rs ∧ positional 10 rs = n := by
  induction n using Nat.strongRecOn with
  | ind n ih =>
    unfold decimal
    split
    · rename_i h
      exact ⟨[n], .cons h (decimal_symbol h) .nil, by simp [positional]⟩
    · rename_i h
      obtain ⟨rs, h1, h2⟩ := ih (n / 10) (by omega)
      have h3 : n % 10 < 10 := by omega
      refine ⟨rs ++ [n % 10], digitString_snoc h1 h3 (decimal_symbol h3), ?_⟩
      have : positional 10 (rs ++ [n % 10]) = positional 10 rs * 10 + n % 10 := by simp [positional]
      rw [this, h2]
      omega

theorem decimal_nonempty (n : Nat) : decimal n ≠ [] := by
  unfold decimal
  split <;> simp

theorem written_written (i : Int) : Written .primary (.num i) (written i) := by
  obtain ⟨rs, h1, h2⟩ := decimal_positional i.natAbs
  unfold written
  split
  · have := Written.num .minus h1 (decimal_nonempty _)
    rw [h2, show withSign true i.natAbs = i by simp only [withSign, if_true]; omega] at this
    exact this
  · have := Written.num .none h1 (decimal_nonempty _)
    rw [h2, show withSign false i.natAbs = i by simp [withSign]; omega] at this
    exact this

theorem Written.lift {e s} (h : Written .primary e s) : ∀ L, Written L e s
  | .primary => h
  | .product => .operand (by decide) h
  | .sum => .operand (by decide) (.operand (by decide) h)

theorem Op.level_has (op : Op) : op.level.has op := by cases op <;> rfl

theorem Written.admit {L L' e s} (h : Written L' e s) (ha : L.admits L' = true) : Written L e s := by
  cases L <;> cases L' <;>
    first
      | exact h
      | cases ha; done
      | exact .operand (by decide) h
      | exact .operand (by decide) (.operand (by decide) h)

theorem Arith.print_written (e : Arith) : ∀ L, Written L e (e.print L) := by
  induction e with
  | num i => intro L; exact (written_written i).lift L
  | bin op a b iha ihb =>
    intro L
    have n : Blanks [] := by simp [Blanks]
    have h := Written.bin (w1 := []) (w2 := []) op.level_has (iha op.level) n n (ihb op.level.inner)
    simp only [List.append_nil, List.nil_append] at h
    unfold Arith.print
    split
    · rename_i ha
      exact h.admit ha
    · have h2 : Written .sum (.bin op a b) _ := h.admit rfl
      have := Written.paren n h2 n
      simp only [List.append_nil, List.nil_append] at this
      exact this.lift L

theorem Written.range {L e s} (h : Written L e s) : ∀ c ∈ s, 32 ≤ c ∧ c ≤ 57 := by
  induction h with
  | num hs hd _ =>
    intro c hc
    rcases List.mem_append.1 hc with hc | hc
    · cases hs <;> simp at hc <;> omega
    · have := hd.range c hc; omega
  | @paren e s w1 w2 hw1 _ hw2 ih =>
    intro c hc
    simp only [List.mem_cons, List.mem_append, List.not_mem_nil, or_false] at hc
    rcases hc with rfl | ((hc | hc) | hc) | rfl
    · omega
    · have := hw1 c hc; omega
    · exact ih c hc
    · have := hw2 c hc; omega
    · omega
  | operand _ _ ih => exact ih
  | @bin L op a b s u w1 w2 _ _ hw1 hw2 _ iha ihb =>
    intro c hc
    simp only [List.mem_cons, List.mem_append] at hc
    rcases hc with (hc | hc) | rfl | hc | hc
    · exact iha c hc
    · have := hw1 c hc; omega
    · cases op <;> simp [Op.symbol]
    · have := hw2 c hc; omega
    · exact ihb c hc

theorem Arith.print_range (e : Arith) (L : Prec) : ∀ c ∈ e.print L, 32 ≤ c ∧ c ≤ 57 :=
  (e.print_written L).range

theorem Arith.print_chars (e : Arith) (L : Prec) : ∀ c ∈ e.print L, IsChar c := fun c hc => by
  have := e.print_range L c hc
  unfold IsChar
  omega

theorem Arith.print_line (e : Arith) (L : Prec) : 10 ∉ e.print L := fun h => by
  have := e.print_range L 10 h
  omega

theorem digits_bound {ds rs} (h : DigitString 10 ds rs) : ∀ acc : Nat,
    rs.foldl (fun n r => n * 10 + r) acc + 1 ≤ (acc + 1) * 10 ^ ds.length := by
  induction h with
  | nil => intro acc; simp
  | @cons c r ds rs hr _ _ ih =>
    intro acc
    have h1 := ih (acc * 10 + r)
    have h2 : (acc * 10 + r + 1) * 10 ^ ds.length ≤ (acc + 1) * 10 * 10 ^ ds.length :=
      Nat.mul_le_mul_right _ (by omega)
    simp only [List.foldl_cons, List.length_cons, Nat.pow_succ]
    rw [Nat.mul_comm (10 ^ ds.length) 10, ← Nat.mul_assoc]
    omega

theorem decimal_short : ∀ (k n : Nat), n < 10 ^ (k + 1) → (decimal n).length ≤ k + 1 := by
  intro k
  induction k with
  | zero =>
    intro n h
    unfold decimal
    rw [if_pos (by simpa using h)]
    simp
  | succ k ih =>
    intro n h
    unfold decimal
    split
    · simp
    · have := ih (n / 10) (by rw [Nat.pow_succ] at h; omega)
      simp
      omega

theorem decimal_shortest {ds rs} (h : DigitString 10 ds rs) (hn : ds ≠ []) :
    (decimal (positional 10 rs)).length ≤ ds.length := by
  have h1 := digits_bound h 0
  cases hk : ds.length with
  | zero => exact absurd (List.length_eq_zero_iff.1 hk) hn
  | succ k =>
    rw [hk] at h1
    exact decimal_short k _ (by simp only [positional]; omega)

theorem written_shortest {sg neg ds rs} (hs : Sign sg neg) (h : DigitString 10 ds rs) (hn : ds ≠ []) :
    (written (withSign neg (positional 10 rs))).length ≤ (sg ++ ds).length := by
  have h1 := decimal_shortest h hn
  cases hs <;> simp only [withSign, written, Bool.false_eq_true, if_false, if_true, Int.natAbs_natCast, Int.natAbs_neg] <;>
    split <;> simp <;> omega

theorem Arith.print_inner (e : Arith) (L : Prec) : (e.print L).length ≤ (e.print L.inner).length := by
  cases e with
  | num i => exact Nat.le_refl _
  | bin op a b => cases L <;> cases op <;> simp [Arith.print, Prec.inner, Op.level, Prec.admits] <;> omega

theorem Arith.print_paren (e : Arith) : (e.print .primary).length ≤ (e.print .sum).length + 2 := by
  cases e with
  | num i => exact Nat.le_add_right _ _
  | bin op a b => cases op <;> simp [Arith.print, Op.level, Prec.admits] <;> omega

theorem Written.print_shortest {L e s} (h : Written L e s) : (e.print L).length ≤ s.length := by
  induction h with
  | num hs hd hn => exact written_shortest hs hd hn
  | @paren e s w1 w2 _ _ _ ih =>
    have := e.print_paren
    simp
    omega
  | @operand L e s _ _ ih => exact Nat.le_trans (e.print_inner L) ih
  | @bin L op a b s u w1 w2 ho _ _ _ _ iha ihb =>
    have hl : op.level = L := by cases L <;> cases op <;> first | rfl | (cases ho; done)
    have ha : L.admits L = true := by cases L <;> first | rfl | (cases op <;> cases ho; done)
    unfold Arith.print
    rw [hl, if_pos ha]
    simp
    omega

end Abu
