import Verif.Proofs.CalculatorText
/-
A text is a way to write one expression only.
-/
namespace Abu

/-- What can follow, after blanks, a text that holds together at a level and is not continued. -/
def EndsLevel : Prec → Ch → Prop
  | .sum, c => c = 41
  | .product, c => c = 41 ∨ c = 43 ∨ c = 45
  | .primary, c => c = 41 ∨ c = 43 ∨ c = 45 ∨ c = 42 ∨ c = 47

/-- The text does not start with a blank. -/
def NoBlank (x : List Ch) : Prop := ∀ y, x ≠ 32 :: y

/-- A text that holds together at the level is over if this follows. -/
def LevelOver (L : Prec) (r : List Ch) : Prop :=
  ∃ w x, r = w ++ x ∧ Blanks w ∧ (x = [] ∨ ∃ c y, x = c :: y ∧ EndsLevel L c)

theorem EndsLevel.ne {L c} (h : EndsLevel L c) : c ≠ 32 ∧ (c < 48 ∧ c ≠ 40) := by
  cases L <;> simp only [EndsLevel] at h <;> omega

theorem EndsLevel.inner {L c} (h : EndsLevel L c) : EndsLevel L.inner c := by
  cases L <;> simp only [EndsLevel, Prec.inner] at h ⊢ <;> omega

theorem endsLevel_op {L : Prec} {op : Op} (h : L.has op = true) : EndsLevel L.inner op.symbol ∧ ¬ EndsLevel L op.symbol := by
  cases L <;> cases op <;> first | (cases h; done) | simp [EndsLevel, Prec.inner, Op.symbol]

theorem Op.symbol_inj {a b : Op} (h : a.symbol = b.symbol) : a = b := by
  cases a <;> cases b <;> first | rfl | (simp [Op.symbol] at h)

theorem Op.symbol_noBlank (op : Op) (x : List Ch) : NoBlank (op.symbol :: x) := by
  intro y h
  injection h with h _
  cases op <;> simp [Op.symbol] at h

theorem Written.noBlank {L e s} (h : Written L e s) (x : List Ch) : NoBlank (s ++ x) := by
  obtain ⟨c, s', rfl, hc⟩ := h.head
  intro y hy
  injection hy with hy _
  exact hc hy

theorem blanks_same : ∀ {w w' x x' : List Ch}, Blanks w → Blanks w' → NoBlank x → NoBlank x' →
    w ++ x = w' ++ x' → w = w' ∧ x = x'
  | [], [], _, _, _, _, _, _, h => ⟨rfl, h⟩
  | [], c :: w', x, x', _, hw', hx, _, h => by
    have := hw' c (by simp)
    subst this
    exact absurd h (hx _)
  | c :: w, [], x, x', hw, _, _, hx', h => by
    have := hw c (by simp)
    subst this
    exact absurd h.symm (hx' _)
  | c :: w, c' :: w', x, x', hw, hw', hx, hx', h => by
    injection h with h1 h2
    obtain ⟨h3, h4⟩ := blanks_same (fun d hd => hw d (by simp [hd])) (fun d hd => hw' d (by simp [hd])) hx hx' h2
    exact ⟨by rw [h1, h3], h4⟩

theorem LevelOver.inner {L r} (h : LevelOver L r) : LevelOver L.inner r := by
  obtain ⟨w, x, h1, h2, h3⟩ := h
  refine ⟨w, x, h1, h2, h3.imp id ?_⟩
  rintro ⟨c, y, h4, h5⟩
  exact ⟨c, y, h4, h5.inner⟩

theorem LevelOver.not_op {L : Prec} {op : Op} {w x} (h : LevelOver L (w ++ op.symbol :: x)) (hw : Blanks w)
    (ho : L.has op = true) : False := by
  obtain ⟨w', x', h1, h2, h3⟩ := h
  have hx' : NoBlank x' := by
    rcases h3 with rfl | ⟨c, y, rfl, h5⟩
    · intro y h; cases h
    · intro z h
      injection h with h _
      exact h5.ne.1 h
  obtain ⟨_, h4⟩ := blanks_same hw h2 (op.symbol_noBlank x) hx' h1
  rcases h3 with rfl | ⟨c, y, rfl, h5⟩
  · cases h4
  · injection h4 with h4 _
    rw [← h4] at h5
    exact (endsLevel_op ho).2 h5

theorem LevelOver.no_digit {L r} (h : LevelOver L r) : ∀ c y, r = c :: y → c < 48 := by
  obtain ⟨w, x, rfl, hw, h⟩ := h
  intro c y hc
  cases w with
  | nil =>
    rcases h with rfl | ⟨d, z, rfl, h⟩
    · cases hc
    · injection hc with hc _
      rw [← hc]
      exact h.ne.2.1
  | cons d w =>
    injection hc with hc _
    have := hw d (by simp)
    omega

/-- Continuing with operations of the level, `a` on the left. -/
inductive Cont (L : Prec) : Arith → List Ch → Arith → Prop
  | nil {a} : Cont L a [] a
  | cons {a b e op w1 w2 u s} : L.has op = true → Blanks w1 → Blanks w2 → Written L.inner b u →
      Cont L (.bin op a b) s e → Cont L a (w1 ++ op.symbol :: (w2 ++ (u ++ s))) e

theorem Cont.snoc {L a s e op w1 w2 b u} (h : Cont L a s e) (ho : L.has op = true) (h1 : Blanks w1) (h2 : Blanks w2)
    (hb : Written L.inner b u) : Cont L a (s ++ (w1 ++ op.symbol :: (w2 ++ u))) (.bin op e b) := by
  induction h with
  | nil => simpa using Cont.cons ho h1 h2 hb .nil
  | cons g1 g2 g3 g4 _ ih => simpa using Cont.cons g1 g2 g3 g4 ih

theorem Written.cont {L e s} (h : Written L e s) : L ≠ .primary →
    ∃ a s0 s1, s = s0 ++ s1 ∧ Written L.inner a s0 ∧ Cont L a s1 e := by
  induction h with
  | num => intro h; exact absurd rfl h
  | paren => intro h; exact absurd rfl h
  | operand _ h _ => intro _; exact ⟨_, _, [], by simp, h, .nil⟩
  | bin ho _ h1 h2 hb ih _ =>
    intro hL
    obtain ⟨a, s0, s1, rfl, h3, h4⟩ := ih hL
    exact ⟨a, s0, _, by simp, h3, h4.snoc ho h1 h2 hb⟩

theorem digit_same {r r' : Nat} {c : Ch} (h : r < 10) (h' : r' < 10) (hc : IsDigitSymbol r c)
    (hc' : IsDigitSymbol r' c) : r = r' := by
  rw [isDigitSymbol_iff _ _ (by omega)] at hc hc'
  split at hc <;> split at hc' <;> omega

theorem digits_same {ds rs} (h : DigitString 10 ds rs) : ∀ {ds' rs' r r'}, DigitString 10 ds' rs' →
    ds ++ r = ds' ++ r' → (∀ c y, r = c :: y → c < 48) → (∀ c y, r' = c :: y → c < 48) →
    ds = ds' ∧ rs = rs' := by
  induction h with
  | nil =>
    intro ds' rs' r r' h' he hr _
    cases h' with
    | nil => exact ⟨rfl, rfl⟩
    | cons g1 g2 _ =>
      have := hr _ _ he
      have := digit_range g1 g2
      omega
  | cons g1 g2 _ ih =>
    intro ds' rs' r r' h' he hr hr'
    cases h' with
    | nil =>
      have := hr' _ _ he.symm
      have := digit_range g1 g2
      omega
    | cons k1 k2 k3 =>
      injection he with he1 he2
      subst he1
      obtain ⟨a1, a2⟩ := ih k3 he2 hr hr'
      exact ⟨by rw [a1], by rw [a2, digit_same g1 k1 g2 k2]⟩

/-- Texts of the level that start alike and are not continued are the same. -/
def SameUpTo (n : Nat) (L : Prec) : Prop :=
  ∀ {e e' s s' r r'}, (s ++ r).length ≤ n → Written L e s → Written L e' s' → s ++ r = s' ++ r' →
    LevelOver L r → LevelOver L r' → e = e' ∧ s = s'

theorem num_same {sg neg ds rs sg' neg' ds' rs' r r'} (hs : Sign sg neg) (hd : DigitString 10 ds rs) (hn : ds ≠ [])
    (hs' : Sign sg' neg') (hd' : DigitString 10 ds' rs') (hn' : ds' ≠ []) (h : sg ++ ds ++ r = sg' ++ ds' ++ r')
    (hr : LevelOver .primary r) (hr' : LevelOver .primary r') : neg = neg' ∧ rs = rs' ∧ sg ++ ds = sg' ++ ds' := by
  have key : ∀ {ds rs}, DigitString 10 ds rs → ds ≠ [] → ∃ c y, ds = c :: y ∧ 48 ≤ c := by
    intro ds rs hd hn
    cases hd with
    | nil => exact absurd rfl hn
    | cons g1 g2 _ => exact ⟨_, _, rfl, (digit_range g1 g2).1⟩
  obtain ⟨c, y, hc, hc1⟩ := key hd hn
  obtain ⟨c', y', hc', hc1'⟩ := key hd' hn'
  have fin : ds ++ r = ds' ++ r' → ds = ds' ∧ rs = rs' :=
    fun h => digits_same hd hd' h hr.no_digit hr'.no_digit
  cases hs <;> cases hs' <;> simp only [List.nil_append, List.cons_append, List.cons.injEq, true_and] at h ⊢ <;>
    first
      | (obtain ⟨a, b⟩ := fin h; subst a; subst b; simp; done)
      | (exfalso; rw [hc] at h; simp only [List.cons_append, List.cons.injEq] at h; omega)
      | (exfalso; rw [hc'] at h; simp only [List.cons_append, List.cons.injEq] at h; omega)
      | (exfalso; omega)

theorem written_primary {e s} (h : Written .primary e s) :
    (∃ sg neg ds rs, Sign sg neg ∧ DigitString 10 ds rs ∧ ds ≠ [] ∧ e = .num (withSign neg (positional 10 rs)) ∧
      s = sg ++ ds) ∨
    (∃ u w1 w2, Blanks w1 ∧ Written .sum e u ∧ Blanks w2 ∧ s = 40 :: (w1 ++ u ++ w2 ++ [41])) := by
  cases h with
  | num h1 h2 h3 => exact .inl ⟨_, _, _, _, h1, h2, h3, rfl, rfl⟩
  | paren h1 h2 h3 => exact .inr ⟨_, _, _, h1, h2, h3, rfl⟩
  | operand h _ => exact absurd rfl h
  | bin h => cases h

theorem num_head {sg neg ds rs} (hs : Sign sg neg) (hd : DigitString 10 ds rs) (hn : ds ≠ []) {x y : List Ch} :
    sg ++ ds ++ x ≠ 40 :: y := by
  intro h
  cases hd with
  | nil => exact hn rfl
  | cons g1 g2 _ =>
    have := digit_range g1 g2
    cases hs <;> simp only [List.nil_append, List.cons_append, List.cons.injEq] at h <;> omega

theorem same_primary {n} (ih : ∀ k, k < n → SameUpTo k .sum) : SameUpTo n .primary := by
  intro e e' s s' r r' hn h h' he hr hr'
  rcases written_primary h with ⟨sg, neg, ds, rs, h1, h2, h3, rfl, rfl⟩ | ⟨u, w1, w2, h1, h2, h3, rfl⟩
  · rcases written_primary h' with ⟨sg', neg', ds', rs', k1, k2, k3, rfl, rfl⟩ | ⟨u', w1', w2', k1, k2, k3, rfl⟩
    · obtain ⟨rfl, rfl, h4⟩ := num_same h1 h2 h3 k1 k2 k3 he hr hr'
      exact ⟨rfl, h4⟩
    · exact absurd he (num_head h1 h2 h3)
  · rcases written_primary h' with ⟨sg', neg', ds', rs', k1, k2, k3, rfl, rfl⟩ | ⟨u', w1', w2', k1, k2, k3, rfl⟩
    · exact absurd he.symm (num_head k1 k2 k3)
    · have nb : ∀ x : List Ch, NoBlank (41 :: x) := by
        intro x y h
        injection h with h _
        simp at h
      simp only [List.cons_append, List.append_assoc, List.nil_append, List.cons.injEq, true_and] at he
      obtain ⟨rfl, he2⟩ := blanks_same h1 k1 (h2.noBlank _) (k2.noBlank _) he
      obtain ⟨rfl, rfl⟩ := ih (u ++ (w2 ++ 41 :: r)).length (by simp at hn ⊢; omega) (Nat.le_refl _) h2 k2 he2
        ⟨w2, _, rfl, h3, .inr ⟨41, _, rfl, rfl⟩⟩ ⟨w2', _, rfl, k3, .inr ⟨41, _, rfl, rfl⟩⟩
      obtain ⟨rfl, _⟩ := blanks_same h3 k3 (nb _) (nb _) (List.append_cancel_left he2)
      exact ⟨rfl, rfl⟩

theorem Cont.after {L a s e r} (h : Cont L a s e) (hr : LevelOver L r) : LevelOver L.inner (s ++ r) := by
  cases h with
  | nil => exact hr.inner
  | @cons _ b _ op w1 w2 u s g1 g2 g3 g4 g5 =>
    exact ⟨w1, op.symbol :: (w2 ++ (u ++ s)) ++ r, by simp, g2, .inr ⟨_, _, rfl, (endsLevel_op g1).1⟩⟩

theorem Cont.same {n L a s e} (h : Cont L a s e) (ih : SameUpTo n L.inner) : ∀ {s' e' r r'}, (s ++ r).length ≤ n →
    Cont L a s' e' → s ++ r = s' ++ r' → LevelOver L r → LevelOver L r' → e = e' ∧ s = s' := by
  induction h with
  | nil =>
    intro s' e' r r' _ h' he hr _
    cases h' with
    | nil => exact ⟨rfl, rfl⟩
    | cons g1 g2 _ _ _ =>
      simp only [List.nil_append, List.append_assoc, List.cons_append] at he
      rw [he] at hr
      exact (hr.not_op g2 g1).elim
  | @cons a b e op w1 w2 u s g1 g2 g3 g4 g5 ih2 =>
    intro s' e' r r' hn h' he hr hr'
    cases h' with
    | nil =>
      simp only [List.nil_append, List.append_assoc, List.cons_append] at he
      rw [← he] at hr'
      exact (hr'.not_op g2 g1).elim
    | @cons _ b' _ op' w1' w2' u' s' k1 k2 k3 k4 k5 =>
      simp only [List.append_assoc, List.cons_append] at he
      obtain ⟨rfl, he0⟩ := blanks_same g2 k2 (op.symbol_noBlank _) (op'.symbol_noBlank _) he
      injection he0 with he1 he2
      have := Op.symbol_inj he1
      subst this
      obtain ⟨rfl, he3⟩ := blanks_same g3 k3 (g4.noBlank _) (k4.noBlank _) he2
      obtain ⟨rfl, rfl⟩ := ih (by simp at hn ⊢; omega) g4 k4 he3 (g5.after hr) (k5.after hr')
      obtain ⟨rfl, rfl⟩ := ih2 (by simp at hn ⊢; omega) k5 (List.append_cancel_left he3) hr hr'
      exact ⟨rfl, rfl⟩

theorem same_level {n L} (hL : L ≠ .primary) (ih : SameUpTo n L.inner) : SameUpTo n L := by
  intro e e' s s' r r' hn h h' he hr hr'
  obtain ⟨a, s0, s1, rfl, h1, h2⟩ := h.cont hL
  obtain ⟨a', s0', s1', rfl, k1, k2⟩ := h'.cont hL
  simp only [List.append_assoc] at he hn
  obtain ⟨rfl, rfl⟩ := ih hn h1 k1 he (h2.after hr) (k2.after hr')
  obtain ⟨rfl, rfl⟩ := h2.same ih (by simp at hn ⊢; omega) k2 (List.append_cancel_left he) hr hr'
  exact ⟨rfl, rfl⟩

theorem same_sum (n : Nat) : SameUpTo n .sum := by
  induction n using Nat.strongRecOn with
  | ind n ih =>
    exact same_level (by decide) (same_level (L := .product) (by decide) (same_primary ih))

theorem Written.unique {e e' s} (h : Written .sum e s) (h' : Written .sum e' s) : e = e' :=
  (same_sum (s ++ []).length (Nat.le_refl _) h h' rfl ⟨[], [], rfl, by simp [Blanks], .inl rfl⟩
    ⟨[], [], rfl, by simp [Blanks], .inl rfl⟩).1

end Abu
