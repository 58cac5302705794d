import Verif.Proofs.CalculatorUnique
import Verif.Proofs.GuideMore
import Verif.Proofs.Readme
/-
Texts with numbers can be read in one way only.
-/
namespace Abu

theorem digits_next {ds rs} (h : DigitString 10 ds rs) : ∀ {ds' rs' r r'}, DigitString 10 ds' rs' →
    ds ++ r = ds' ++ r' → NoDigitNext 10 r → NoDigitNext 10 r' → ds = ds' ∧ rs = rs' := by
  induction h with
  | nil =>
    intro ds' rs' r r' h' he hr _
    cases h' with
    | nil => exact ⟨rfl, rfl⟩
    | cons g1 g2 _ => exact absurd g2 ((hr _ _ he).2 _ g1)
  | cons g1 g2 _ ih =>
    intro ds' rs' r r' h' he hr hr'
    cases h' with
    | nil => exact absurd g2 ((hr' _ _ he.symm).2 _ g1)
    | cons k1 k2 k3 =>
      injection he with he1 he2
      subst he1
      obtain ⟨a1, a2⟩ := ih k3 he2 hr hr'
      exact ⟨by rw [a1], by rw [a2, digit_same g1 k1 g2 k2]⟩

theorem digits_start {ds rs} (h : DigitString 10 ds rs) (hn : ds ≠ []) : ∃ c l, ds = c :: l ∧ 48 ≤ c ∧ c ≤ 57 := by
  cases h with
  | nil => exact absurd rfl hn
  | cons g1 g2 _ => exact ⟨_, _, rfl, by have := digit_range g1 g2; omega⟩

theorem numeral_same {n n' s s' r r'} (h : Numeral n s) (h' : Numeral n' s') (e : s ++ r = s' ++ r')
    (hr : NoDigitNext 10 r) (hr' : NoDigitNext 10 r') : n = n' ∧ s = s' := by
  obtain ⟨sg, neg, ds, rs, h1, h2, h3, rfl, rfl⟩ := h
  obtain ⟨sg', neg', ds', rs', k1, k2, k3, rfl, rfl⟩ := h'
  obtain ⟨c, l, e1, e2⟩ := digits_start h2 h3
  obtain ⟨c', l', f1, f2⟩ := digits_start k2 k3
  have key : sg = sg' ∧ neg = neg' := by
    rw [e1, f1] at e
    cases h1 <;> cases k1 <;> first
      | exact ⟨rfl, rfl⟩
      | (simp only [List.nil_append, List.cons_append, List.cons.injEq] at e; have := e.1; omega)
  obtain ⟨rfl, rfl⟩ := key
  rw [List.append_assoc, List.append_assoc] at e
  obtain ⟨rfl, rfl⟩ := digits_next h2 k2 (List.append_cancel_left e) hr hr'
  exact ⟨rfl, rfl⟩

theorem spaces_same {w : List Ch} (h : Spaces w) : ∀ {w' x x' : List Ch}, Spaces w' → w ++ x = w' ++ x' →
    (∀ c l, x = c :: l → ¬ Space c) → (∀ c l, x' = c :: l → ¬ Space c) → w = w' ∧ x = x' := by
  induction w with
  | nil =>
    intro w' x x' h' e hx _
    cases w' with
    | nil => exact ⟨rfl, e⟩
    | cons c w' => exact absurd (h' c (by simp)) (hx _ _ e)
  | cons c w ih =>
    intro w' x x' h' e hx hx'
    cases w' with
    | nil => exact absurd (h c (by simp)) (hx' _ _ e.symm)
    | cons c' w' =>
      injection e with e1 e2
      obtain ⟨a1, a2⟩ := ih (fun d hd => h d (by simp [hd])) (fun d hd => h' d (by simp [hd])) e2 hx hx'
      exact ⟨by rw [e1, a1], a2⟩

theorem Numeral.noSpace {n s r} (h : Numeral n s) : ∀ c l, s ++ r = c :: l → ¬ Space c := by
  obtain ⟨c, s', rfl, hc⟩ := h.head
  rintro c' l e
  injection e with e1 _
  exact e1 ▸ hc

theorem Ints.unique {ns t rest} (h : Ints ns t rest) : ∀ {ns' rest'}, Ints ns' t rest' → ns = ns' ∧ rest = rest' := by
  induction h with
  | stop hn =>
    intro ns' rest' h'
    cases h' with
    | stop _ => exact ⟨rfl, rfl⟩
    | more hw hs _ _ => exact absurd ⟨_, _, _, _, hw, hs, rfl⟩ hn
  | @more w n s ns t rest hw hs hd _ ih =>
    intro ns' rest' h'
    generalize e : w ++ (s ++ t) = u at h'
    cases h' with
    | stop hn => exact absurd ⟨_, _, _, _, hw, hs, e.symm⟩ hn
    | more kw ks kd ki =>
      obtain ⟨_, e2⟩ := spaces_same hw kw e hs.noSpace ks.noSpace
      obtain ⟨rfl, rfl⟩ := numeral_same hs ks e2 hd kd
      have e3 := List.append_cancel_left e2
      subst e3
      obtain ⟨rfl, rfl⟩ := ih ki
      exact ⟨rfl, rfl⟩

/-- Spaces and a closing bracket. -/
def Closes (r : List Ch) : Prop := ∃ w x, Spaces w ∧ r = w ++ 93 :: x

theorem Closes.noDigit {r} (h : Closes r) : NoDigitNext 10 r := by
  obtain ⟨w, x, hw, rfl⟩ := h
  have h93 := noDigit_char (c := 93) (.inr rfl)
  exact noDigit_spaces hw h93.1 h93.2.2

theorem noSpace_cons {a : Ch} {x : List Ch} (h : ¬ Space a) : ∀ c l, a :: x = c :: l → ¬ Space c := by
  rintro c l e
  injection e with e1 _
  exact e1 ▸ h

theorem Closes.noComma {r w x} (h : Closes r) (hw : Spaces w) (e : r = w ++ 44 :: x) : False := by
  obtain ⟨w', x', hw', rfl⟩ := h
  have := (spaces_same hw' hw e (noSpace_cons (by decide)) (noSpace_cons (by decide))).2
  injection this with h1 _
  exact absurd h1 (by decide)

theorem Listed.unique {ns s} (h : Listed ns s) : ∀ {ns' s' r r'}, Listed ns' s' → s ++ r = s' ++ r' →
    Closes r → Closes r' → ns = ns' ∧ s = s' := by
  have h44 := noDigit_char (c := 44) (.inl rfl)
  have nd : ∀ {w x : List Ch}, Spaces w → NoDigitNext 10 (w ++ 44 :: x) := fun hw => noDigit_spaces hw h44.1 h44.2.2
  induction h with
  | one hw hn =>
    intro ns' s' r r' h' e hr hr'
    cases h' with
    | one kw kn =>
      rw [List.append_assoc, List.append_assoc] at e
      obtain ⟨rfl, e2⟩ := spaces_same hw kw e hn.noSpace kn.noSpace
      obtain ⟨rfl, rfl⟩ := numeral_same hn kn e2 hr.noDigit hr'.noDigit
      exact ⟨rfl, rfl⟩
    | more kw kn kw' _ =>
      simp only [List.append_assoc, List.cons_append] at e
      obtain ⟨rfl, e2⟩ := spaces_same hw kw e hn.noSpace kn.noSpace
      obtain ⟨rfl, rfl⟩ := numeral_same hn kn e2 hr.noDigit (nd kw')
      exact (hr.noComma kw' (List.append_cancel_left e2)).elim
  | more hw hn hw' _ ih =>
    intro ns' s' r r' h' e hr hr'
    cases h' with
    | one kw kn =>
      simp only [List.append_assoc, List.cons_append] at e
      obtain ⟨rfl, e2⟩ := spaces_same hw kw e hn.noSpace kn.noSpace
      obtain ⟨rfl, rfl⟩ := numeral_same hn kn e2 (nd hw') hr'.noDigit
      exact (hr'.noComma hw' (List.append_cancel_left e2).symm).elim
    | more kw kn kw' kl =>
      simp only [List.append_assoc, List.cons_append] at e
      obtain ⟨rfl, e2⟩ := spaces_same hw kw e hn.noSpace kn.noSpace
      obtain ⟨rfl, rfl⟩ := numeral_same hn kn e2 (nd hw') (nd kw')
      obtain ⟨rfl, e3⟩ := spaces_same hw' kw' (List.append_cancel_left e2) (noSpace_cons (by decide))
        (noSpace_cons (by decide))
      injection e3 with _ e4
      obtain ⟨rfl, rfl⟩ := ih kl e4 hr hr'
      exact ⟨rfl, rfl⟩

/-- A list does not begin with spaces and a bracket. -/
theorem Listed.noClose {ns s r r'} (h : Listed ns s) (h' : Closes r') : s ++ r ≠ r' := by
  intro e
  obtain ⟨w', x, kw, rfl⟩ := h'
  have go : ∀ {w n s y}, Spaces w → Numeral n s → w ++ (s ++ y) = w' ++ 93 :: x → False := by
    intro w n s y hw hn e
    have e2 := (spaces_same hw kw e hn.noSpace (noSpace_cons (by decide))).2
    obtain ⟨sg, neg, ds, rs, h1, h2, h3, rfl, rfl⟩ := hn
    obtain ⟨c, l, rfl, e3⟩ := digits_start h2 h3
    cases h1 <;> (simp only [List.nil_append, List.cons_append, List.cons.injEq] at e2; have := e2.1; omega)
  cases h with
  | one hw hn => exact go hw hn (by simpa using e)
  | more hw hn _ _ => exact go hw hn (by simpa using e)

theorem Bracketed.unique {ns s ns' s' r r'} (h : Bracketed ns s) (h' : Bracketed ns' s') (e : s ++ r = s' ++ r') :
    ns = ns' ∧ s = s' := by
  have sp : ∀ {a : Ch} {x : List Ch}, a = 91 ∨ a = 93 → ∀ c l, a :: x = c :: l → ¬ Space c := fun h =>
    noSpace_cons (by rcases h with rfl | rfl <;> decide)
  cases h with
  | none hw hw1 =>
    cases h' with
    | none kw kw1 =>
      simp only [List.append_assoc, List.cons_append, List.nil_append] at e
      obtain ⟨rfl, e2⟩ := spaces_same hw kw e (sp (.inl rfl)) (sp (.inl rfl))
      injection e2 with _ e3
      obtain ⟨rfl, _⟩ := spaces_same hw1 kw1 e3 (sp (.inr rfl)) (sp (.inr rfl))
      exact ⟨rfl, rfl⟩
    | some kw kl kw1 =>
      simp only [List.append_assoc, List.cons_append, List.nil_append] at e
      obtain ⟨rfl, e2⟩ := spaces_same hw kw e (sp (.inl rfl)) (sp (.inl rfl))
      injection e2 with _ e3
      exact absurd e3.symm (kl.noClose ⟨_, _, hw1, rfl⟩)
  | some hw hl hw1 =>
    cases h' with
    | none kw kw1 =>
      simp only [List.append_assoc, List.cons_append, List.nil_append] at e
      obtain ⟨rfl, e2⟩ := spaces_same hw kw e (sp (.inl rfl)) (sp (.inl rfl))
      injection e2 with _ e3
      exact absurd e3 (hl.noClose ⟨_, _, kw1, rfl⟩)
    | some kw kl kw1 =>
      simp only [List.append_assoc, List.cons_append, List.nil_append] at e
      obtain ⟨rfl, e2⟩ := spaces_same hw kw e (sp (.inl rfl)) (sp (.inl rfl))
      injection e2 with _ e3
      obtain ⟨rfl, rfl⟩ := hl.unique kl e3 ⟨_, _, hw1, rfl⟩ ⟨_, _, kw1, rfl⟩
      obtain ⟨rfl, _⟩ := spaces_same hw1 kw1 (List.append_cancel_left e3) (sp (.inr rfl)) (sp (.inr rfl))
      exact ⟨rfl, rfl⟩

end Abu
