import Verif.Model.Guide
import Verif.Spec.Guide
import Verif.Proofs.Readme
/-
The nested lists of the guide, as a grammar.
-/
namespace Abu

/-- `my_recur` -/
abbrev nestedR : Pat := .recur 0 false
/-- `',' >> my_recur` -/
abbrev nestedTail : Pat := .seq [litC 44, nestedR]

theorem guideNested_eq : guideNested = .alt [int_, .seq [litC 40, .list nestedR (litC 44), litC 41]] := rfl

section
variable {t rest s : List Ch} {i k : Nat}

theorem Peg.lit {env c} (h : t[i]? = some c) : Peg env t (litC c) i (some (i + 1)) :=
  .discard (.char h (by simp [CharSet.isValid]))

theorem Peg.litNo {env c} (h : t[i]? ≠ some c) : Peg env t (litC c) i none := by
  refine .discard (.charNo fun d hd => ?_)
  rw [Bool.eq_false_iff]
  intro hv
  have : d = c := by simpa [CharSet.isValid] using hv
  exact h (this ▸ hd)

theorem Peg.numeral {env n} (h : Numeral n s) (ht : t.drop i = s ++ rest) (hn : NoDigitNext 10 rest) :
    Peg env t int_ i (some (i + s.length)) := by
  obtain ⟨sg, neg, ds, rs, hs, hd, hne, -, rfl⟩ := h
  have h1 : signLen (t.drop i) = sg.length := by
    rw [ht, List.append_assoc]
    refine (hs.spec fun _ c l' h => ?_).1
    cases hd with
    | nil => exact absurd rfl hne
    | cons hr hc _ =>
      have := digit_range hr hc
      simp only [List.cons_append, List.cons.injEq] at h
      omega
  have h2 : t.drop (i + sg.length) = ds ++ rest := by
    rw [← List.drop_drop, ht, List.append_assoc, List.drop_left]
  have h3 : digitRun 10 0 (t.drop (i + sg.length)) = ds.length := by
    rw [h2]
    exact LongestRun.digitRun (by omega) (by omega) ⟨hd, fun h => absurd rfl h, .inr hn⟩
  have h4 := Peg.int (env := env) (t := t) (b := 10) (mn := 1) (mx := 0) (i := i) (j := i + sg.length) (by rw [h1]) (by
    rw [h3]
    cases ds with
    | nil => exact absurd rfl hne
    | cons => simp)
  rw [h3] at h4
  rwa [List.length_append, ← Nat.add_assoc]

theorem Peg.noNumber {env} (h : NoNumber (t.drop i)) (ht : ∀ c ∈ t, IsChar c) : Peg env t int_ i none := by
  refine .intNo rfl ?_
  have := h.digitRun fun c hc => ht c (List.mem_of_mem_drop hc)
  rw [List.drop_drop] at this
  omega

theorem Peg.nestedR {o} (h : Peg guideEnv t guideNested i o) : Peg guideEnv t Abu.nestedR i o := .recur rfl h

theorem noDigit_stop {c : Ch} (hc : c = 41 ∨ c = 44) : NoDigitNext 10 (c :: rest) := by
  intro d l h
  cases h
  refine ⟨by rcases hc with rfl | rfl <;> decide, fun r hr hd => ?_⟩
  have := digit_range hr hd
  omega

theorem noNumber_paren {l : List Ch} {c : Ch} (hc : c = 40 ∨ c = 41) : NoNumber (c :: l) := by
  intro sg neg d t' h hs r hr hd
  have := digit_range hr hd
  cases hs <;> simp at h <;> omega

theorem nested_paren (ht : ∀ c ∈ t, IsChar c) {o} (h0 : t[i]? = some 40)
    (h : Peg guideEnv t (.list Abu.nestedR (litC 44)) (i + 1) (some k))
    (h1 : Peg guideEnv t (litC 41) k o) : Peg guideEnv t guideNested i o := by
  rw [guideNested_eq]
  refine .altNo (.noNumber (by rw [drop_of_getElem? h0]; exact noNumber_paren (.inl rfl)) ht) ?_
  cases o with
  | none => exact .altNo (.seq (.lit h0) (.seq h (.seqNo h1))) .altNil
  | some => exact .alt (.seq (.lit h0) (.seq h (.seq h1 .seqNil)))

theorem nested_close (ht : ∀ c ∈ t, IsChar c) (h0 : t[i]? = some 41) : Peg guideEnv t guideNested i none := by
  rw [guideNested_eq]
  refine .altNo (.noNumber (by rw [drop_of_getElem? h0]; exact noNumber_paren (.inr rfl)) ht) ?_
  exact .altNo (.seqNo (.litNo (by rw [h0]; simp))) .altNil

mutual
theorem Nested.peg {s : List Ch} (h : Nested s) (ht : ∀ c ∈ t, IsChar c) {i : Nat} {rest : List Ch}
    (hd : t.drop i = s ++ rest)
    (hn : ∀ n, Numeral n s → NoDigitNext 10 rest) : Peg guideEnv t guideNested i (some (i + s.length)) := by
  match h with
  | .number (n := n) h =>
    rw [guideNested_eq]
    exact .alt (.numeral h hd (hn n h))
  | .empty =>
    have h1 := drop_cons hd
    have h2 := drop_cons h1.2.1
    have h3 := Peg.lit (env := guideEnv) h2.1
    exact nested_paren ht h1.1 (.listNil (nested_close ht h2.1).nestedR) h3
  | .list (s := u) h =>
    rw [List.cons_append] at hd
    have h1 := drop_cons hd
    have h2 : t.drop (i + 1) = u ++ 41 :: rest := by rw [h1.2.1]; simp
    obtain ⟨k, h3, h4⟩ := h.peg ht h2
    have h5 := (drop_cons (drop_add h2)).1
    have h6 := nested_paren ht h1.1 (.list h3 h4) (.lit h5)
    have : i + (40 :: (u ++ [41])).length = i + 1 + u.length + 1 := by simp; omega
    rwa [this]
theorem NestedItems.peg {s : List Ch} (h : NestedItems s) (ht : ∀ c ∈ t, IsChar c) {i : Nat} {rest : List Ch}
    (hd : t.drop i = s ++ 41 :: rest) :
    ∃ k, Peg guideEnv t Abu.nestedR i (some k) ∧
      Peg guideEnv t (.rep 0 0 nestedTail) k (some (i + s.length)) := by
  match h with
  | .one h =>
    refine ⟨_, (h.peg ht hd fun _ _ => noDigit_stop (.inl rfl)).nestedR, .repStop (.seqNo (.litNo ?_))⟩
    rw [(drop_cons (drop_add hd)).1]
    simp
  | .more (s := s) (u := u) h g =>
    rw [List.append_assoc, List.cons_append] at hd
    have h1 := drop_cons (drop_add hd)
    obtain ⟨k, h3, h4⟩ := g.peg ht h1.2.1
    refine ⟨_, (h.peg ht hd fun _ _ => noDigit_stop (.inr rfl)).nestedR,
      .repMore (by decide) (.seq (.lit h1.1) (.seq h3 .seqNil)) ?_⟩
    have : i + (s ++ 44 :: u).length = i + s.length + 1 + u.length := by simp; omega
    rwa [this]
end

/-- What stands at a position. -/
def NestedAt (t : List Ch) (i : Nat) : Prop :=
  (∃ s rest, t.drop i = s ++ rest ∧ Nested s ∧ Peg guideEnv t guideNested i (some (i + s.length))) ∨
    Peg guideEnv t guideNested i none

/-- What follows an item. -/
theorem nested_tail : ∀ n k, t.length - k ≤ n →
    (∀ k', k ≤ k' → NestedAt t k') →
    ∃ u rest, t.drop k = u ++ rest ∧ (u = [] ∨ ∃ u', u = 44 :: u' ∧ NestedItems u') ∧
      Peg guideEnv t (.rep 0 0 nestedTail) k (some (k + u.length)) := by
  intro n
  induction n with
  | zero =>
    intro k hk ih
    refine ⟨[], t.drop k, rfl, .inl rfl, .repStop (.seqNo (.litNo ?_))⟩
    rw [List.getElem?_eq_none (by omega)]
    simp
  | succ n ihn =>
    intro k hk ih
    by_cases h : t[k]? = some 44
    · have hk' : k < t.length := by
        refine Nat.lt_of_not_le fun hh => ?_
        rw [List.getElem?_eq_none hh] at h
        cases h
      rcases ih (k + 1) (by omega) with ⟨s, rest, hd, hs, hp⟩ | hp
      · obtain ⟨u, rest', hd', hu, hp'⟩ := ihn (k + 1 + s.length) (by omega) fun k' hk' => ih k' (by omega)
        have e : t.drop k = 44 :: (s ++ (u ++ rest')) := by
          rw [drop_of_getElem? h, hd, ← hd', ← List.drop_drop, hd, List.drop_left]
        refine ⟨44 :: (s ++ u), rest', by simp [e], .inr ⟨_, rfl, ?_⟩, .repMore (by decide) (.seq (.lit h) (.seq hp.nestedR .seqNil)) ?_⟩
        · rcases hu with rfl | ⟨u', rfl, hu'⟩
          · rw [List.append_nil]
            exact .one hs
          · exact .more hs hu'
        · have : k + (44 :: (s ++ u)).length = k + 1 + s.length + u.length := by simp; omega
          rwa [this]
      · exact ⟨[], t.drop k, rfl, .inl rfl, .repStop (.seq (.lit h) (.seqNo hp.nestedR))⟩
    · exact ⟨[], t.drop k, rfl, .inl rfl, .repStop (.seqNo (.litNo h))⟩

theorem nested_total (ht : ∀ c ∈ t, IsChar c) : ∀ n i, t.length - i ≤ n → NestedAt t i := by
  intro n
  induction n with
  | zero =>
    intro i hi
    right
    rw [guideNested_eq]
    refine .altNo (.noNumber ?_ ht) (.altNo (.seqNo (.litNo ?_)) .altNil)
    · rw [List.drop_eq_nil_of_le (by omega)]
      intro sg neg c l h
      simp at h
    · rw [List.getElem?_eq_none (by omega)]
      simp
  | succ n ih =>
    intro i hi
    rcases number_or_none (t.drop i) fun c hc => ht c (List.mem_of_mem_drop hc) with ⟨m, s, rest, hd, hs, hn⟩ | hn
    · exact .inl ⟨s, rest, hd, .number hs, (Nested.number hs).peg ht hd fun _ _ => hn⟩
    by_cases h : t[i]? = some 40
    · have hi' : i < t.length := by
        refine Nat.lt_of_not_le fun hh => ?_
        rw [List.getElem?_eq_none hh] at h
        cases h
      have ih' : ∀ k', i + 1 ≤ k' → NestedAt t k' := fun k' hk' => ih k' (by omega)
      have key : ∃ u rest, t.drop (i + 1) = u ++ rest ∧ (u = [] ∨ NestedItems u) ∧
          Peg guideEnv t (.list Abu.nestedR (litC 44)) (i + 1) (some (i + 1 + u.length)) := by
        rcases ih' (i + 1) (Nat.le_refl _) with ⟨s, rest, hd, hs, hp⟩ | hp
        · obtain ⟨u, rest', hd', hu, hp'⟩ := nested_tail _ (i + 1 + s.length) (Nat.le_refl _)
            fun k' hk' => ih' k' (by omega)
          refine ⟨s ++ u, rest', ?_, .inr ?_, ?_⟩
          · rw [hd, List.append_assoc, ← hd', ← List.drop_drop, hd, List.drop_left]
          · rcases hu with rfl | ⟨u', rfl, hu'⟩
            · rw [List.append_nil]
              exact .one hs
            · exact .more hs hu'
          · rw [List.length_append, ← Nat.add_assoc]
            exact .list hp.nestedR hp'
        · exact ⟨[], _, rfl, .inl rfl, .listNil hp.nestedR⟩
      obtain ⟨u, rest, hd, hu, hp⟩ := key
      by_cases h1 : t[i + 1 + u.length]? = some 41
      · left
        have e := drop_add hd
        rw [drop_of_getElem? h1] at e
        refine ⟨40 :: (u ++ [41]), rest.tail, ?_, ?_, ?_⟩
        · rw [drop_of_getElem? h, hd, ← e]
          simp
        · rcases hu with rfl | hu
          · exact .empty
          · exact .list hu
        · have : i + (40 :: (u ++ [41])).length = i + 1 + u.length + 1 := by simp; omega
          rw [this]
          exact nested_paren ht h hp (.lit h1)
      · exact .inr (nested_paren ht h hp (.litNo h1))
    · right
      rw [guideNested_eq]
      exact .altNo (.noNumber hn ht) (.altNo (.seqNo (.litNo h)) .altNil)

end
end Abu
