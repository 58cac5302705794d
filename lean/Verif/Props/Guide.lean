import Verif.Proofs.GuidePlayer
import Verif.Proofs.GuideActions
import Verif.Proofs.Answers
import Verif.Proofs.Eval
import Verif.Proofs.CalculatorText
/-
C49, C50, C51: examples of the user guide.
-/
namespace Abu

/-! ### C49 -/

/-- C49: `*UInt<10,2,2>` appends to the vector the numbers written by the pairs of digits the text
starts with, and leaves what follows the last pair, be it one more digit. -/
theorem C49_pairs (env : Env) (s rest : List Ch) (ns : List Nat) (ht : ∀ c ∈ s ++ rest, IsChar c)
    (h : Pairs ns s) (hn : ¬ TwoDigits rest) (m : Mem) (o : Nat) (vs : List Val)
    (ho : m.objs[o]? = some (.coll vs)) :
    ∃ m', Answers env guidePairs (.at o [] (.coll (.num (.unsigned 16)))) m (s ++ rest)
        (.ok (.SUCCESS, m', rest)) ∧
      m'.objs[o]? = some (.coll (vs ++ ns.map fun n : Nat => .num n)) ∧
      ∀ o', o' < m.objs.length → o' ≠ o → m'.objs[o']? = m.objs[o']? := by
  obtain ⟨m', h1, y, y', e1, e2, e3, e4⟩ := h.ends (env := env) (bnd := .at o [] (.coll (.num (.unsigned 16))))
    (t := s ++ rest) (i := 0) (rest := rest) rfl ht hn (m := m) (o := o) (p := []) (vs := vs)
    (by simp only [Mem.read, ho, Val.get])
  refine ⟨m', ?_, ?_, e4⟩
  · have h2 := h1.ends.does
    rw [← elab_guidePairs] at h2
    have h3 := Answers.of_parses h2.parses
    rwa [Nat.zero_add, List.drop_left] at h3
  · rw [e3]
    simpa [Val.update] using e2.symm

/-- C49: every text starts with some such pairs. -/
theorem C49_every_text (t : List Ch) (ht : ∀ c ∈ t, IsChar c) :
    ∃ ns s rest, t = s ++ rest ∧ Pairs ns s ∧ ¬ TwoDigits rest := exists_pairs t.length t (Nat.le_refl _) ht

/-- C49: and in one way only. -/
theorem C49_one_reading {ns ns' : List Nat} {s s' rest rest' : List Ch} (ht : ∀ c ∈ s ++ rest, IsChar c)
    (e : s ++ rest = s' ++ rest') (h : Pairs ns s) (hn : ¬ TwoDigits rest) (h' : Pairs ns' s')
    (hn' : ¬ TwoDigits rest') : ns = ns' ∧ s = s' := by
  obtain ⟨m1, h1, h2, _⟩ := C49_pairs (fun _ => none) s rest ns ht h hn ⟨[.coll []], []⟩ 0 [] rfl
  obtain ⟨m2, h3, h4, _⟩ := C49_pairs (fun _ => none) s' rest' ns' (e ▸ ht) h' hn' ⟨[.coll []], []⟩ 0 [] rfl
  rw [← e] at h3
  have h5 := h1.unique h3
  simp only [Except.ok.injEq, Prod.mk.injEq, true_and] at h5
  obtain ⟨rfl, rfl⟩ := h5
  rw [h2] at h4
  simp only [List.nil_append, Option.some.injEq, Val.coll.injEq] at h4
  exact ⟨(List.map_inj_right fun _ _ h => Int.ofNat.inj (Val.num.inj h)).1 h4, List.append_cancel_right e⟩

/-- "12232302" -/
theorem exPairs : Pairs [12, 23, 23, 2] [49, 50, 50, 51, 50, 51, 48, 50] := by
  have hd : ∀ r : Nat, r < 10 → IsDigitSymbol r ((48 + r : Nat) : Int) := fun r hr => by
    rw [isDigitSymbol_iff _ _ (by omega), if_pos (by omega)]; omega
  exact .cons (by omega) (by omega) (hd 1 (by omega)) (hd 2 (by omega)) <|
    .cons (by omega) (by omega) (hd 2 (by omega)) (hd 3 (by omega)) <|
    .cons (by omega) (by omega) (hd 2 (by omega)) (hd 3 (by omega)) <|
    .cons (by omega) (by omega) (hd 0 (by omega)) (hd 2 (by omega)) .nil

/-- The example of the guide, in two pieces: "1223", "2302". -/
example : ∃ m', MakeParserRun (fun _ => none) guidePairs (.at 0 [] (.coll (.num (.unsigned 16)))) ⟨[.coll []], []⟩
    [.add [49, 50, 50, 51] false, .consume, .add [50, 51, 48, 50] true, .consume] (.ok (.SUCCESS, m', [])) ∧
    m'.objs[0]? = some (.coll [.num 12, .num 23, .num 23, .num 2]) := by
  obtain ⟨m', h1, h2, _⟩ := C49_pairs (fun _ => none) _ [] _ (by decide) exPairs
    (by rintro ⟨_, _, _, _, _, _, _, _, _, h⟩; cases h) ⟨[.coll []], []⟩ 0 [] rfl
  exact ⟨m', h1.2 _ (by simp [Complete, AfterFinal, opsText]) rfl, h2⟩

/-- There is no other way to read it. -/
example {ns s rest} (h : Pairs ns s) (hn : ¬ TwoDigits rest)
    (e : [49, 50, 50, 51, 50, 51, 48, 50] ++ [] = s ++ rest) : [12, 23, 23, 2] = ns :=
  (C49_one_reading (by decide) e exPairs (by rintro ⟨_, _, _, _, _, _, _, _, _, h⟩; cases h) h hn).1

/-! ### C50 -/

/-- C50: if the text starts with two names and a score, the player example of the guide, with
`apply_skipper` and without, succeeds, appends the names to the two strings, stores the score
(modulo the range of `unsigned`) and consumes exactly this text. -/
theorem C50_player (env : Env) (p : Pat) (hp : p = guidePlayer ∨ p = guidePlayerOws)
    (s rest first last : List Ch) (k : Nat) (ht : ∀ c ∈ s ++ rest, IsChar c)
    (h : PlayerLine first last k s) (hn : NoDigitNext 10 rest) (m : Mem) (o : Nat) (a b : List Val) (c : Val)
    (ho : m.objs[o]? = some (.tup [.coll a, .coll b, c])) :
    ∃ m', Answers env p (.at o [] (.tup [.string, .string, .unsigned])) m (s ++ rest)
        (.ok (.SUCCESS, m', rest)) ∧
      m'.objs[o]? = some (.tup [.coll (a ++ first.map .num), .coll (b ++ last.map .num), .num (k % 2 ^ 32)]) ∧
      ∀ o', o' < m.objs.length → o' ≠ o → m'.objs[o']? = m.objs[o']? := by
  generalize hts : s ++ rest = t at ht ⊢
  cases h with
  | @mk w1 first w2 last w3 ds rs hw1 hf hw2 hn2 hl hw3 hn3 hd hne =>
    have hd0 : t.drop 0 = w1 ++ (first ++ (w2 ++ (last ++ (w3 ++ (ds ++ rest))))) := by
      rw [List.drop_zero, ← hts]; simp
    have hd1 := drop_add hd0
    have hd2 := drop_add hd1
    have hd3 := drop_add hd2
    have hd4 := drop_add hd3
    have hd5 := drop_add hd4
    obtain ⟨f1, c1, s1, e1, n1⟩ := hf.word hw2 hn2 hd1
    obtain ⟨f2, c2, s2, e2, n2⟩ := hl.word hw3 hn3 hd3
    obtain ⟨c3, s3, e3, n3, _⟩ := hd.head_digit hne
    obtain ⟨g1, _⟩ := over_to (x := 0) (c := c1) (by rw [hd0, e1, List.cons_append]) hw1 n1
    obtain ⟨g2, _⟩ := over_to (x := 0 + w1.length + first.length) (c := c2) (by rw [hd2, e2, List.cons_append]) hw2 n2
    obtain ⟨g3, _⟩ := over_to (x := 0 + w1.length + first.length + w2.length + last.length) (c := c3) (by rw [hd4, e3, List.cons_append]) hw3 n3
    obtain ⟨m', p1, p2, p3⟩ := player_does (env := env) (m := m) hp ht g1 f1 g2 f2 g3 hd hd5 hn ho
    rw [if_neg hne] at p1
    exact ⟨m', .of_parses p1, p2, p3⟩

/-- C50: otherwise it fails; the strings have got letters and digits of the text, the score is 0,
nothing else has changed. -/
theorem C50_no_player (env : Env) (p : Pat) (hp : p = guidePlayer ∨ p = guidePlayerOws)
    (t : List Ch) (ht : ∀ c ∈ t, IsChar c)
    (h : ∀ first last k s rest, t = s ++ rest → ¬ PlayerLine first last k s) (m : Mem) (o : Nat) (a b : List Val)
    (c : Val) (ho : m.objs[o]? = some (.tup [.coll a, .coll b, c])) :
    ∃ m' rest first last, Answers env p (.at o [] (.tup [.string, .string, .unsigned])) m t
        (.ok (.FAILURE, m', rest)) ∧
      m'.objs[o]? = some (.tup [.coll (a ++ first.map .num), .coll (b ++ last.map .num), .num 0]) ∧
      (∃ w1 w2 w3, Spaces w1 ∧ Spaces w2 ∧ Spaces w3 ∧
        t = w1 ++ (first ++ (w2 ++ (last ++ (w3 ++ rest))))) ∧ (∀ c ∈ first ++ last, Alnum c) ∧
      ∀ o', o' < m.objs.length → o' ≠ o → m'.objs[o']? = m.objs[o']? := by
  obtain ⟨w1, t1, q1, g1⟩ := exists_over t 0
  obtain ⟨first, f1⟩ := exists_word t (0 + w1.length)
  obtain ⟨w2, t2, q2, g2⟩ := exists_over t (0 + w1.length + first.length)
  obtain ⟨last, f2⟩ := exists_word t (0 + w1.length + first.length + w2.length)
  obtain ⟨w3, t3, q3, g3⟩ := exists_over t (0 + w1.length + first.length + w2.length + last.length)
  obtain ⟨ds, rs, rest, ed, hd, hn⟩ := exists_digits
    (t.drop (0 + w1.length + first.length + w2.length + last.length + w3.length))
    fun c hc => ht c (List.mem_of_mem_drop hc)
  obtain ⟨m', p1, p2, p3⟩ := player_does (env := env) (m := m) hp ht g1 f1 g2 f2 g3 hd ed hn ho
  have et : t = w1 ++ (first ++ (w2 ++ (last ++ (w3 ++ (ds ++ rest))))) := by
    rw [← ed, ← t3, ← f2.text, ← t2, ← f1.text, ← t1, List.drop_zero]
  have hds : ds = [] := by
    refine Classical.byContradiction fun hne => ?_
    obtain ⟨c3, s3, e3, n3, a3⟩ := hd.head_digit hne
    have h3 : w3 ≠ [] := by
      rintro rfl
      rw [e3] at ed
      exact f2.stop c3 (drop_cons ed).1 a3
    have hl : last ≠ [] := by
      rintro rfl
      cases w3 with
      | nil => exact h3 rfl
      | cons b w3 =>
        have h4 := (drop_cons (by simpa using t3)).1
        exact g2.stop_at b (by simpa using h4) (q3 b (by simp))
    have h2 : w2 ≠ [] := fun e => hl (no_word_again f1 e f2)
    have hf : first ≠ [] := by
      rintro rfl
      cases w2 with
      | nil => exact h2 rfl
      | cons b w2 =>
        have h4 := (drop_cons (by simpa using t2)).1
        exact g1.stop_at b (by simpa using h4) (q2 b (by simp))
    refine h first last _ _ rest ?_ (.mk q1 ⟨hf, f1.all⟩ q2 h2 ⟨hl, f2.all⟩ q3 h3 hd hne)
    refine et.trans ?_
    simp
  subst hds
  cases hd
  rw [if_pos rfl] at p1
  refine ⟨m', rest, first, last, ?_, p2, ⟨w1, w2, w3, q1, q2, q3, by simpa using et⟩, ?_, p3⟩
  · exact .of_parses p1
  · intro c hc
    rcases List.mem_append.1 hc with h | h
    · exact f1.all c h
    · exact f2.all c h

/-- C50: a text starts with a line whose score has all of its digits, or with no line at all. -/
theorem C50_every_text (t : List Ch) (ht : ∀ c ∈ t, IsChar c) :
    (∃ first last k s rest, t = s ++ rest ∧ PlayerLine first last k s ∧ NoDigitNext 10 rest) ∨
    ∀ first last k s rest, t = s ++ rest → ¬ PlayerLine first last k s := by
  by_cases h : ∃ first last k s rest, t = s ++ rest ∧ PlayerLine first last k s
  · obtain ⟨first, last, k, s, rest, rfl, h⟩ := h
    obtain ⟨es, qs, rest, rfl, he, hn⟩ := exists_digits rest fun c hc => ht c (by simp [hc])
    cases h with
    | @mk w1 _ w2 _ w3 ds rs h1 h2 h3 h4 h5 h6 h7 hd hne =>
      have ha : DigitString 10 (ds ++ es) (rs ++ qs) := by
        clear hne ht
        induction hd with
        | nil => exact he
        | cons hr hc _ ih => exact .cons hr hc ih
      exact .inl ⟨first, last, _, _, rest, by simp, .mk h1 h2 h3 h4 h5 h6 h7 ha (by simp [hne]), hn⟩
  · exact .inr fun first last k s rest h1 h2 => h ⟨first, last, k, s, rest, h1, h2⟩

/-- The score is written by the digits at the end of the line. -/
theorem PlayerLine.score {first last k s} (h : PlayerLine first last k s) :
    ∃ rs, k = positional 10 rs ∧
      (s.reverse.takeWhile fun c => decide (48 ≤ c)).reverse.map (digitValue 10) = rs.map Int.ofNat := by
  cases h with
  | @mk w1 _ w2 _ w3 ds rs _ _ _ _ _ h3 h4 hd _ =>
    refine ⟨rs, rfl, ?_⟩
    obtain ⟨w, x, rfl⟩ : ∃ w x, w3 = w ++ [x] := ⟨_, _, (List.dropLast_concat_getLast h4).symm⟩
    have hx : ¬ 48 ≤ x := by
      have := h3 x (by simp)
      unfold Space at this
      omega
    have hds : ∀ c ∈ ds.reverse, decide (48 ≤ c) = true := fun c hc => by
      simpa using (hd.range c (List.mem_reverse.1 hc)).1
    have e : (w1 ++ (first ++ (w2 ++ (last ++ (w ++ [x] ++ ds))))).reverse =
        ds.reverse ++ x :: (w1 ++ (first ++ (w2 ++ (last ++ w)))).reverse := by simp
    rw [e, List.takeWhile_append_of_pos hds, List.takeWhile_cons_of_neg (by simpa using hx), List.append_nil,
      List.reverse_reverse]
    exact hd.values (by decide)

/-- C50: and a line can be read in one way only. -/
theorem C50_one_reading {first last first' last' s s' rest rest' : List Ch} {k k' : Nat}
    (ht : ∀ c ∈ s ++ rest, IsChar c) (e : s ++ rest = s' ++ rest') (h : PlayerLine first last k s)
    (hn : NoDigitNext 10 rest) (h' : PlayerLine first' last' k' s') (hn' : NoDigitNext 10 rest') :
    first = first' ∧ last = last' ∧ k = k' ∧ s = s' := by
  obtain ⟨m1, h1, h2, _⟩ := C50_player (fun _ => none) guidePlayer (.inl rfl) s rest first last k ht h hn
    ⟨[.tup [.coll [], .coll [], .num 0]], []⟩ 0 [] [] _ rfl
  obtain ⟨m2, h3, h4, _⟩ := C50_player (fun _ => none) guidePlayer (.inl rfl) s' rest' first' last' k' (e ▸ ht) h' hn'
    ⟨[.tup [.coll [], .coll [], .num 0]], []⟩ 0 [] [] _ rfl
  rw [← e] at h3
  have h5 := h1.unique h3
  simp only [Except.ok.injEq, Prod.mk.injEq, true_and] at h5
  obtain ⟨rfl, rfl⟩ := h5
  rw [h2] at h4
  simp only [List.nil_append, Option.some.injEq, Val.tup.injEq, List.cons.injEq, Val.coll.injEq] at h4
  have inj : ∀ {l l' : List Ch}, l.map Val.num = l'.map Val.num → l = l' :=
    fun h => (List.map_inj_right fun _ _ h => Val.num.inj h).1 h
  have hs := List.append_cancel_right e
  subst hs
  obtain ⟨rs, rfl, h6⟩ := h.score
  obtain ⟨rs', rfl, h7⟩ := h'.score
  have h8 : rs = rs' := (List.map_inj_right fun _ _ h => Int.ofNat.inj h).1 (h6.symm.trans h7)
  exact ⟨inj h4.1, inj h4.2.1, by rw [h8], rfl⟩

/-- " Bob Ng\t7 !" -/
theorem exPlayerLine : PlayerLine [66, 111, 98] [78, 103] 7 [32, 66, 111, 98, 32, 78, 103, 9, 55] := by
  have h7 : DigitString 10 [55] [7] := .cons (by omega) (by
    rw [isDigitSymbol_iff _ _ (by omega), if_pos (by omega)]; decide) .nil
  exact .mk (w1 := [32]) (w2 := [32]) (w3 := [9]) (by unfold Spaces; decide) (by unfold Name; decide)
    (by unfold Spaces; decide) (by decide) (by unfold Name; decide) (by unfold Spaces; decide) (by decide) h7 (by decide)

example : ∃ m', Answers (fun _ => none) guidePlayer (.at 0 [] (.tup [.string, .string, .unsigned]))
    ⟨[.tup [.coll [], .coll [], .num 3]], []⟩ [32, 66, 111, 98, 32, 78, 103, 9, 55, 32, 33]
    (.ok (.SUCCESS, m', [32, 33])) ∧
    m'.objs[0]? = some (.tup [.coll [.num 66, .num 111, .num 98], .coll [.num 78, .num 103], .num 7]) := by
  obtain ⟨m', h1, h2, _⟩ := C50_player (fun _ => none) guidePlayer (.inl rfl) _ [32, 33] _ _ _ (by decide) exPlayerLine
    (by
      intro c t' h
      cases h
      exact ⟨by decide, fun r hr hd => by have := digit_range hr hd; omega⟩)
    ⟨[.tup [.coll [], .coll [], .num 3]], []⟩ 0 [] [] _ rfl
  exact ⟨m', h1, h2⟩

/-- There is no other way to read it. -/
example {first last k s rest} (h : PlayerLine first last k s) (hn : NoDigitNext 10 rest)
    (e : [32, 66, 111, 98, 32, 78, 103, 9, 55] ++ [] = s ++ rest) : 7 = k :=
  (C50_one_reading (by decide) e exPlayerLine (fun _ _ h => by cases h) h hn).2.2.1

/-- If the text goes on with a digit, the line is longer. -/
example : ∃ first last k s rest, [32, 66, 111, 98, 32, 78, 103, 9, 55, 51, 33] = s ++ rest ∧
    PlayerLine first last k s ∧ NoDigitNext 10 rest :=
  (C50_every_text _ (by decide)).resolve_right fun h => h _ _ _ _ [51, 33] rfl exPlayerLine

/-- A line has two spaces. -/
theorem PlayerLine.spaces {first last k s} (h : PlayerLine first last k s) :
    2 ≤ s.countP fun c => decide (Space c) := by
  have key : ∀ {w : List Ch}, Spaces w → w ≠ [] → 1 ≤ w.countP fun c => decide (Space c) := by
    intro w hw hne
    rw [List.countP_eq_length.2 fun c hc => by simpa using hw c hc]
    cases w with
    | nil => exact absurd rfl hne
    | cons => simp
  cases h with
  | mk _ _ h1 h2 _ h3 h4 _ _ =>
    have := key h1 h2
    have := key h3 h4
    simp only [List.countP_append]
    omega

/-- "Bob 7" is no line. -/
example : ∃ m' rest, Answers (fun _ => none) guidePlayer (.at 0 [] (.tup [.string, .string, .unsigned]))
    ⟨[.tup [.coll [], .coll [], .num 3]], []⟩ [66, 111, 98, 32, 55] (.ok (.FAILURE, m', rest)) := by
  obtain ⟨m', rest, _, _, h1, _⟩ := C50_no_player (fun _ => none) guidePlayer (.inl rfl) [66, 111, 98, 32, 55] (by decide)
    (fun first last k s rest e h => by
      have h1 := h.spaces
      have h2 := congrArg (List.countP fun c => decide (Space c)) e
      rw [List.countP_append, show List.countP (fun c => decide (Space c)) ([66, 111, 98, 32, 55] : List Ch) = 1 from rfl] at h2
      omega) ⟨[.tup [.coll [], .coll [], .num 3]], []⟩ 0 [] [] _ rfl
  exact ⟨m', rest, h1⟩

/-! ### C51 -/

/-- C51: an action that takes nothing is called once for every character. -/
theorem C51_matched (env : Env) (id : Nat) (t : List Ch) (m : Mem) :
    Answers env (guideMatched id) .nil m t
      (.ok (.SUCCESS, ⟨m.objs, m.log ++ t.map fun _ => ⟨id, .nil⟩⟩, [])) := by
  have h := (matched_star (env := env) (bnd := .nil) (t := t) (id := id) (j := 0) (i := 0) (m := m) rfl).ends.does
  rw [← elab_guideMatched] at h
  have h := Answers.of_parses h.parses
  rwa [List.drop_zero, Nat.zero_add, List.drop_length] at h

/-- C51: an action that takes a `char` is called with every character, in order. -/
theorem C51_found (env : Env) (id : Nat) (t : List Ch) (ht : ∀ c ∈ t, IsChar c) (m : Mem) :
    ∃ m', Answers env (guideFound id) .nil m t (.ok (.SUCCESS, m', [])) ∧
      m'.log = m.log ++ t.map (fun c => ⟨id, .num c⟩) ∧
      ∀ o, o < m.objs.length → m'.objs[o]? = m.objs[o]? := by
  obtain ⟨m', h1, h2, h3⟩ := found_star (env := env) (bnd := .nil) (id := id) ht (j := 0) (i := 0) (m := m) rfl
  have h := h1.ends.does
  rw [← elab_guideFound] at h
  have h := Answers.of_parses h.parses
  rw [List.drop_zero, Nat.zero_add, List.drop_length] at h
  exact ⟨m', h, h3, h2⟩

/-- C51: what an action returns for every character is appended to the destination, in order; the
character is converted to the type of the parameter, and the result to that of the elements. -/
theorem C51_mapped (env : Env) (id : Nat) (k k' : NumKind) (f : Int → Int) (t : List Ch) (m : Mem) (o : Nat)
    (vs : List Val) (ho : m.objs[o]? = some (.coll vs)) :
    ∃ m', Answers env (guideMapped id (.num k) f) (.at o [] (.coll (.num k'))) m t (.ok (.SUCCESS, m', [])) ∧
      m'.objs[o]? = some (.coll (vs ++ t.map fun c => .num (k'.wrap (f (k.wrap c))))) ∧
      m'.log = m.log ++ t.map (fun c => ⟨id, .num (k.wrap c)⟩) ∧
      ∀ o', o' < m.objs.length → o' ≠ o → m'.objs[o']? = m.objs[o']? := by
  obtain ⟨m', h1, ⟨y, y', e1, e2, e3, e4⟩, h3⟩ := mapped_star (env := env) (bnd := .at o [] (.coll (.num k')))
    (id := id) (k := k) (k' := k') (f := f) (o := o) (p := []) (j := 0) (i := 0) (m := m) (t := t) (vs := vs) rfl
    (by simp only [Mem.read, ho, Val.get])
  have h := h1.ends.does
  rw [← elab_guideMapped] at h
  have h := Answers.of_parses h.parses
  rw [List.drop_zero, Nat.zero_add, List.drop_length] at h
  refine ⟨m', h, ?_, h3, e4⟩
  rw [e3]
  simpa [Val.update] using e2.symm

/-- ASCII `toupper`, as in the guide, on "aZ\xe9" (the last one is negative as a `char`). -/
example : ∃ m', Answers (fun _ => none)
      (guideMapped 0 (.num (.unsigned 8)) fun c => if 97 ≤ c ∧ c ≤ 122 then c - 32 else c)
      (.at 0 [] .string) ⟨[.coll [.num 33]], []⟩ [97, 90, -23] (.ok (.SUCCESS, m', [])) ∧
    m'.objs[0]? = some (.coll [.num 33, .num 65, .num 90, .num (-23)]) ∧
    m'.log = [⟨0, .num 97⟩, ⟨0, .num 90⟩, ⟨0, .num 233⟩] := by
  obtain ⟨m', h1, h2, h3, _⟩ := C51_mapped (fun _ => none) 0 (.unsigned 8) (.signed 8)
    (fun c => if 97 ≤ c ∧ c ≤ 122 then c - 32 else c) [97, 90, -23] ⟨[.coll [.num 33]], []⟩ 0 _ rfl
  exact ⟨m', h1, h2, h3⟩

end Abu
