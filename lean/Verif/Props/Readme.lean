import Verif.Proofs.ReadmeRectUndefined
import Verif.Proofs.ReadmeUnique
import Verif.Proofs.Answers
import Verif.Proofs.Eval
/-
C46, C47: the examples of the README.
-/
namespace Abu

theorem noNumber_bracket {l : List Ch} : NoNumber (93 :: l) := by
  intro sg neg c t' h hs r hr hd
  have := digit_range hr hd
  cases hs with
  | none =>
    simp only [List.nil_append, List.cons.injEq] at h
    omega
  | plus => simp at h
  | minus => simp at h

/-- C46: if the text starts with a list of numbers in brackets, the first example of the README
succeeds, appends exactly these numbers to the vector and consumes exactly this list. -/
theorem C46_list (env : Env) (s rest : List Ch) (ns : List Int) (ht : ∀ c ∈ s ++ rest, IsChar c)
    (h : Bracketed ns s) (hf : ∀ n ∈ ns, fitsInt n.natAbs) (m : Mem) (o : Nat) (vs : List Val)
    (ho : m.objs[o]? = some (.coll vs)) :
    ∃ m', Answers env readmeList (.at o [] (.coll .int)) m (s ++ rest) (.ok (.SUCCESS, m', rest)) ∧
      m'.objs[o]? = some (.coll (vs ++ ns.map .num)) ∧
      ∀ o', o' < m.objs.length → o' ≠ o → m'.objs[o']? = m.objs[o']? := by
  generalize hts : s ++ rest = t at ht ⊢
  have hr : m.read (.at o [] (.coll .int)) = .ok (.coll vs) := by simp only [Mem.read, ho, Val.get]
  have h91 : ¬ Space 91 := by decide
  have h93 := noDigit_char (c := 93) (.inr rfl)
  suffices hk : ∃ k m', Over t 0 k ∧ Ends env (.seq [none, some 0, none] [litW 91, listW, litW 93])
      (.at o [] (.coll .int)) (.at o [] (.coll .int)) t 0 k m .SUCCESS s.length m' ∧
      Sets m o [] (.coll (vs ++ ns.map .num)) m' by
    obtain ⟨k, m', h1, h2, y, y', e1, e2, e3, e4⟩ := hk
    refine ⟨m', ?_, ?_, e4⟩
    · have h4 := (Ends.withSkipper (Ends.over ht h1 h2)).does
      rw [← elab_readmeList] at h4
      have h5 := Answers.of_parses h4.parses
      rwa [← hts, List.drop_left, hts] at h5
    · rw [e3]
      simpa [Val.update] using e2.symm
  cases h with
  | @none w w' hw hw' =>
    have hd0 : t.drop 0 = w ++ 91 :: (w' ++ 93 :: rest) := by rw [List.drop_zero, ← hts]; simp
    obtain ⟨h1, h2⟩ := over_to hd0 hw h91
    have hd1 := (drop_cons (drop_add hd0)).2.1
    obtain ⟨h3, h4⟩ := over_to hd1 hw' h93.2.1
    have hn : NoNumber (t.drop (0 + w.length + 1 + w'.length)) := by
      rw [drop_of_getElem? h4]
      exact noNumber_bracket
    obtain ⟨i', m', h5, h6⟩ := item_fails_list (env := env) (bnd := .at o [] (.coll .int)) (j := 0 + w.length + 1)
      (m := m) (o := o) (p := []) ht h3.end_at hn
    refine ⟨_, m', h1, ?_, by simpa using h6.same hr⟩
    have e : (w ++ 91 :: (w' ++ [93])).length = 0 + w.length + 1 + w'.length + 1 := by simp; omega
    rw [e]
    exact SeqEnds.ends (.cons (d := .nil) rfl (.litW ht h1.end_at h2) (.cons (d := .at o [] (.coll .int)) rfl
      (.over ht h3 (ListEnds.ends rfl rfl (.noItem h5))) (.last (d := .nil) rfl (.litW ht h3 h4) (by simp))))
  | @some w ns s w' hw hs hw' =>
    have hd0 : t.drop 0 = w ++ 91 :: (s ++ (w' ++ 93 :: rest)) := by rw [List.drop_zero, ← hts]; simp
    obtain ⟨h1, h2⟩ := over_to hd0 hw h91
    have hd1 := (drop_cons (drop_add hd0)).2.1
    obtain ⟨h3, h4⟩ := over_to (drop_add hd1) hw' h93.2.1
    obtain ⟨k, h5, h6⟩ := hs.ends (env := env) (bnd := .at o [] (.coll .int)) (g := 0 + w.length + 1)
      (j := 0 + w.length + 1) ht hf hw' hd1 hr
    obtain ⟨m', h7, h8⟩ := h6 k h5.end_at
    refine ⟨_, m', h1, ?_, h8⟩
    have e : (w ++ 91 :: (s ++ w' ++ [93])).length = 0 + w.length + 1 + s.length + w'.length + 1 := by
      simp; omega
    rw [e]
    exact SeqEnds.ends (.cons (d := .nil) rfl (.litW ht h1.end_at h2) (.cons (d := .at o [] (.coll .int)) rfl
      (.over ht h5 (ListEnds.ends rfl rfl h7)) (.last (d := .nil) rfl (.litW ht h3 h4) (by simp))))

/-- C46: otherwise it fails, unless a number that does not fit is met; the vector has got the numbers that were read up to there, nothing else
has changed. -/
theorem C46_no_list (env : Env) (t : List Ch) (ht : ∀ c ∈ t, IsChar c)
    (h : ∀ ns s rest, t = s ++ rest → ¬ Bracketed ns s) (hb : ¬ MeetsBigNumber t) (m : Mem) (o : Nat)
    (vs : List Val) (ho : m.objs[o]? = some (.coll vs)) :
    ∃ m' rest ns, Answers env readmeList (.at o [] (.coll .int)) m t (.ok (.FAILURE, m', rest)) ∧
      m'.objs[o]? = some (.coll (vs ++ ns.map .num)) ∧
      (ns = [] ∨ ∃ w s u, t = w ++ 91 :: (s ++ u) ∧ Spaces w ∧ Listed ns s) ∧
      ∀ o', o' < m.objs.length → o' ≠ o → m'.objs[o']? = m.objs[o']? := by
  have hr : m.read (.at o [] (.coll .int)) = .ok (.coll vs) := by simp only [Mem.read, ho, Val.get]
  suffices hk : ∃ k i' m' ns, Over t 0 k ∧ Ends env (.seq [none, some 0, none] [litW 91, listW, litW 93])
      (.at o [] (.coll .int)) (.at o [] (.coll .int)) t 0 k m .FAILURE i' m' ∧
      Sets m o [] (.coll (vs ++ ns.map .num)) m' ∧
      (ns = [] ∨ ∃ w s u, t = w ++ 91 :: (s ++ u) ∧ Spaces w ∧ Listed ns s) by
    obtain ⟨k, i', m', ns, h1, h2, ⟨y, y', e1, e2, e3, e4⟩, h3⟩ := hk
    refine ⟨m', t.drop i', ns, ?_, ?_, h3, e4⟩
    · have h4 := (Ends.withSkipper (Ends.over ht h1 h2)).does
      rw [← elab_readmeList] at h4
      exact Answers.of_parses h4.parses
    · rw [e3]
      simpa [Val.update] using e2.symm
  obtain ⟨w, h1, h2, h3⟩ := exists_over t 0
  by_cases hc : t[0 + w.length]? = some 91
  · obtain ⟨w1, g1, g2, g3⟩ := exists_over t (0 + w.length + 1)
    have h0 : t = w ++ 91 :: t.drop (0 + w.length + 1) := by
      rw [← drop_of_getElem? hc, ← h1, List.drop_zero]
    rcases list_total (env := env) (bnd := .at o [] (.coll .int)) (g := 0 + w.length + 1)
      (j := 0 + w.length + 1) ht _ (Nat.le_refl _) hr _ _ g3 g3.end_at with
      ⟨ns, s, rest, f1, f2, f3, n, f4, f5⟩ | ⟨x, m', ns, h4, h5, _, h6⟩
    · exact absurd ⟨w, ns, s, rest, by rw [← f2]; exact h0, h2, f1, f3, n, f4, by simpa using f5⟩ hb
    obtain ⟨w2, f1, f2, f3⟩ := exists_over t x
    have hend : t[x + w2.length]? ≠ some 93 := by
      intro h93
      have f4 := drop_of_getElem? h93
      rcases h6 with ⟨rfl, rfl⟩ | ⟨s, h6, h7⟩
      · refine h [] (w ++ 91 :: (w2 ++ [93])) (t.drop (0 + w.length + 1 + w2.length + 1)) ?_ (.none h2 f2)
        refine h0.trans ?_
        rw [f1, f4]
        simp
      · refine h ns (w ++ 91 :: (s ++ w2 ++ [93])) (t.drop (x + w2.length + 1)) ?_ (.some h2 h6 f2)
        refine h0.trans ?_
        rw [h7, f1, f4]
        simp
    refine ⟨_, _, m', ns, h3, SeqEnds.ends (.cons (d := .nil) rfl (.litW ht h3.end_at hc)
      (.cons (d := .at o [] (.coll .int)) rfl (.over ht g3 (ListEnds.ends rfl rfl h4))
      (.last (d := .nil) rfl (.litW_fail ht f3 hend) (by simp)))), h5, ?_⟩
    rcases h6 with ⟨rfl, _⟩ | ⟨s, h6, h7⟩
    · exact .inl rfl
    · exact .inr ⟨w, s, t.drop x, by rw [← h7]; exact h0, h2, h6⟩
  · refine ⟨_, _, m, [], h3, SeqEnds.ends (.fail (d := .nil) rfl (.litW_fail ht h3.end_at hc)), ?_, .inl rfl⟩
    simpa using (Grows.refl m).same hr

/-- C46: if a number that does not fit is met, the behaviour is undefined. -/
theorem C46_undefined (env : Env) (t : List Ch) (ht : ∀ c ∈ t, IsChar c) (h : MeetsBigNumber t) (m : Mem) (o : Nat)
    (vs : List Val) (ho : m.objs[o]? = some (.coll vs)) :
    ∃ err, (err = .ubOverflow ∨ err = .ubUninit) ∧
      Answers env readmeList (.at o [] (.coll .int)) m t (.error err) := by
  obtain ⟨w, ns, s, rest, h0, hw, hs, hn, hf⟩ := h
  have hr : m.read (.at o [] (.coll .int)) = .ok (.coll vs) := by simp only [Mem.read, ho, Val.get]
  have hd0 : t.drop 0 = w ++ 91 :: (s ++ rest) := by rw [List.drop_zero, h0]
  obtain ⟨h1, h2⟩ := over_to hd0 hw (by decide)
  have hd1 := (drop_cons (drop_add hd0)).2.1
  obtain ⟨k, h5, h6⟩ := hs.dies (env := env) (bnd := .at o [] (.coll .int)) (g := 0 + w.length + 1)
    (j := 0 + w.length + 1) ht (hf.imp fun _ h => ⟨h.1, by simpa using h.2⟩) hn hd1 hr
  have h7 : Dies env (topParser readmeList) (.at o [] (.coll .int)) (.at o [] (.coll .int)) t 0 0 m := by
    rw [elab_readmeList]
    exact .withSkipper (.over ht h1 (SeqDies.dies (.cons (d := .nil) rfl (.litW ht h1.end_at h2)
      (.here (d := .at o [] (.coll .int)) rfl (.over ht h5 (ListDies.dies rfl rfl (h6 k h5.end_at)))))))
  obtain ⟨e, he, h8⟩ := h7.parses
  exact ⟨e, he, Answers.of_parses h8⟩

/-- C46 for every text: a number that does not fit is met and the behaviour is undefined; or the text starts with
a list of numbers in brackets, which is read; or it does not, and the parser fails. -/
theorem C46_every_text (env : Env) (t : List Ch) (ht : ∀ c ∈ t, IsChar c) (m : Mem) (o : Nat)
    (vs : List Val) (ho : m.objs[o]? = some (.coll vs)) :
    (MeetsBigNumber t ∧ ∃ err, (err = .ubOverflow ∨ err = .ubUninit) ∧
      Answers env readmeList (.at o [] (.coll .int)) m t (.error err)) ∨
    (∃ ns s rest m', t = s ++ rest ∧ Bracketed ns s ∧
      Answers env readmeList (.at o [] (.coll .int)) m t (.ok (.SUCCESS, m', rest)) ∧
      m'.objs[o]? = some (.coll (vs ++ ns.map .num)) ∧
      ∀ o', o' < m.objs.length → o' ≠ o → m'.objs[o']? = m.objs[o']?) ∨
    ((∀ ns s rest, t = s ++ rest → ¬ Bracketed ns s) ∧
      ∃ m' rest ns, Answers env readmeList (.at o [] (.coll .int)) m t (.ok (.FAILURE, m', rest)) ∧
        m'.objs[o]? = some (.coll (vs ++ ns.map .num)) ∧
        (ns = [] ∨ ∃ w s u, t = w ++ 91 :: (s ++ u) ∧ Spaces w ∧ Listed ns s) ∧
        ∀ o', o' < m.objs.length → o' ≠ o → m'.objs[o']? = m.objs[o']?) := by
  by_cases hb : MeetsBigNumber t
  · exact .inl ⟨hb, C46_undefined env t ht hb m o vs ho⟩
  refine .inr ?_
  by_cases h : ∃ ns s rest, t = s ++ rest ∧ Bracketed ns s
  · obtain ⟨ns, s, rest, rfl, h⟩ := h
    have hf : ∀ n ∈ ns, fitsInt n.natAbs = true := by
      intro n hn
      cases hv : fitsInt n.natAbs with
      | true => rfl
      | false =>
        exfalso
        cases h with
        | none => cases hn
        | @some w ns s w' hw hs hw' =>
          have h93 := noDigit_char (c := 93) (.inr rfl)
          exact hb ⟨w, ns, s, w' ++ 93 :: rest, by simp, hw, hs, noDigit_spaces hw' h93.1 h93.2.2, n, hn, by simp [hv]⟩
    obtain ⟨m', h1, h2, h3⟩ := C46_list env s rest ns ht h hf m o vs ho
    exact .inl ⟨ns, s, rest, m', rfl, h, h1, h2, h3⟩
  · have h : ∀ ns s rest, t = s ++ rest → ¬ Bracketed ns s := fun ns s rest h1 h2 => h ⟨ns, s, rest, h1, h2⟩
    exact .inr ⟨h, C46_no_list env t ht h hb m o vs ho⟩

/-- C46: the behaviour is defined exactly if no number that does not fit is met. -/
theorem C46_defined_iff (env : Env) (t : List Ch) (ht : ∀ c ∈ t, IsChar c) (m : Mem) (o : Nat)
    (vs : List Val) (ho : m.objs[o]? = some (.coll vs)) :
    (∃ r m' rest, Answers env readmeList (.at o [] (.coll .int)) m t (.ok (r, m', rest))) ↔ ¬ MeetsBigNumber t := by
  constructor
  · rintro ⟨r, m', rest, h1⟩ hb
    obtain ⟨_, _, h2⟩ := C46_undefined env t ht hb m o vs ho
    cases h1.unique h2
  · intro hb
    rcases C46_every_text env t ht m o vs ho with ⟨h, _⟩ | ⟨_, _, rest, m', _, _, h, _⟩ | ⟨_, m', rest, _, h, _⟩
    · exact absurd h hb
    · exact ⟨_, _, _, h⟩
    · exact ⟨_, _, _, h⟩

/-- C46: a text starts with one list in brackets at most, so "exactly these numbers" and "exactly this text" leave
no choice. -/
theorem C46_one_list {ns ns' : List Int} {s s' rest rest' : List Ch} (e : s ++ rest = s' ++ rest')
    (h : Bracketed ns s) (h' : Bracketed ns' s') : ns = ns' ∧ s = s' := h.unique h' e

/-- C47: if the text starts with two or four numbers in brackets, the second example of the README
succeeds, constructs the rectangle from exactly these numbers and consumes exactly this text. -/
theorem C47_rectangle (env : Env) (s rest : List Ch) (ns : List Int) (ht : ∀ c ∈ s ++ rest, IsChar c)
    (h : Bracketed ns s) (hl : ns.length = 2 ∨ ns.length = 4) (hf : ∀ n ∈ ns, fitsInt n.natAbs) (m : Mem)
    (id o : Nat) (ho : o < m.objs.length) :
    ∃ m', Answers env readmeRectangle (.at o [] (.user id)) m (s ++ rest) (.ok (.SUCCESS, m', rest)) ∧
      m'.objs[o]? = some (.obj id (ns.map .num)) ∧
      ∀ o', o' < m.objs.length → o' ≠ o → m'.objs[o']? = m.objs[o']? := by
  generalize hts : s ++ rest = t at ht ⊢
  obtain ⟨x, hx⟩ : ∃ x, m.objs[o]? = some x := ⟨_, List.getElem?_eq_getElem ho⟩
  have hm : Has m o [] := ⟨x, x, hx, rfl⟩
  have h91 : ¬ Space 91 := by decide
  suffices hk : ∃ k m', Over t 0 k ∧ Ends env (.alt [rectW 1, rectW 3])
      (.at o [] (.user id)) (.at o [] (.user id)) t 0 k m .SUCCESS s.length m' ∧
      Sets m o [] (.obj id (ns.map .num)) m' by
    obtain ⟨k, m', h1, h2, y, y', e1, e2, e3, e4⟩ := hk
    refine ⟨m', ?_, ?_, e4⟩
    · have h4 := (Ends.withSkipper (Ends.over ht h1 h2)).does
      rw [← elab_readmeRectangle] at h4
      have h5 := Answers.of_parses h4.parses
      rwa [← hts, List.drop_left, hts] at h5
    · rw [e3]
      simpa [Val.update] using e2.symm
  cases h with
  | none => simp at hl
  | @some w ns s w' hw hs hw' =>
    obtain ⟨n, ns, w1, s, u, rfl, hw1, hn, hr, rfl⟩ := hs.first
    have hd0 : t.drop 0 = w ++ 91 :: (w1 ++ (s ++ (u ++ (w' ++ 93 :: rest)))) := by
      rw [List.drop_zero, ← hts]; simp
    obtain ⟨h1, h2⟩ := over_to hd0 hw h91
    have hd1 := (drop_cons (drop_add hd0)).2.1
    have e : (w ++ 91 :: (w1 ++ (s ++ u) ++ w' ++ [93])).length =
        0 + w.length + 1 + w1.length + s.length + u.length + w'.length + 1 := by
      simp; omega
    rw [e]
    simp only [List.length_cons] at hl
    rcases hl with hl | hl
    · obtain ⟨m', f1, f2⟩ := (rect_ends (env := env) (bnd := .at o [] (.user id)) (j := 0) (id := id) (r := 1)
        ht h1.end_at h2 hw1 hn hr hw' hf hd1 hm).1 (by omega)
      exact ⟨_, m', h1, AltEnds.ends (.here f1), f2⟩
    · obtain ⟨m1, f1, f2⟩ := (rect_ends (env := env) (bnd := .at o [] (.user id)) (j := 0) (id := id) (r := 1)
        ht h1.end_at h2 hw1 hn hr hw' hf hd1 hm).2 (by omega)
      obtain ⟨m', g1, g2⟩ := (rect_ends (env := env) (bnd := .at o [] (.user id)) (j := 0) (id := id) (r := 3)
        ht h1 h2 hw1 hn hr hw' hf hd1 (hm.grows f2)).1 (by omega)
      exact ⟨_, m', h1, AltEnds.ends (.cons f1 (.here g1)), f2.sets ho g2⟩

/-- C47: otherwise it fails and nothing has changed, unless a number that does not fit is met. -/
theorem C47_no_rectangle (env : Env) (t : List Ch) (ht : ∀ c ∈ t, IsChar c)
    (h : ∀ ns s rest, t = s ++ rest → Bracketed ns s → ns.length ≠ 2 ∧ ns.length ≠ 4) (hb : ¬ MeetsBigCoordinate t)
    (m : Mem) (id o : Nat) :
    ∃ m' rest, Answers env readmeRectangle (.at o [] (.user id)) m t (.ok (.FAILURE, m', rest)) ∧
      ∀ o', o' < m.objs.length → m'.objs[o']? = m.objs[o']? := by
  obtain ⟨w, h1, h2, h3⟩ := exists_over t 0
  have key : ∀ n ns w1 s u w' rest, t.drop (0 + w.length) = 91 :: (w1 ++ (s ++ (u ++ (w' ++ 93 :: rest)))) →
      Spaces w1 → Numeral n s → Rest ns u → Spaces w' → ns.length ≠ 1 ∧ ns.length ≠ 3 := by
    intro n ns w1 s u w' rest e1 e2 e3 e4 e5
    have := h (n :: ns) _ rest (by
      rw [← List.drop_zero (l := t), h1, e1]
      simp only [List.append_assoc, List.cons_append, List.nil_append]) (.some h2 (e4.listed e2 e3) e5)
    simp only [List.length_cons] at this
    omega
  have hf : ∀ n ns w1 s u rest, t.drop (0 + w.length) = 91 :: (w1 ++ (s ++ (u ++ rest))) → Spaces w1 →
      Numeral n s → Rest ns u → ns.length ≤ 3 → NoDigitNext 10 rest → ∀ a ∈ n :: ns, fitsInt a.natAbs = true := by
    intro n ns w1 s u rest e1 e2 e3 e4 e5 e6 a ha
    cases hv : fitsInt a.natAbs with
    | true => rfl
    | false =>
      refine absurd ⟨w, n :: ns, _, rest, ?_, h2, e4.listed e2 e3, by simpa using e5, e6, a, ha, by simp [hv]⟩ hb
      rw [← List.drop_zero (l := t), h1, e1]
      simp only [List.append_assoc]
  obtain ⟨m1, f1, f2⟩ := rect_fails (env := env) (bnd := .at o [] (.user id)) (j := 0) (id := id) (r := 1) (m := m)
    (o := o) (p := []) ht h3.end_at (fun n ns w1 s u rest e1 e2 e3 e4 e5 => hf n ns w1 s u rest e1 e2 e3 e4 (by omega))
    fun n ns w1 s u w' rest e1 e2 e3 e4 e5 => (key n ns w1 s u w' rest e1 e2 e3 e4 e5).1
  obtain ⟨m2, g1, g2⟩ := rect_fails (env := env) (bnd := .at o [] (.user id)) (j := 0) (id := id) (r := 3) (m := m1)
    (o := o) (p := []) ht h3 hf fun n ns w1 s u w' rest e1 e2 e3 e4 e5 => (key n ns w1 s u w' rest e1 e2 e3 e4 e5).2
  have h4 := (Ends.withSkipper (Ends.over ht h3 (AltEnds.ends (.cons f1 (.last g1))))).does
  rw [← elab_readmeRectangle] at h4
  exact ⟨m2, _, Answers.of_parses h4.parses, f2.trans g2⟩

/-- C47: if one of the first four numbers does not fit, the behaviour is undefined, whatever follows it. -/
theorem C47_undefined (env : Env) (t : List Ch) (ht : ∀ c ∈ t, IsChar c) (h : MeetsBigCoordinate t) (m : Mem)
    (id o : Nat) :
    ∃ err, (err = .ubOverflow ∨ err = .ubUninit) ∧
      Answers env readmeRectangle (.at o [] (.user id)) m t (.error err) := by
  obtain ⟨w, ns, s, rest, h0, hw, hs, hl, hnd, hb⟩ := h
  obtain ⟨n, ns, w1, s, u, rfl, hw1, hn, hr, rfl⟩ := hs.first
  have hd0 : t.drop 0 = w ++ 91 :: (w1 ++ (s ++ (u ++ rest))) := by rw [List.drop_zero, h0]; simp
  obtain ⟨h1, h2⟩ := over_to hd0 hw (by decide)
  have hd1 := (drop_cons (drop_add hd0)).2.1
  have hb : ∃ a ∈ n :: ns, ¬ fitsInt a.natAbs = true := hb
  have hd : Dies env (.alt [rectW 1, rectW 3]) (.at o [] (.user id)) (.at o [] (.user id)) t 0 (0 + w.length) m := by
    rcases rect_big (env := env) (bnd := .at o [] (.user id)) (j := 0) (id := id) (r := 1) (m := m) (o := o) (p := [])
      ht h1.end_at h2 hw1 hn hr hnd hb hd1 with f | ⟨_, m1, f⟩
    · exact AltDies.dies (.here f)
    · rcases rect_big (env := env) (bnd := .at o [] (.user id)) (j := 0) (id := id) (r := 3) (m := m1) (o := o) (p := [])
        ht h1 h2 hw1 hn hr hnd hb hd1 with g | ⟨g, _⟩
      · exact AltDies.dies (.cons f (.here g))
      · simp only [List.length_cons] at hl
        omega
  have h7 : Dies env (topParser readmeRectangle) (.at o [] (.user id)) (.at o [] (.user id)) t 0 0 m := by
    rw [elab_readmeRectangle]
    exact .withSkipper (.over ht h1 hd)
  obtain ⟨e, he, h8⟩ := h7.parses
  exact ⟨e, he, Answers.of_parses h8⟩

/-- C47: every text is of one of these kinds. -/
theorem C47_every_text (env : Env) (t : List Ch) (ht : ∀ c ∈ t, IsChar c) (m : Mem) (id o : Nat)
    (ho : o < m.objs.length) :
    (MeetsBigCoordinate t ∧ ∃ err, (err = .ubOverflow ∨ err = .ubUninit) ∧
      Answers env readmeRectangle (.at o [] (.user id)) m t (.error err)) ∨
    (∃ ns s rest m', t = s ++ rest ∧ Bracketed ns s ∧ (ns.length = 2 ∨ ns.length = 4) ∧
      Answers env readmeRectangle (.at o [] (.user id)) m t (.ok (.SUCCESS, m', rest)) ∧
      m'.objs[o]? = some (.obj id (ns.map .num)) ∧
      ∀ o', o' < m.objs.length → o' ≠ o → m'.objs[o']? = m.objs[o']?) ∨
    ((∀ ns s rest, t = s ++ rest → Bracketed ns s → ns.length ≠ 2 ∧ ns.length ≠ 4) ∧
      ∃ m' rest, Answers env readmeRectangle (.at o [] (.user id)) m t (.ok (.FAILURE, m', rest)) ∧
        ∀ o', o' < m.objs.length → m'.objs[o']? = m.objs[o']?) := by
  by_cases hb : MeetsBigCoordinate t
  · exact .inl ⟨hb, C47_undefined env t ht hb m id o⟩
  by_cases h : ∃ ns s rest, t = s ++ rest ∧ Bracketed ns s ∧ (ns.length = 2 ∨ ns.length = 4)
  · obtain ⟨ns, s, rest, rfl, h, hl⟩ := h
    have hf : ∀ n ∈ ns, fitsInt n.natAbs = true := by
      intro n hn
      cases hv : fitsInt n.natAbs with
      | true => rfl
      | false =>
        exfalso
        cases h with
        | none => cases hn
        | @some w ns s w' hw hs hw' =>
          have h93 := noDigit_char (c := 93) (.inr rfl)
          exact hb ⟨w, ns, s, w' ++ 93 :: rest, by simp, hw, hs, by omega, noDigit_spaces hw' h93.1 h93.2.2, n, hn,
            by simp [hv]⟩
    obtain ⟨m', h1, h2⟩ := C47_rectangle env s rest ns ht h hl hf m id o ho
    exact .inr (.inl ⟨ns, s, rest, m', rfl, h, hl, h1, h2⟩)
  · have h' : ∀ ns s rest, t = s ++ rest → Bracketed ns s → ns.length ≠ 2 ∧ ns.length ≠ 4 := fun ns s rest h1 h2 =>
      ⟨fun h3 => h ⟨ns, s, rest, h1, h2, .inl h3⟩, fun h3 => h ⟨ns, s, rest, h1, h2, .inr h3⟩⟩
    exact .inr (.inr ⟨h', C47_no_rectangle env t ht h' hb m id o⟩)

/-- C47: the behaviour is defined exactly if no number that does not fit is met. -/
theorem C47_defined_iff (env : Env) (t : List Ch) (ht : ∀ c ∈ t, IsChar c) (m : Mem) (id o : Nat)
    (ho : o < m.objs.length) :
    (∃ r m' rest, Answers env readmeRectangle (.at o [] (.user id)) m t (.ok (r, m', rest))) ↔
      ¬ MeetsBigCoordinate t := by
  constructor
  · rintro ⟨r, m', rest, h1⟩ hb
    obtain ⟨_, _, h2⟩ := C47_undefined env t ht hb m id o
    cases h1.unique h2
  · intro hb
    rcases C47_every_text env t ht m id o ho with ⟨h, _⟩ | ⟨_, _, rest, m', _, _, _, h, _⟩ | ⟨_, m', rest, h, _⟩
    · exact absurd h hb
    · exact ⟨_, _, _, h⟩
    · exact ⟨_, _, _, h⟩

/-! ### Cases -/

theorem digitString_bound {ds rs} (h : DigitString 10 ds rs) : ∀ a : Nat,
    rs.foldl (fun a d => a * 10 + d) a < (a + 1) * 10 ^ ds.length := by
  induction h with
  | nil => intro a; simp
  | @cons c r ds rs hr _ _ ih =>
    intro a
    refine Nat.lt_of_lt_of_le (ih (a * 10 + r)) ?_
    rw [List.length_cons, Nat.pow_succ, ← Nat.mul_assoc, Nat.mul_right_comm]
    exact Nat.mul_le_mul_right _ (by omega)

/-- All numbers in short texts fit. -/
theorem numbersFit_short {t : List Ch} (h : t.length ≤ 9) : NumbersFit t := by
  rintro a s b n rfl ⟨sg, neg, ds, rs, _, hd, _, rfl, rfl⟩
  have h1 := digitString_bound hd 0
  have h2 : 10 ^ ds.length ≤ 10 ^ 9 := Nat.pow_le_pow_right (by decide) (by simp at h; omega)
  rw [withSign_natAbs, fitsInt_iff]
  simp only [NumKind.inRange, positional]
  omega

theorem Bracketed.last {ns s} (h : Bracketed ns s) : 93 ∈ s := by
  cases h <;> simp

theorem numeral_digit {r : Nat} (hr : r < 10) : Numeral r [(48 + r : Nat)] := by
  refine ⟨[], false, [((48 + r : Nat) : Int)], [r], .none, .cons hr ?_ .nil, by simp, ?_, rfl⟩
  · rw [isDigitSymbol_iff _ _ (by omega)]
    rw [if_pos (by omega)]
    omega
  · simp [withSign, positional]

/-- ` [1 ,	2]` -/
theorem exBracketed : Bracketed [1, 2] [32, 91, 49, 32, 44, 9, 50, 93] := by
  have h1 := numeral_digit (r := 1) (by omega)
  have h2 := numeral_digit (r := 2) (by omega)
  have := Bracketed.some (w := [32]) (w' := []) (by simp [Spaces, Space])
    (.more (w := []) (w' := [32]) (by simp [Spaces]) h1 (by simp [Spaces, Space])
      (.one (w := [9]) (by simp [Spaces, Space]) h2)) (by simp [Spaces])
  exact this

example : ∃ m', Answers (fun _ => none) readmeList (.at 0 [] (.coll .int)) ⟨[.coll [.num 7]], []⟩
    [32, 91, 49, 32, 44, 9, 50, 93, 44] (.ok (.SUCCESS, m', [44])) ∧
    m'.objs[0]? = some (.coll [.num 7, .num 1, .num 2]) := by
  obtain ⟨m', h1, h2, _⟩ := C46_list (fun _ => none) _ [44] _ (by decide) exBracketed (by decide)
    ⟨[.coll [.num 7]], []⟩ 0 _ rfl
  exact ⟨m', h1, h2⟩

example : ∃ m', Answers (fun _ => none) readmeRectangle (.at 0 [] (.user 9)) ⟨[.obj 9 []], []⟩
    [32, 91, 49, 32, 44, 9, 50, 93, 44] (.ok (.SUCCESS, m', [44])) ∧
    m'.objs[0]? = some (.obj 9 [.num 1, .num 2]) := by
  obtain ⟨m', h1, h2, _⟩ := C47_rectangle (fun _ => none) _ [44] _ (by decide) exBracketed (by decide) (by decide)
    ⟨[.obj 9 []], []⟩ 9 0 (by decide)
  exact ⟨m', h1, h2⟩

theorem Listed.fit {ns s} (h : Listed ns s) : NumbersFit s → ∀ n ∈ ns, fitsInt n.natAbs := by
  induction h with
  | @one w n s _ hn =>
    intro hf n' h
    obtain rfl : n' = n := by simpa using h
    exact hf w s [] n' (by simp) hn
  | @more w n s w' ns u _ hn _ _ ih =>
    intro hf n' h
    rcases List.mem_cons.1 h with rfl | h
    · exact hf w s (w' ++ 44 :: u) n' (by simp) hn
    · exact ih (fun a s' b k e => hf (w ++ s ++ w' ++ 44 :: a) s' b k (by rw [e]; simp)) n' h

theorem NumbersFit.notBig {t : List Ch} (h : NumbersFit t) : ¬ MeetsBigNumber t := by
  rintro ⟨w, ns, s, rest, rfl, _, hs, _, n, hn, hf⟩
  exact hf (hs.fit (fun a s' b k e => h (w ++ 91 :: a) s' (b ++ rest) k (by rw [e]; simp)) n hn)

theorem MeetsBigCoordinate.number {t : List Ch} (h : MeetsBigCoordinate t) : MeetsBigNumber t := by
  obtain ⟨w, ns, s, rest, h1, h2, h3, _, h4⟩ := h
  exact ⟨w, ns, s, rest, h1, h2, h3, h4⟩

theorem NumbersFit.notBigCoordinate {t : List Ch} (h : NumbersFit t) : ¬ MeetsBigCoordinate t :=
  fun hb => h.notBig hb.number

/-- The numbers of `[1,2,3]` are these. -/
theorem exThree : ∀ ns s rest, ([91, 49, 44, 50, 44, 51, 93] : List Ch) = s ++ rest → Bracketed ns s →
    ns.length ≠ 2 ∧ ns.length ≠ 4 := by
  intro ns s rest h hb
  have hlen : s.length ≤ 7 := by have := congrArg List.length h; simp at this; omega
  have hf : ∀ n ∈ ns, fitsInt n.natAbs := by
    cases hb with
    | none => simp
    | @some w ns s w' _ hs _ => exact hs.fit (numbersFit_short (by simp at hlen; omega))
  obtain ⟨m', h1, h2, _⟩ := C46_list (fun _ => none) s rest ns (by rw [← h]; decide) hb hf
    ⟨[.coll []], []⟩ 0 [] rfl
  rw [← h] at h1
  have h3 : ∃ m rest, parseN (fun _ => none) 100 readmeList (.at 0 [] (.coll .int)) ⟨[.coll []], []⟩
      [91, 49, 44, 50, 44, 51, 93] = some (.ok (.SUCCESS, m, rest)) ∧
      m.objs[0]? = some (.coll [.num 1, .num 2, .num 3]) := ⟨_, _, rfl, rfl⟩
  obtain ⟨m2, rest2, h3, h4⟩ := h3
  have h5 := h1.1.unique (parses_of_parseN h3)
  simp only [Except.ok.injEq, Prod.mk.injEq, true_and] at h5
  rw [h5.1, h4] at h2
  simp only [List.nil_append, Option.some.injEq, Val.coll.injEq] at h2
  have := congrArg List.length h2
  simp at this
  omega

example : ∃ m' rest, Answers (fun _ => none) readmeRectangle (.at 0 [] (.user 9)) ⟨[.obj 9 []], []⟩
    [91, 49, 44, 50, 44, 51, 93] (.ok (.FAILURE, m', rest)) ∧ m'.objs[0]? = some (.obj 9 []) := by
  obtain ⟨m', rest, h1, h2⟩ := C47_no_rectangle (fun _ => none) _ (by decide) exThree (numbersFit_short (by decide)).notBigCoordinate
    ⟨[.obj 9 []], []⟩ 9 0
  exact ⟨m', rest, h1, h2 0 (by decide)⟩

/-- `[1,2`: no list. -/
example : ∃ m' rest ns, Answers (fun _ => none) readmeList (.at 0 [] (.coll .int)) ⟨[.coll []], []⟩
    [91, 49, 44, 50] (.ok (.FAILURE, m', rest)) ∧ m'.objs[0]? = some (.coll ns) := by
  obtain ⟨m', rest, ns, h1, h2, _⟩ := C46_no_list (fun _ => none) [91, 49, 44, 50] (by decide)
    (fun ns s rest h hb => by
      have := hb.last
      have : (93 : Ch) ∈ ([91, 49, 44, 50] : List Ch) := by rw [h]; simp [this]
      revert this; decide) (numbersFit_short (by decide)).notBig ⟨[.coll []], []⟩ 0 [] rfl
  exact ⟨m', rest, _, h1, h2⟩

/-- `[1,9999999999`: undefined, though there is no list. -/
theorem exBigCoordinate : MeetsBigCoordinate [91, 49, 44, 57, 57, 57, 57, 57, 57, 57, 57, 57, 57] := by
  have d : ∀ {r : Nat} {c : Ch} {ds rs}, r < 10 → IsDigitSymbol r c → DigitString 10 ds rs →
      DigitString 10 (c :: ds) (r :: rs) := .cons
  have nine : IsDigitSymbol 9 57 := .inl ⟨by decide, rfl⟩
  have h1 : Numeral 1 [49] := ⟨[], false, [49], [1], .none, d (by decide) (.inl ⟨by decide, rfl⟩) .nil, by simp, rfl, rfl⟩
  have h2 : Numeral 9999999999 [57, 57, 57, 57, 57, 57, 57, 57, 57, 57] :=
    ⟨[], false, _, [9, 9, 9, 9, 9, 9, 9, 9, 9, 9], .none, by
      repeat (first | exact .nil | refine d (by decide) nine ?_), by simp, rfl, rfl⟩
  exact ⟨[], [1, 9999999999], _, [], rfl, fun _ h => (by cases h), .more (w := []) (w' := []) (fun _ h => (by cases h)) h1
    (fun _ h => (by cases h)) (.one (w := []) (fun _ h => (by cases h)) h2), by decide, fun _ _ h => (by cases h), 9999999999,
    by simp, by decide⟩
example : ∃ err, Answers (fun _ => none) readmeList (.at 0 [] (.coll .int)) ⟨[.coll []], []⟩
    [91, 49, 44, 57, 57, 57, 57, 57, 57, 57, 57, 57, 57] (.error err) :=
  (C46_undefined _ _ (by decide) exBigCoordinate.number _ 0 [] rfl).imp fun _ h => h.2
example : ∃ r m' rest, Answers (fun _ => none) readmeList (.at 0 [] (.coll .int)) ⟨[.coll []], []⟩
    [91, 49, 44, 50] (.ok (r, m', rest)) :=
  (C46_defined_iff _ _ (by decide) _ 0 [] rfl).2 (numbersFit_short (by decide)).notBig
example : ∃ err, Answers (fun _ => none) readmeRectangle (.at 0 [] (.user 9)) ⟨[.obj 9 []], []⟩
    [91, 49, 44, 57, 57, 57, 57, 57, 57, 57, 57, 57, 57] (.error err) :=
  (C47_undefined _ _ (by decide) exBigCoordinate _ 9 0).imp fun _ h => h.2
example : ∃ r m' rest, Answers (fun _ => none) readmeRectangle (.at 0 [] (.user 9)) ⟨[.obj 9 []], []⟩
    [91, 49, 44, 50] (.ok (r, m', rest)) :=
  (C47_defined_iff _ _ (by decide) _ 9 0 (by decide)).2 (numbersFit_short (by decide)).notBigCoordinate

/-- There are fewer commas than numbers. -/
theorem Listed.commas {ns s} (h : Listed ns s) : s.count 44 < ns.length := by
  have sp : ∀ {w : List Ch}, Spaces w → w.count 44 = 0 := fun hw =>
    List.count_eq_zero.2 fun h => absurd (hw _ h) (by decide)
  have nu : ∀ {n s}, Numeral n s → s.count 44 = 0 := by
    rintro n s ⟨sg, neg, ds, rs, hs, hd, h2, h3, rfl⟩
    have h1 : ds.count 44 = 0 := by
      clear hs h2 h3
      induction hd with
      | nil => rfl
      | cons hr hc _ ih =>
        have := digit_range hr hc
        rw [List.count_cons_of_ne (by omega)]
        exact ih
    rw [List.count_append, h1]
    cases hs <;> rfl
  induction h with
  | one hw hn => simp [sp hw, nu hn]
  | more hw hn hw' _ ih => simp [sp hw, nu hn, sp hw']; omega

/-- `[1,2,3,4,9999999999`: the fifth number is not read. -/
example : ∃ r m' rest, Answers (fun _ => none) readmeRectangle (.at 0 [] (.user 9)) ⟨[.obj 9 []], []⟩
    [91, 49, 44, 50, 44, 51, 44, 52, 44, 57, 57, 57, 57, 57, 57, 57, 57, 57, 57] (.ok (r, m', rest)) := by
  refine (C47_defined_iff _ _ (by decide) _ 9 0 (by decide)).2 ?_
  rintro ⟨w, ns, s, rest, h, hw, hs, hl, _, n, hn, hf⟩
  cases w with
  | cons c w =>
    rw [List.cons_append, List.cons.injEq] at h
    exact absurd (hw c (by simp)) (by rw [← h.1]; decide)
  | nil =>
    rw [List.nil_append, List.cons.injEq] at h
    have h1 := hs.commas
    refine hf (hs.fit (numbersFit_short (Nat.not_lt.1 fun h2 => ?_)) n hn)
    have h3 : s.take 8 = [49, 44, 50, 44, 51, 44, 52, 44] := by
      rw [← List.take_append_of_le_length (l₂ := rest) (by omega), ← h.2]
      rfl
    have h4 := (List.take_sublist 8 s).count_le 44
    rw [h3] at h4
    have h5 : ([49, 44, 50, 44, 51, 44, 52, 44] : List Ch).count 44 = 4 := by decide
    omega

/-- The only list at the start of ` [1 ,	2]` is `1, 2`. -/
example {ns s rest} (h : Bracketed ns s) (e : [32, 91, 49, 32, 44, 9, 50, 93] ++ [] = s ++ rest) : [1, 2] = ns :=
  (C46_one_list e exBracketed h).1

end Abu
