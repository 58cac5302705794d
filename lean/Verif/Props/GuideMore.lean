import Verif.Props.Leaf
import Verif.Proofs.GuideMore
import Verif.Proofs.ReadmeUnique
import Verif.Proofs.GuideLoop
import Verif.Proofs.Answers
import Verif.Props.Chunks
/-
C56 - C59: more examples of the user guide.
-/
namespace Abu

/-! ### C56 -/

/-- C56: `prefixed_hex<MIN, MAX>()` reads "0x" or "0X" and the digits after it, at most `MAX`, and
stores the number they write in base 16 (modulo the range of the destination) if there are `MIN` of
them. -/
theorem C56_prefixed_hex (env : Env) (mn mx : Nat) (pre ds rest : List Ch) (rs : List Nat)
    (hp : pre = [48, 120] ∨ pre = [48, 88]) (hrun : LongestRun 16 mx ds rs rest) (hmn : mn ≤ ds.length)
    (w : Nat) (m : Mem) (o : Nat) (old : Val) (ho : m.objs[o]? = some old) :
    ∃ m', Answers env (guideHex mn mx) (.at o [] (.num (.unsigned w))) m (pre ++ (ds ++ rest))
        (.ok (.SUCCESS, m', rest)) ∧
      m'.objs[o]? = some (.num ((positional 16 rs : Int) % 2 ^ w)) ∧
      ∀ o', o' < m.objs.length → o' ≠ o → m'.objs[o']? = m.objs[o']? := by
  generalize ht : pre ++ (ds ++ rest) = t
  have h0 : pre <+: t.drop 0 := ⟨ds ++ rest, by rw [ht]; rfl⟩
  have h2 : pre.length = 2 := by rcases hp with rfl | rfl <;> rfl
  have hd : t.drop (0 + 2) = ds ++ rest := by rw [← ht, ← h2, Nat.zero_add, List.drop_left]
  obtain ⟨m', h3, x, y, h4, h5, h6, h7⟩ := Ends.uint (env := env) (bnd := .at o [] (.num (.unsigned w)))
    (j := 0 + 2) (mn := mn) (w := w) (m := m) (o := o) (p := []) (by decide) (by decide) hrun hd
    ⟨old, old, ho, rfl⟩
  rw [digitRes_ok hmn] at h3
  have h8 := (SeqEnds.ends (slots := [some 0, some 1]) (dst := .at o [] (.num (.unsigned w))) (.cons rfl (hexPrefix_ends hp h0) (.last rfl h3 (by simp)))).does
  rw [← elab_guideHex] at h8
  have h9 := Answers.of_parses h8.parses
  rw [drop_add hd] at h9
  refine ⟨m', h9, ?_, h7⟩
  rw [h6]
  simpa [Val.update] using h5.symm

/-- C56: with less than `MIN` digits after the prefix it fails. -/
theorem C56_too_few_digits (env : Env) (mn mx : Nat) (hmx : mx = 0 ∨ mn ≤ mx) (pre ds rest : List Ch) (rs : List Nat)
    (hp : pre = [48, 120] ∨ pre = [48, 88]) (hrun : LongestRun 16 mx ds rs rest) (hmn : ds.length < mn)
    (w : Nat) (m : Mem) (o : Nat) (old : Val) (ho : m.objs[o]? = some old) :
    ∃ m', Answers env (guideHex mn mx) (.at o [] (.num (.unsigned w))) m (pre ++ (ds ++ rest))
        (.ok (.FAILURE, m', rest)) ∧
      ∀ o', o' < m.objs.length → o' ≠ o → m'.objs[o']? = m.objs[o']? := by
  generalize ht : pre ++ (ds ++ rest) = t
  have h0 : pre <+: t.drop 0 := ⟨ds ++ rest, by rw [ht]; rfl⟩
  have h2 : pre.length = 2 := by rcases hp with rfl | rfl <;> rfl
  have hd : t.drop (0 + 2) = ds ++ rest := by rw [← ht, ← h2, Nat.zero_add, List.drop_left]
  obtain ⟨m', h3, x, y, h4, h5, h6, h7⟩ := Ends.uint (env := env) (bnd := .at o [] (.num (.unsigned w)))
    (j := 0 + 2) (mn := mn) (w := w) (m := m) (o := o) (p := []) (by decide) (by decide) hrun hd
    ⟨old, old, ho, rfl⟩
  rw [digitRes_no hmn hmx] at h3
  have h8 := (SeqEnds.ends (slots := [some 0, some 1]) (dst := .at o [] (.num (.unsigned w))) (.cons rfl (hexPrefix_ends hp h0) (.last rfl h3 (by simp)))).does
  rw [← elab_guideHex] at h8
  have h9 := Answers.of_parses h8.parses
  rw [drop_add hd] at h9
  exact ⟨m', h9, h7⟩

/-- C56: without prefix it fails, reads nothing and stores nothing. -/
theorem C56_no_prefix (env : Env) (mn mx : Nat) (t : List Ch) (h1 : ¬ [48, 120] <+: t) (h2 : ¬ [48, 88] <+: t)
    (k : NumKind) (m : Mem) (o : Nat) :
    Answers env (guideHex mn mx) (.at o [] (.num k)) m t (.ok (.FAILURE, m, t)) := by
  have h8 := (SeqEnds.ends (slots := [some 0, some 1]) (dst := .at o [] (.num k)) (Ps := [hexPrefixP, .uint 16 mn mx])
    (.fail rfl (hexPrefix_fails (env := env) (dst := .at o [] (.num k)) (bnd := .at o [] (.num k)) (m := m)
      (i := 0) (t := t) h1 h2))).does
  rw [← elab_guideHex] at h8
  exact .of_parses h8.parses

/-- C56: every text is of one of these kinds. -/
theorem C56_every_text (mx : Nat) (t : List Ch) (ht : ∀ c ∈ t, IsChar c) :
    (∃ pre ds rs rest, t = pre ++ (ds ++ rest) ∧ (pre = [48, 120] ∨ pre = [48, 88]) ∧ LongestRun 16 mx ds rs rest) ∨
      (¬ [48, 120] <+: t ∧ ¬ [48, 88] <+: t) := by
  have key : ∀ pre, (pre = [48, 120] ∨ pre = [48, 88]) → pre <+: t → ∃ pre ds rs rest, t = pre ++ (ds ++ rest) ∧
      (pre = [48, 120] ∨ pre = [48, 88]) ∧ LongestRun 16 mx ds rs rest := by
    rintro pre hp ⟨u, rfl⟩
    obtain ⟨ds, rs, rest, rfl, h⟩ := C10_longest_run_exists 16 mx u fun c hc => ht c (by simp [hc])
    exact ⟨pre, ds, rs, rest, rfl, hp, h⟩
  by_cases h1 : [48, 120] <+: t
  · exact .inl (key _ (.inl rfl) h1)
  by_cases h2 : [48, 88] <+: t
  · exact .inl (key _ (.inr rfl) h2)
  · exact .inr ⟨h1, h2⟩

/-- `prefixed_hex<1, 2>()` on "0Xff1" -/
example : ∃ m', Answers (fun _ => none) (guideHex 1 2) (.at 0 [] (.num (.unsigned 32))) ⟨[.num 7], []⟩
    [48, 88, 102, 102, 49] (.ok (.SUCCESS, m', [49])) ∧ m'.objs[0]? = some (.num 255) := by
  obtain ⟨m', h1, h2, _⟩ := C56_prefixed_hex (fun _ => none) 1 2 [48, 88] [102, 102] [49] [15, 15] (.inr rfl)
    ⟨.cons (by decide) (.inl ⟨by decide, rfl⟩) (.cons (by decide) (.inl ⟨by decide, rfl⟩) .nil),
      fun _ => by decide, .inl ⟨by decide, rfl⟩⟩ (by decide) 32 ⟨[.num 7], []⟩ 0 _ rfl
  exact ⟨m', h1, h2⟩

/-- `prefixed_hex<2, 2>()` on "0xf" -/
example : ∃ m', Answers (fun _ => none) (guideHex 2 2) (.at 0 [] (.num (.unsigned 32))) ⟨[.num 7], []⟩
    [48, 120, 102] (.ok (.FAILURE, m', [])) := by
  obtain ⟨m', h1, _⟩ := C56_too_few_digits (fun _ => none) 2 2 (.inr (by decide)) [48, 120] [102] [] [15] (.inl rfl)
    ⟨.cons (by decide) (.inl ⟨by decide, rfl⟩) .nil, fun _ => by decide, .inr fun c t' h => by cases h⟩ (by decide)
    32 ⟨[.num 7], []⟩ 0 _ rfl
  exact ⟨m', h1⟩

/-- "0Xff1" has a prefix. -/
example : ∃ pre ds rs rest, [48, 88, 102, 102, 49] = pre ++ (ds ++ rest) ∧ (pre = [48, 120] ∨ pre = [48, 88]) ∧
    LongestRun 16 2 ds rs rest :=
  (C56_every_text 2 _ (by decide)).resolve_right fun h => h.2 (by decide)

/-- "0" is no prefix. -/
example : Answers (fun _ => none) (guideHex 1 0) (.at 0 [] (.num (.unsigned 32))) ⟨[.num 7], []⟩ [48]
    (.ok (.FAILURE, ⟨[.num 7], []⟩, [48])) := C56_no_prefix _ _ _ _ (by decide) (by decide) _ _ _

/-- In a sequence with other values the prefix takes an element of the tuple (nary/alternative.h:115):
`char_() >> prefixed_hex<1, 0>()` does not compile with a `std::tuple<char, unsigned>`. -/
theorem C56_prefix_takes_a_slot :
    Parses (fun _ => none) (.seqOp (.char .any) (guideHex 1 0)) (.at 0 [] (.tup [.char, .num (.unsigned 32)]))
      ⟨[.tup [.num 1, .num 2]], []⟩ [97, 48, 120, 49] (.error .noCompile) :=
  parses_of_parseN (n := 20) rfl

/-! ### C57 -/

/-- C57: `*(ows >> int_)` appends to the vector the numbers the text starts with, ignoring the spaces
before each, and leaves what follows the last one, spaces included, provided the numbers fit an
`int`. -/
theorem C57_ints (env : Env) (t rest : List Ch) (ns : List Int) (ht : ∀ c ∈ t, IsChar c)
    (h : Ints ns t rest) (hf : ∀ n ∈ ns, fitsInt n.natAbs) (m : Mem) (o : Nat) (vs : List Val) (ho : m.objs[o]? = some (.coll vs)) :
    ∃ m', Answers env guideInts (.at o [] (.coll .int)) m t (.ok (.SUCCESS, m', rest)) ∧
      m'.objs[o]? = some (.coll (vs ++ ns.map .num)) ∧
      ∀ o', o' < m.objs.length → o' ≠ o → m'.objs[o']? = m.objs[o']? := by
  obtain ⟨i', m', h1, h2, y, y', e1, e2, e3, e4⟩ := h.ends (env := env) (bnd := .at o [] (.coll .int)) ht hf
    (i := 0) (m := m) (o := o) (p := []) (vs := vs) rfl (by simp only [Mem.read, ho, Val.get])
  refine ⟨m', ?_, ?_, e4⟩
  · have h3 := h1.ends.does
    rw [show (.rep 0 0 intItemP : Prog) = topParser guideInts from elab_guideInts.symm] at h3
    have h4 := Answers.of_parses h3.parses
    rwa [h2] at h4
  · rw [e3]
    simpa [Val.update] using e2.symm

/-- C57: every text starts with some such numbers. -/
theorem C57_every_text (t : List Ch) (ht : ∀ c ∈ t, IsChar c) : ∃ ns rest, Ints ns t rest :=
  exists_ints t.length t (Nat.le_refl _) ht

/-- C57: and in one way only. -/
theorem C57_one_reading {ns ns' : List Int} {t rest rest' : List Ch} (h : Ints ns t rest) (h' : Ints ns' t rest') :
    ns = ns' ∧ rest = rest' := h.unique h'

/-- C57: if one of the numbers does not fit, the behaviour is undefined. -/
theorem C57_undefined (env : Env) (t rest : List Ch) (ns : List Int) (ht : ∀ c ∈ t, IsChar c)
    (h : Ints ns t rest) (hf : ∃ n ∈ ns, ¬ fitsInt n.natAbs) (m : Mem) (o : Nat) (vs : List Val)
    (ho : m.objs[o]? = some (.coll vs)) :
    ∃ err, (err = .ubOverflow ∨ err = .ubUninit) ∧
      Answers env guideInts (.at o [] (.coll .int)) m t (.error err) := by
  have h1 := h.dies (env := env) (bnd := .at o [] (.coll .int)) ht (hf.imp fun _ h => ⟨h.1, by simpa using h.2⟩)
    (i := 0) (m := m) (o := o) (p := []) (vs := vs) rfl (by simp only [Mem.read, ho, Val.get])
  have h2 := h1.dies
  rw [show (.rep 0 0 intItemP : Prog) = topParser guideInts from elab_guideInts.symm] at h2
  obtain ⟨e, he, h3⟩ := h2.parses
  exact ⟨e, he, Answers.of_parses h3⟩

/-- C57: the behaviour is defined exactly if all of the numbers fit. -/
theorem C57_defined_iff (env : Env) (t rest : List Ch) (ns : List Int) (ht : ∀ c ∈ t, IsChar c)
    (h : Ints ns t rest) (m : Mem) (o : Nat) (vs : List Val) (ho : m.objs[o]? = some (.coll vs)) :
    (∃ r m' rest', Answers env guideInts (.at o [] (.coll .int)) m t (.ok (r, m', rest'))) ↔
      ∀ n ∈ ns, fitsInt n.natAbs := by
  constructor
  · rintro ⟨r, m', rest', h1⟩ n hn
    cases hv : fitsInt n.natAbs with
    | true => rfl
    | false =>
      obtain ⟨_, _, h2⟩ := C57_undefined env t rest ns ht h ⟨n, hn, by simp [hv]⟩ m o vs ho
      cases h1.unique h2
  · intro hf
    obtain ⟨m', h1, _⟩ := C57_ints env t rest ns ht h hf m o vs ho
    exact ⟨_, _, _, h1⟩

/-- " 7-1 \n" -/
theorem exInts : Ints [7, -1] [32, 55, 45, 49, 32, 10] [32, 10] := by
  have hd : ∀ r : Nat, r < 10 → IsDigitSymbol r ((48 + r : Nat) : Int) := fun r hr => by
    rw [isDigitSymbol_iff _ _ (by omega), if_pos (by omega)]; omega
  have hno : ∀ {c : Ch} {l : List Ch}, IsChar c → ¬ (48 ≤ c ∧ c ≤ 57) → NoDigitNext 10 (c :: l) := by
    intro c l h1 h2 c' l' e
    cases e
    exact ⟨h1, fun r hr h => h2 (by have := digit_range hr h; omega)⟩
  have h7 : Numeral 7 [55] := ⟨[], false, [55], [7], .none, .cons (by decide) (hd 7 (by decide)) .nil, by decide, rfl, rfl⟩
  have h1 : Numeral (-1) [45, 49] := ⟨[45], true, [49], [1], .minus, .cons (by decide) (hd 1 (by decide)) .nil, by decide, rfl, rfl⟩
  refine .more (w := [32]) (s := [55]) (by unfold Spaces; decide) h7 (hno (by decide) (by decide)) ?_
  refine .more (w := []) (s := [45, 49]) (by unfold Spaces; decide) h1 (hno (by decide) (by decide)) ?_
  refine .stop ?_
  rintro ⟨w, n, s, r, _, hn, e⟩
  obtain ⟨c, s', rfl, hc⟩ := hn.head
  have hm : c ∈ ([32, 10] : List Ch) := by rw [e]; simp
  exact hc ((by unfold Spaces; decide : Spaces [32, 10]) c hm)

example : ∃ m', Answers (fun _ => none) guideInts (.at 0 [] (.coll .int)) ⟨[.coll [.num 3]], []⟩
    [32, 55, 45, 49, 32, 10] (.ok (.SUCCESS, m', [32, 10])) ∧
    m'.objs[0]? = some (.coll [.num 3, .num 7, .num (-1)]) := by
  obtain ⟨m', e1, e2, _⟩ := C57_ints (fun _ => none) _ _ _ (by decide) exInts (by decide) ⟨[.coll [.num 3]], []⟩ 0 _ rfl
  exact ⟨m', e1, e2⟩

/-- There is no other way to read it. -/
example {ns rest} (h : Ints ns [32, 55, 45, 49, 32, 10] rest) : [7, -1] = ns ∧ [32, 10] = rest :=
  C57_one_reading exInts h

/-- `9999999999` -/
example : ∃ err, Answers (fun _ => none) guideInts (.at 0 [] (.coll .int)) ⟨[.coll [.num 3]], []⟩
    [57, 57, 57, 57, 57, 57, 57, 57, 57, 57] (.error err) := by
  have hn : Numeral 9999999999 [57, 57, 57, 57, 57, 57, 57, 57, 57, 57] :=
    ⟨[], false, _, [9, 9, 9, 9, 9, 9, 9, 9, 9, 9], .none, by
      repeat (first | exact .nil | refine .cons (by decide) (.inl ⟨by decide, rfl⟩) ?_), by simp, rfl, rfl⟩
  have hi : Ints [9999999999] [57, 57, 57, 57, 57, 57, 57, 57, 57, 57] [] := by
    refine .more (w := []) (t := []) (fun _ h => (by cases h)) hn (fun _ _ h => (by cases h)) (.stop ?_)
    rintro ⟨w, n, s, r, _, hn, e⟩
    obtain ⟨c, s', rfl, _⟩ := hn.head
    simp at e
  exact (C57_undefined _ _ _ _ (by decide) hi ⟨9999999999, by simp, by decide⟩ _ 0 _ rfl).imp fun _ h => h.2

/-! ### C58 -/

/-- C58: without `lexeme` the first name takes all letters and digits the text starts with, spaces
between them being skipped, so nothing is left for the last name and the score, and the parser fails. -/
theorem C58_without_lexeme (env : Env) (s rest : List Ch) (ht : ∀ c ∈ s ++ rest, IsChar c)
    (hs : ∀ c ∈ s, Alnum c ∨ Space c) (hr : ∀ c l, rest = c :: l → ¬ Alnum c ∧ ¬ Space c)
    (m : Mem) (o : Nat) (a b : List Val) (c : Val) (ho : m.objs[o]? = some (.tup [.coll a, .coll b, c])) :
    ∃ m', Answers env guideNoLexeme (.at o [] (.tup [.string, .string, .unsigned])) m (s ++ rest)
        (.ok (.FAILURE, m', rest)) ∧
      m'.objs[o]? = some (.tup [.coll (a ++ (s.filter fun c => decide (Alnum c)).map .num), .coll b, .num 0]) ∧
      ∀ o', o' < m.objs.length → o' ≠ o → m'.objs[o']? = m.objs[o']? := by
  generalize hts : s ++ rest = t at ht ⊢
  obtain ⟨w, _, _, g⟩ := exists_over t 0
  have hd : t.drop s.length = rest := by rw [← hts, List.drop_left]
  have hend : Over t s.length s.length := .here fun c hc => by
    have h := drop_of_getElem? hc
    rw [hd] at h
    exact (hr _ _ h).2
  have hnd : NoDigitNext 10 rest := by
    intro c l e
    refine ⟨ht c (by rw [← hts, e]; simp), fun r h10 h => ?_⟩
    have h1 := (hr c l e).1
    have := digit_range h10 h
    unfold Alnum at h1
    omega
  obtain ⟨m1, e1, f1⟩ := loose_star (env := env) (bnd := .at o [] playerTy) (o := o) (p := [0]) ht hr (s := s) (i := 0)
    (i0 := 0 + w.length) (j := 0) (m := m) (vs := a) (by rw [List.drop_zero, hts]) hs g g.end_at (by simp [Mem.read, ho, Val.get])
  rw [Nat.zero_add s.length] at e1
  have ho1 := f1.slot ho
  obtain ⟨m2, e2, f2⟩ := loose_star (env := env) (bnd := .at o [] playerTy) (o := o) (p := [1]) ht hr (s := []) (i := s.length)
    (i0 := s.length) (j := s.length) (m := m1) (vs := b) hd (fun _ h => by cases h) hend hend (by simp [Mem.read, ho1, Val.get])
  have ho2 := f2.slot ho1
  obtain ⟨m3, e3, f3⟩ := Ends.uint (env := env) (bnd := .at o [] playerTy) (j := s.length) (mn := 1) (mx := 0) (w := 32) (o := o)
    (p := [2]) (m := m2) (i := s.length) (t := t) (ds := []) (rs := []) (rest := rest) (by decide) (by decide)
    ⟨.nil, fun h => absurd rfl h, .inr hnd⟩ hd (has_slot ho2 (by simp))
  have ho3 := f3.slot ho2
  have h4 := (Ends.withSkipper (Ends.over ht g (SeqEnds.ends (slots := [some 0, some 1, some 2])
    (.cons (seqDst_player rfl) (.over ht g.end_at e1.ends) (.cons (seqDst_player rfl) (.over ht hend e2.ends)
      (.last (seqDst_player rfl) (.over ht hend e3) (by decide))))))).does
  have h4 : Does env (topParser guideNoLexeme) (.at o [] playerTy) (.at o [] playerTy) t 0 m .FAILURE s.length [] m3 := by
    rw [elab_guideNoLexeme]; exact h4
  have h5 := h4.parses
  refine ⟨m3, .of_parses ?_, by rw [ho3]; simp [positional], f1.others.trans (f2.others.trans f3.others)⟩
  rwa [hd] at h5

/-- "John Doe    12" -/
example : ∃ m', Answers (fun _ => none) guideNoLexeme (.at 0 [] (.tup [.string, .string, .unsigned]))
    ⟨[.tup [.coll [], .coll [], .num 3]], []⟩ [74, 111, 104, 110, 32, 68, 111, 101, 32, 32, 32, 32, 49, 50]
    (.ok (.FAILURE, m', [])) ∧
    m'.objs[0]? = some (.tup [.coll ([74, 111, 104, 110, 68, 111, 101, 49, 50].map .num), .coll [], .num 0]) := by
  obtain ⟨m', h1, h2, _⟩ := C58_without_lexeme (fun _ => none)
    [74, 111, 104, 110, 32, 68, 111, 101, 32, 32, 32, 32, 49, 50] [] (by decide) (by decide) (by simp)
    ⟨[.tup [.coll [], .coll [], .num 3]], []⟩ 0 [] [] _ rfl
  exact ⟨m', h1, h2⟩

/-! ### C59 -/

/-- C59: the loop of the guide that reads a file in chunks ends with the verdicts of `parse` on the
text of the file, whatever the size of the chunks. In particular it ends iff `parse` does. -/
theorem C59_reading_loop (k : Nat) (hk : 0 < k) (env : Env) (p : Pat) (dst : Ref) (m : Mem) (file : List Ch)
    (v : Verdict) : ReadsFile k env p dst m file v ↔ Parses env p dst m file v := by
  have hc := loopOps_complete hk (file.length + 1) file (Nat.lt_succ_self _)
  have hx := loopOps_text hk (file.length + 1) file (Nat.lt_succ_self _)
  have key := C25_delivery_is_not_observable env p dst m _ hc
  rw [hx] at key
  rw [← key]
  constructor
  · intro h
    cases h with
    | construct h => exact .construct h
    | run h h' =>
      rcases ReadLoop.session hk _ (Nat.lt_succ_self _) h' with h'' | ⟨m', h''⟩
      · exact .run h h''
      · exact absurd (.run h h'') (C26_verdict_after_final_buffer env p dst m _ hc m' [])
  · intro h
    have hn : ∀ m' rest, v ≠ .ok (.PARTIAL, m', rest) := by
      rintro m' rest rfl
      exact C26_verdict_after_final_buffer env p dst m _ hc m' rest h
    cases h with
    | construct h => exact .construct h
    | run h h' => exact .run h (Session.readLoop hk _ (Nat.lt_succ_self _) h' hn)

/-- C59: after the loop the result is not `PARTIAL`. -/
theorem C59_never_partial (k : Nat) (hk : 0 < k) (env : Env) (p : Pat) (dst : Ref) (m m' : Mem) (file rest : List Ch) :
    ¬ ReadsFile k env p dst m file (.ok (.PARTIAL, m', rest)) := by
  rw [C59_reading_loop k hk]
  exact C26_parse_is_never_partial env p dst m file m' rest

/-- A file with "ab12" in chunks of 2: the last one is empty. -/
example : ReadsFile 2 (fun _ => none) exPat (.at 0 [] .int) ⟨[.num 7], []⟩ [97, 98, 49, 50]
    (.ok (.SUCCESS, ⟨[.num 12], []⟩, [])) := by
  rw [C59_reading_loop 2 (by decide)]
  exact parses_of_parseN (n := 20) rfl

end Abu
