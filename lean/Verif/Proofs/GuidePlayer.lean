import Verif.Proofs.Guide
/-
The player of the user guide.
-/
namespace Abu

/-- A name. -/
def nameW : Prog := .skip spaceP (.lexeme (.rep 0 0 (.char guideAlnum)))

/-- The order of the characters of a set does not matter. -/
theorem guideSpace_eq : setOfCString [32, 13, 10, 9, 0] = setOfCString [32, 9, 13, 10, 0] := by
  simp only [setOfCString, CharSet.indexed.injEq]
  have h1 : ([32, 13, 10, 9, 0] : List Ch).takeWhile (· ≠ 0) = [32, 13, 10, 9] := by decide
  have h2 : ([32, 9, 13, 10, 0] : List Ch).takeWhile (· ≠ 0) = [32, 9, 13, 10] := by decide
  rw [h1, h2]
  simp only [indexedSet, List.foldl, BitSet.set, BitSet.mk.injEq]
  funext x
  simp only [BitSet.none, show asIndex 9 = 9 from rfl, show asIndex 10 = 10 from rfl,
    show asIndex 13 = 13 from rfl, show asIndex 32 = 32 from rfl]
  by_cases h9 : x = 9 <;> by_cases h10 : x = 10 <;> by_cases h13 : x = 13 <;> by_cases h32 : x = 32 <;> simp [h9, h10, h13, h32]

theorem elab_guidePlayer : topParser guidePlayer =
    .withSkipper (.skip spaceP (.seq [some 0, some 1, some 2] [nameW, nameW, .skip spaceP (.uint 10 1 0)])) := by
  have h : topParser guidePlayer =
      .withSkipper (.skip (.char (setOfCString [32, 13, 10, 9, 0]))
        (.seq [some 0, some 1, some 2]
          [.skip (.char (setOfCString [32, 13, 10, 9, 0])) (.lexeme (.rep 0 0 (.char guideAlnum))),
           .skip (.char (setOfCString [32, 13, 10, 9, 0])) (.lexeme (.rep 0 0 (.char guideAlnum))),
           .skip (.char (setOfCString [32, 13, 10, 9, 0])) (.uint 10 1 0)])) := by rfl
  rw [h, guideSpace_eq]
  rfl

theorem valid_alnum {c : Ch} : guideAlnum.isValid c = true ↔ Alnum c := by
  simp only [guideAlnum, CharSet.isValid, Bool.or_eq_true, Bool.and_eq_true, decide_eq_true_eq, Alnum]
  omega

/-- The letters and digits from `i` on are `s`. -/
structure Word (t : List Ch) (i : Nat) (s : List Ch) : Prop where
  text : t.drop i = s ++ t.drop (i + s.length)
  all : ∀ c ∈ s, Alnum c
  stop : ∀ c, t[i + s.length]? = some c → ¬ Alnum c

theorem exists_word (t : List Ch) (i : Nat) : ∃ s, Word t i s := by
  generalize hl : t.drop i = l
  induction l generalizing i with
  | nil => exact ⟨[], by simp, fun _ h => (by cases h), by simp [(drop_nil hl).2]⟩
  | cons c l ih =>
    obtain ⟨h1, h2, _⟩ := drop_cons hl
    by_cases hc : Alnum c
    · obtain ⟨w, h3, h4, h5⟩ := ih (i + 1) h2
      have e : i + (c :: w : List Ch).length = i + 1 + w.length := by simp only [List.length_cons]; omega
      refine ⟨c :: w, ?_, ?_, by rw [e]; exact h5⟩
      · rw [e, List.cons_append, ← h3, hl, h2]
      · intro c' hc'
        rcases List.mem_cons.1 hc' with h | h
        · rw [h]; exact hc
        · exact h4 c' h
    · refine ⟨[], by simp, fun _ h => (by cases h), ?_⟩
      intro c' h
      simp only [List.length_nil, Nat.add_zero, h1, Option.some.injEq] at h
      rw [← h]; exact hc

section
variable {env : Env} {bnd : Ref} {t : List Ch} {j i : Nat} {m : Mem} {o : Nat} {p : List Nat}

theorem word_star : ∀ {s : List Ch} {i : Nat} {m : Mem} {vs}, Word t i s →
    m.read (.at o p .nil) = .ok (.coll vs) →
    ∃ m', StarEnds env (.char guideAlnum) (.at o p .string) bnd t j i m (i + s.length) m' ∧
      Sets m o p (.coll (vs ++ s.map .num)) m' := by
  intro s
  induction s generalizing j with
  | nil =>
    intro i m vs h hr
    refine ⟨m, .stop (.char_fail fun c hc => ?_), by simpa using (Grows.refl m).same hr⟩
    rw [Bool.eq_false_iff, ne_eq, valid_alnum]
    exact h.stop c hc
  | cons c s ih =>
    intro i m vs h hr
    have hc : Alnum c := h.all c (by simp)
    obtain ⟨h1, h2, _⟩ := drop_cons h.text
    have e : i + (c :: s : List Ch).length = i + 1 + s.length := by simp only [List.length_cons]; omega
    have hw : Word t (i + 1) s := by
      refine ⟨?_, fun c hc => h.all c (by simp [hc]), ?_⟩
      · rw [e] at h2; exact h2
      · rw [← e]; exact h.stop
    obtain ⟨m1, h3, h4⟩ := push_sets (ty := .char) (v := .num c) (e := .num c) (by
      unfold Alnum at hc
      simp only [Ty.char, Ty.convert, NumKind.wrap, Except.ok.injEq, Val.num.injEq]
      omega) hr
    obtain ⟨m2, h5, h6⟩ := ih (j := i + 1) hw (h4.read _)
    refine ⟨m2, .more (.char h1 (valid_alnum.2 hc) h3) ?_, by simpa using h4.trans h6⟩
    rw [e]
    exact h5

theorem name_ends {k s vs} (ht : ∀ c ∈ t, IsChar c) (hi : Over t i k) (hw : Word t k s)
    (hr : m.read (.at o p .nil) = .ok (.coll vs)) :
    ∃ m', Ends env nameW (.at o p .string) bnd t j i m .SUCCESS (k + s.length) m' ∧
      Sets m o p (.coll (vs ++ s.map .num)) m' := by
  obtain ⟨m', h1, h2⟩ := word_star (env := env) (bnd := bnd) (j := j) hw hr
  exact ⟨m', .over ht hi (.lexeme h1.ends), h2⟩

/-- The type of the destination. -/
abbrev playerTy : Ty := .tup [.string, .string, .unsigned]

theorem seqDst_player {q ty} (h : [Ty.string, Ty.string, Ty.unsigned][q]? = some ty) :
    seqDst (.at o [] playerTy) (some q) = some (.at o [q] ty) := by
  match q with
  | 0 => simp at h; subst h; rfl
  | 1 => simp at h; subst h; rfl
  | 2 => simp at h; subst h; rfl
  | q + 3 => simp at h

/-- The three parts one after the other, whatever the text is. -/
theorem player_ends {k1 k2 k3 : Nat} {s1 s2 ds rest : List Ch} {rs : List Nat} {a b : List Val} {c : Val}
    (ht : ∀ c ∈ t, IsChar c) (h0 : Over t i k1) (w1 : Word t k1 s1) (h2 : Over t (k1 + s1.length) k2)
    (w2 : Word t k2 s2) (h3 : Over t (k2 + s2.length) k3) (hd : DigitString 10 ds rs)
    (ht3 : t.drop k3 = ds ++ rest) (hn : NoDigitNext 10 rest)
    (ho : m.objs[o]? = some (.tup [.coll a, .coll b, c])) :
    ∃ m', Ends env (.seq [some 0, some 1, some 2] [nameW, nameW, .skip spaceP (.uint 10 1 0)])
        (.at o [] playerTy) bnd t j i m (if ds = [] then .FAILURE else .SUCCESS) (k3 + ds.length) m' ∧
      m'.objs[o]? = some (.tup [.coll (a ++ s1.map .num), .coll (b ++ s2.map .num),
        .num ((positional 10 rs : Int) % 2 ^ 32)]) ∧ Others m o m' := by
  obtain ⟨m1, e1, f1⟩ := name_ends (env := env) (bnd := bnd) (j := j) (o := o) (p := [0]) (m := m) (vs := a) ht h0 w1
    (by simp [Mem.read, ho, Val.get])
  have ho1 := f1.slot ho
  obtain ⟨m2, e2, f2⟩ := name_ends (env := env) (bnd := bnd) (j := k1 + s1.length) (o := o) (p := [1]) (m := m1)
    (vs := b) ht h2 w2 (by simp [Mem.read, ho1, Val.get])
  have ho2 := f2.slot ho1
  obtain ⟨m3, e3, f3⟩ := Ends.uint (env := env) (bnd := bnd) (j := k2 + s2.length) (mn := 1) (mx := 0) (w := 32) (o := o)
    (p := [2]) (m := m2) (by decide) (by decide) ⟨hd, fun h => absurd rfl h, .inr hn⟩ ht3 (has_slot ho2 (by simp))
  have ho3 := f3.slot ho2
  refine ⟨m3, ?_, by rw [ho3]; simp, f1.others.trans (f2.others.trans f3.others)⟩
  have hres : digitRes 1 0 0 ds.length = if ds = [] then Res.FAILURE else .SUCCESS := by
    cases ds with
    | nil => rfl
    | cons c ds => rw [if_neg (by simp)]; exact digitRes_ok (by simp)
  rw [← hres]
  exact SeqEnds.ends (.cons (seqDst_player rfl) e1 (.cons (seqDst_player rfl) e2
    (.last (seqDst_player rfl) (.over ht h3 e3) (by rw [hres]; split <;> simp))))

theorem alnum_not_space {c : Ch} (h : Alnum c) : ¬ Space c := by
  unfold Alnum at h; unfold Space; omega

/-- A name that is followed by a space. -/
theorem Name.word {s w rest : List Ch} (h : Name s) (hw : Spaces w) (hne : w ≠ []) (hd : t.drop i = s ++ (w ++ rest)) :
    Word t i s ∧ ∃ c s', s = c :: s' ∧ ¬ Space c := by
  refine ⟨⟨by rw [drop_add hd]; exact hd, h.2, fun c hc => ?_⟩, ?_⟩
  · cases w with
    | nil => exact absurd rfl hne
    | cons b w =>
      have h1 := drop_add hd
      rw [(drop_cons h1).1] at hc
      cases hc
      intro ha
      exact alnum_not_space ha (hw _ (by simp))
  · cases s with
    | nil => exact absurd rfl h.1
    | cons c s' => exact ⟨c, s', rfl, alnum_not_space (h.2 c (by simp))⟩

theorem DigitString.head_digit {ds rs} (h : DigitString 10 ds rs) (hne : ds ≠ []) :
    ∃ c s', ds = c :: s' ∧ ¬ Space c ∧ Alnum c := by
  cases h with
  | nil => exact absurd rfl hne
  | @cons c r ds rs hr hc _ =>
    have := digit_range hr hc
    exact ⟨c, ds, rfl, by unfold Space; omega, by unfold Alnum; omega⟩

/-- No letter or digit at `k`: no word there. -/
theorem Word.empty {s : List Ch} (h : Word t i s) (hn : ∀ c, t[i]? = some c → ¬ Alnum c) : s = [] := by
  cases s with
  | nil => rfl
  | cons c s =>
    have := drop_cons (by simpa using h.text)
    exact absurd (h.all c (by simp)) (hn c this.1)

theorem Word.end_at {s : List Ch} (h : Word t i s) : ∀ c, t[i + s.length]? = some c → ¬ Alnum c := h.stop

theorem Over.stop_at {k} (h : Over t i k) : ∀ c, t[k]? = some c → ¬ Space c := by
  induction h with
  | here h => exact h
  | more _ _ _ ih => exact ih

/-- After a word and no space there is no further word. -/
theorem no_word_again {s w s2 : List Ch} (h : Word t i s) (hw : w = []) (h2 : Word t (i + s.length + w.length) s2) :
    s2 = [] := by
  subst hw
  exact Word.empty h2 h.stop

/-! ### Without skipper -/

/-- Spaces that are not wanted. -/
def owsP : Prog := .discard (.rep 0 0 spaceP)

theorem elab_guidePlayerOws : topParser guidePlayerOws =
    .seq [none, some 0, none, some 1, none, some 2] [owsP, .rep 0 0 (.char guideAlnum), owsP,
      .rep 0 0 (.char guideAlnum), owsP, .uint 10 1 0] := by
  have h : topParser guidePlayerOws =
      .seq [none, some 0, none, some 1, none, some 2]
        [.discard (.rep 0 0 (.char (setOfCString [32, 13, 10, 9, 0]))), .rep 0 0 (.char guideAlnum),
         .discard (.rep 0 0 (.char (setOfCString [32, 13, 10, 9, 0]))), .rep 0 0 (.char guideAlnum),
         .discard (.rep 0 0 (.char (setOfCString [32, 13, 10, 9, 0]))), .uint 10 1 0] := by rfl
  rw [h, guideSpace_eq]
  rfl

theorem ows_star {k} (ht : ∀ c ∈ t, IsChar c) (h : Over t i k) : ∀ {j},
    StarEnds env spaceP .nil bnd t j i m k m := by
  induction h with
  | here h =>
    intro j
    refine .stop (.char_fail fun c hc => ?_)
    rw [Bool.eq_false_iff, ne_eq, valid_space (ht _ (List.mem_of_getElem? hc))]
    exact h c hc
  | more h hs _ ih =>
    intro j
    exact .more (.char h ((valid_space (ht _ (List.mem_of_getElem? h))).2 hs) rfl) ih

theorem player_ends_ows {k1 k2 k3 : Nat} {s1 s2 ds rest : List Ch} {rs : List Nat} {a b : List Val} {c : Val}
    (ht : ∀ c ∈ t, IsChar c) (h0 : Over t i k1) (w1 : Word t k1 s1) (h2 : Over t (k1 + s1.length) k2)
    (w2 : Word t k2 s2) (h3 : Over t (k2 + s2.length) k3) (hd : DigitString 10 ds rs)
    (ht3 : t.drop k3 = ds ++ rest) (hn : NoDigitNext 10 rest)
    (ho : m.objs[o]? = some (.tup [.coll a, .coll b, c])) :
    ∃ m', Ends env (.seq [none, some 0, none, some 1, none, some 2] [owsP, .rep 0 0 (.char guideAlnum), owsP,
        .rep 0 0 (.char guideAlnum), owsP, .uint 10 1 0])
        (.at o [] playerTy) bnd t j i m (if ds = [] then .FAILURE else .SUCCESS) (k3 + ds.length) m' ∧
      m'.objs[o]? = some (.tup [.coll (a ++ s1.map .num), .coll (b ++ s2.map .num),
        .num ((positional 10 rs : Int) % 2 ^ 32)]) ∧ Others m o m' := by
  obtain ⟨m1, e1, f1⟩ := word_star (env := env) (bnd := bnd) (j := k1) (o := o) (p := [0]) (m := m) (vs := a) w1
    (by simp [Mem.read, ho, Val.get])
  have ho1 := f1.slot ho
  obtain ⟨m2, e2, f2⟩ := word_star (env := env) (bnd := bnd) (j := k2) (o := o) (p := [1]) (m := m1)
    (vs := b) w2 (by simp [Mem.read, ho1, Val.get])
  have ho2 := f2.slot ho1
  obtain ⟨m3, e3, f3⟩ := Ends.uint (env := env) (bnd := bnd) (j := k3) (mn := 1) (mx := 0) (w := 32) (o := o)
    (p := [2]) (m := m2) (by decide) (by decide) ⟨hd, fun h => absurd rfl h, .inr hn⟩ ht3 (has_slot ho2 (by simp))
  have ho3 := f3.slot ho2
  refine ⟨m3, ?_, by rw [ho3]; simp, f1.others.trans (f2.others.trans f3.others)⟩
  have hres : digitRes 1 0 0 ds.length = if ds = [] then Res.FAILURE else .SUCCESS := by
    cases ds with
    | nil => rfl
    | cons c ds => rw [if_neg (by simp)]; exact digitRes_ok (by simp)
  rw [← hres]
  exact SeqEnds.ends (.cons (d := .nil) rfl (.discard (ows_star ht h0).ends) (.cons (seqDst_player rfl) e1.ends
    (.cons (d := .nil) rfl (.discard (ows_star ht h2).ends) (.cons (seqDst_player rfl) e2.ends
    (.cons (d := .nil) rfl (.discard (ows_star ht h3).ends)
    (.last (seqDst_player rfl) e3 (by rw [hres]; split <;> simp)))))))

/-- Both ways to write it. -/
theorem player_does {pat : Pat} (hp : pat = guidePlayer ∨ pat = guidePlayerOws)
    {k1 k2 k3 : Nat} {s1 s2 ds rest : List Ch} {rs : List Nat} {a b : List Val} {c : Val}
    (ht : ∀ c ∈ t, IsChar c) (h0 : Over t 0 k1) (w1 : Word t k1 s1) (h2 : Over t (k1 + s1.length) k2)
    (w2 : Word t k2 s2) (h3 : Over t (k2 + s2.length) k3) (hd : DigitString 10 ds rs)
    (ht3 : t.drop k3 = ds ++ rest) (hn : NoDigitNext 10 rest)
    (ho : m.objs[o]? = some (.tup [.coll a, .coll b, c])) :
    ∃ m', Parses env pat (.at o [] playerTy) m t
        (.ok (if ds = [] then .FAILURE else .SUCCESS, m', rest)) ∧
      m'.objs[o]? = some (.tup [.coll (a ++ s1.map .num), .coll (b ++ s2.map .num),
        .num ((positional 10 rs : Int) % 2 ^ 32)]) ∧ Others m o m' := by
  rcases hp with rfl | rfl
  · obtain ⟨m', p1, p2, p3⟩ := player_ends (env := env) (bnd := .at o [] playerTy) (j := 0) (m := m) ht h0.end_at
      w1 h2 w2 h3 hd ht3 hn ho
    refine ⟨m', ?_, p2, p3⟩
    have h4 := (Ends.withSkipper (Ends.over ht h0 p1)).does
    rw [← elab_guidePlayer] at h4
    have h5 := h4.parses
    rwa [drop_add ht3] at h5
  · obtain ⟨m', p1, p2, p3⟩ := player_ends_ows (env := env) (bnd := .at o [] playerTy) (j := 0) (m := m) ht h0
      w1 h2 w2 h3 hd ht3 hn ho
    refine ⟨m', ?_, p2, p3⟩
    have h4 := p1.does
    rw [← elab_guidePlayerOws] at h4
    have h5 := h4.parses
    rwa [drop_add ht3] at h5

end
end Abu
