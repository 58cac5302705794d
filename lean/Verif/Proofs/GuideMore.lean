import Verif.Proofs.GuidePlayer
import Verif.Proofs.ReadmeUndefined
/-
More parsers of the user guide: prefixed hexadecimal numbers, lists of integers, names without
`lexeme`.
-/
namespace Abu

section
variable {env : Env} {bnd : Ref} {t : List Ch} {j i : Nat} {m : Mem} {o : Nat} {p : List Nat}

/-! ### Literals -/

theorem Ends.strLit {dst} {s : List Ch} (h : s <+: t.drop i) :
    Ends env (.strLit s) dst bnd t j i m .SUCCESS (i + s.length) m := by
  refine ⟨.strLit 0, m, fun call S => rfl, ?_⟩
  obtain ⟨f, st', i', hf, hi⟩ := run_strLit (env := env) (S := []) (t := t) s dst bnd s i 0 m (by simp)
  rw [if_pos h, hi h] at hf
  obtain ⟨i2, L2, m2, heq, hr⟩ := Runs.of_run hf
  unfold cw at heq
  simp only [World.mk.injEq, Cursor.mk.injEq, true_and, and_true] at heq
  obtain ⟨⟨rfl, rfl⟩, rfl⟩ := heq
  exact hr

theorem Ends.strLit_fail {dst} {s : List Ch} (h : ¬ s <+: t.drop i) :
    ∃ i', Ends env (.strLit s) dst bnd t j i m .FAILURE i' m := by
  obtain ⟨f, st', i', hf, _⟩ := run_strLit (env := env) (S := []) (t := t) s dst bnd s i 0 m (by simp)
  rw [if_neg h] at hf
  obtain ⟨i2, L2, m2, heq, hr⟩ := Runs.of_run hf
  unfold cw at heq
  simp only [World.mk.injEq, Cursor.mk.injEq, true_and, and_true] at heq
  obtain ⟨⟨rfl, rfl⟩, rfl⟩ := heq
  exact ⟨i', .strLit 0, m, fun call S => rfl, hr⟩

/-! ### Prefixed hexadecimal numbers -/

/-- The prefix. -/
def hexPrefixP : Prog := .alt [.clean (.strLit [48, 120]), .clean (.strLit [48, 88])]

theorem elab_guideHex (mn mx : Nat) : topParser (guideHex mn mx) =
    .seq [some 0, some 1] [hexPrefixP, .uint 16 mn mx] := by rfl

theorem hexPrefix_ends {dst pre} (hp : pre = [48, 120] ∨ pre = [48, 88]) (h : pre <+: t.drop i) :
    Ends env hexPrefixP dst bnd t i i m .SUCCESS (i + 2) m := by
  rcases hp with rfl | rfl
  · exact AltEnds.ends (.here (.clean (.strLit h)))
  · obtain ⟨i', h1⟩ := Ends.strLit_fail (env := env) (dst := dst) (bnd := bnd) (j := i) (m := m)
      (s := [48, 120]) (t := t) (i := i) (by
        obtain ⟨r, h⟩ := h
        rw [← h]
        rintro ⟨r', h'⟩
        simp at h')
    exact AltEnds.ends (.cons (.clean_fail h1) (.here (.clean (.strLit h))))

theorem hexPrefix_fails {dst} (h1 : ¬ [48, 120] <+: t.drop i) (h2 : ¬ [48, 88] <+: t.drop i) :
    Ends env hexPrefixP dst bnd t i i m .FAILURE i m := by
  obtain ⟨_, e1⟩ := Ends.strLit_fail (env := env) (dst := dst) (bnd := bnd) (j := i) (m := m) h1
  obtain ⟨_, e2⟩ := Ends.strLit_fail (env := env) (dst := dst) (bnd := bnd) (j := i) (m := m) h2
  exact AltEnds.ends (.cons (.clean_fail e1) (.last (.clean_fail e2)))

/-! ### Integers -/

theorem elab_guideInts : topParser guideInts =
    .rep 0 0 (.clean (.atomic (.seq [none, some 0] [owsP, .int 10 1 0]))) := by
  have h : topParser guideInts = .rep 0 0 (.clean (.atomic (.seq [none, some 0]
      [.discard (.rep 0 0 (.char (setOfCString [32, 13, 10, 9, 0]))), .int 10 1 0]))) := by rfl
  rw [h, guideSpace_eq]
  rfl

/-- An item. -/
def intItemP : Prog := .clean (.atomic (.seq [none, some 0] [owsP, .int 10 1 0]))

theorem int_item_ends {k n s rest vs} (ht : ∀ c ∈ t, IsChar c) (hi : Over t i k) (h : Numeral n s)
    (hv : fitsInt n.natAbs = true) (hk : t.drop k = s ++ rest) (hn : NoDigitNext 10 rest)
    (hr : m.read (.at o p .nil) = .ok (.coll vs)) :
    ∃ m', Ends env intItemP (.at o p (.coll .int)) bnd t j i m .SUCCESS (k + s.length) m' ∧
      Sets m o p (.coll (vs ++ [.num n])) m' := by
  obtain ⟨m1, h1, h2⟩ := Ends.numeral (env := env) (bnd := bnd) (j := k) h hv hk hn
    (alloc_has (m := m) (w := .indet))
  have hg : Grows m m1 := grows_append.fresh (Nat.le_refl _) h2
  obtain ⟨m2, h3, h4⟩ := push_sets (ty := .int) (v := .num n) (e := .num n) (int_convert hv) (hg.read hr)
  refine ⟨m2, .clean (.atomic (m1 := m1) (SeqEnds.ends (.cons (d := .nil) rfl (.discard (ows_star ht hi).ends)
    (.last rfl h1 (by simp)))) ?_), hg.sets (read_lt hr) h4⟩
  show m1.assignFrom (.at o p (.coll .int)) (.at m.objs.length [] .int) = .ok m2
  simp only [Mem.assignFrom, h2.read]
  exact h3

theorem int_item_fails {k} (ht : ∀ c ∈ t, IsChar c) (hi : Over t i k) (hn : NoNumber (t.drop k)) :
    ∃ m', Ends env intItemP (.at o p (.coll .int)) bnd t j i m .FAILURE j m' ∧ Grows m m' := by
  obtain ⟨i', m1, h1, h2⟩ := Ends.int_fail (env := env) (bnd := bnd) (j := k) ht hn
    (alloc_has (m := m) (w := .indet))
  exact ⟨m1, .clean_fail (.atomic_fail (SeqEnds.ends (.cons (d := .nil) rfl (.discard (ows_star ht hi).ends)
    (.last rfl h1 (by simp))))), grows_append.fresh (Nat.le_refl _) h2⟩

theorem noNumber_of {k} (hi : Over t i k) (h : ¬ NumberNext (t.drop i)) (ht : ∀ c ∈ t, IsChar c) :
    NoNumber (t.drop k) := by
  obtain ⟨w, h1, h2, h3⟩ := exists_over t i
  obtain rfl := hi.det h3
  rcases number_or_none (t.drop (i + w.length)) fun c hc => ht c (List.mem_of_mem_drop hc) with
    ⟨n, s, rest, e, hn, _⟩ | hn
  · exact absurd ⟨w, n, s, rest, h2, hn, by rw [h1, e]⟩ h
  · exact hn

theorem Ints.ends {ns l rest} (h : Ints ns l rest) (ht : ∀ c ∈ t, IsChar c) :
    (∀ n ∈ ns, fitsInt n.natAbs) → ∀ {i m vs}, t.drop i = l → m.read (.at o p .nil) = .ok (.coll vs) →
    ∃ i' m', StarEnds env intItemP (.at o p (.coll .int)) bnd t i i m i' m' ∧ t.drop i' = rest ∧
      Sets m o p (.coll (vs ++ ns.map .num)) m' := by
  induction h with
  | stop h =>
    intro _ i m vs hd hr
    obtain ⟨w, h1, h2, h3⟩ := exists_over t i
    obtain ⟨m', h4, h5⟩ := int_item_fails (env := env) (bnd := bnd) (j := i) (m := m) (o := o) (p := p) ht h3
      (noNumber_of h3 (by rw [hd]; exact h) ht)
    exact ⟨i, m', .stop h4, hd, by simpa using h5.same hr⟩
  | @more w n s ns l rest hw hn hnext _ ih =>
    intro hf i m vs hd hr
    obtain ⟨c, s', e, hc⟩ := hn.head
    obtain ⟨g1, g2⟩ := over_to (x := i) (c := c) (w := w) (rest := s' ++ l) (by rw [hd, e]; simp) hw hc
    have hk := drop_add hd
    obtain ⟨m1, h1, h2⟩ := int_item_ends (env := env) (bnd := bnd) (j := i) ht g1 hn (hf n (by simp)) hk hnext hr
    obtain ⟨i', m2, h3, h4, h5⟩ := ih (fun n h => hf n (by simp [h])) (drop_add hk) (h2.read _)
    exact ⟨i', m2, .more h1 h3, h4, by simpa using h2.trans h5⟩

theorem int_item_dies {k n s rest} (ht : ∀ c ∈ t, IsChar c) (hi : Over t i k) (h : Numeral n s)
    (hv : ¬ fitsInt n.natAbs = true) (hk : t.drop k = s ++ rest) (hn : NoDigitNext 10 rest) :
    Dies env intItemP (.at o p (.coll .int)) bnd t j i m := by
  obtain ⟨sg, neg, ds, rs, hs, hd, hne, rfl, rfl⟩ := h
  rw [withSign_natAbs] at hv
  exact .clean (.atomic (SeqDies.dies (.cons (d := .nil) rfl (.discard (ows_star ht hi).ends)
    (.here rfl (Dies.int hs hd hne hv hk hn (alloc_has (m := m) (w := .indet)))))))

theorem Ints.dies {ns l rest} (h : Ints ns l rest) (ht : ∀ c ∈ t, IsChar c) :
    (∃ n ∈ ns, ¬ fitsInt n.natAbs = true) → ∀ {i m vs}, t.drop i = l → m.read (.at o p .nil) = .ok (.coll vs) →
    StarDies env intItemP (.at o p (.coll .int)) bnd t i i m := by
  induction h with
  | stop h => rintro ⟨n, hn, _⟩; cases hn
  | @more w n s ns l rest hw hn hnext _ ih =>
    intro hf i m vs hd hr
    obtain ⟨c, s', e, hc⟩ := hn.head
    obtain ⟨g1, g2⟩ := over_to (x := i) (c := c) (w := w) (rest := s' ++ l) (by rw [hd, e]; simp) hw hc
    have hk := drop_add hd
    by_cases hv : fitsInt n.natAbs = true
    · obtain ⟨m1, h1, h2⟩ := int_item_ends (env := env) (bnd := bnd) (j := i) ht g1 hn hv hk hnext hr
      obtain ⟨n', hn', hf⟩ := hf
      rcases List.mem_cons.1 hn' with rfl | hn'
      · exact absurd hv hf
      · exact .more h1 (ih ⟨n', hn', hf⟩ (drop_add hk) (h2.read _))
    · exact .here (int_item_dies ht g1 hn hv hk hnext)

theorem exists_ints : ∀ n (l : List Ch), l.length ≤ n → (∀ c ∈ l, IsChar c) → ∃ ns rest, Ints ns l rest := by
  intro n
  induction n with
  | zero =>
    intro l hl _
    obtain rfl := List.length_eq_zero_iff.1 (by omega : l.length = 0)
    refine ⟨[], [], .stop ?_⟩
    rintro ⟨w, n, s, r, _, hn, h⟩
    obtain ⟨c, s', rfl, _⟩ := hn.head
    simp at h
  | succ n ih =>
    intro l hl hc
    by_cases h : NumberNext l
    · obtain ⟨w, k, s, r, hw, hn, rfl⟩ := h
      have hcs : ∀ c ∈ s ++ r, IsChar c := fun c h => hc c (List.mem_append_right _ h)
      rcases number_or_none (s ++ r) hcs with ⟨k', s', r', e, hn', hnext⟩ | hno
      · obtain ⟨c, u, rfl, _⟩ := hn'.head
        rw [e] at hl hc ⊢
        obtain ⟨ns, rest, h1⟩ := ih r' (by simp only [List.length_append, List.length_cons] at hl; omega)
          fun c h => hc c (by simp [h])
        exact ⟨_, _, .more hw hn' hnext h1⟩
      · obtain ⟨sg, neg, ds, rs, hs, hd, hne, _, rfl⟩ := hn
        cases hd with
        | nil => exact absurd rfl hne
        | cons h1 h2 h3 => exact absurd h2 (hno sg neg _ _ (by rw [List.append_assoc, List.cons_append]) hs _ h1)
    · exact ⟨[], l, .stop h⟩

/-! ### Names without `lexeme` -/

def looseNameP : Prog := .skip spaceP (.rep 0 0 (.skip spaceP (.char guideAlnum)))

theorem elab_guideNoLexeme : topParser guideNoLexeme =
    .withSkipper (.skip spaceP (.seq [some 0, some 1, some 2]
      [looseNameP, looseNameP, .skip spaceP (.uint 10 1 0)])) := by
  have h : topParser guideNoLexeme =
      .withSkipper (.skip (.char (setOfCString [32, 13, 10, 9, 0]))
        (.seq [some 0, some 1, some 2]
          [.skip (.char (setOfCString [32, 13, 10, 9, 0])) (.rep 0 0 (.skip (.char (setOfCString [32, 13, 10, 9, 0])) (.char guideAlnum))),
           .skip (.char (setOfCString [32, 13, 10, 9, 0])) (.rep 0 0 (.skip (.char (setOfCString [32, 13, 10, 9, 0])) (.char guideAlnum))),
           .skip (.char (setOfCString [32, 13, 10, 9, 0])) (.uint 10 1 0)])) := by rfl
  rw [h, guideSpace_eq]
  rfl

theorem loose_star (ht : ∀ c ∈ t, IsChar c) {rest : List Ch} (hr0 : ∀ c l, rest = c :: l → ¬ Alnum c ∧ ¬ Space c) :
    ∀ {s : List Ch} {i i0 k j : Nat} {m : Mem} {vs}, t.drop i = s ++ rest → (∀ c ∈ s, Alnum c ∨ Space c) →
    Over t i k → Over t i0 k → m.read (.at o p .nil) = .ok (.coll vs) →
    ∃ m', StarEnds env (.skip spaceP (.char guideAlnum)) (.at o p .string) bnd t j i0 m (i + s.length) m' ∧
      Sets m o p (.coll (vs ++ (s.filter fun c => decide (Alnum c)).map .num)) m' := by
  intro s
  induction s with
  | nil =>
    intro i i0 k j m vs hd hs hi hi0 hr
    have hhere : ∀ c, t[i]? = some c → ¬ Alnum c ∧ ¬ Space c := by
      intro c hc
      have := drop_of_getElem? hc
      rw [hd, List.nil_append] at this
      exact hr0 _ _ this
    have hki := hi.det (.here fun c hc => (hhere c hc).2)
    subst hki
    refine ⟨m, .stop (.over ht hi0 (.char_fail fun c hc => ?_)), by simpa using (Grows.refl m).same hr⟩
    rw [Bool.eq_false_iff, ne_eq, valid_alnum]
    exact (hhere c hc).1
  | cons c s ih =>
    intro i i0 k j m vs hd hs hi hi0 hr
    obtain ⟨h1, h2, _⟩ := drop_cons hd
    have e : i + (c :: s : List Ch).length = i + 1 + s.length := by simp only [List.length_cons]; omega
    rw [e]
    by_cases hc : Alnum c
    · have hki := hi.det (.here fun c' hc' => by
        rw [h1] at hc'
        cases hc'
        exact alnum_not_space hc)
      subst hki
      obtain ⟨m1, h3, h4⟩ := push_sets (ty := .char) (v := .num c) (e := .num c) (by
        unfold Alnum at hc
        simp only [Ty.char, Ty.convert, NumKind.wrap, Except.ok.injEq, Val.num.injEq]
        omega) hr
      obtain ⟨w, _, _, g⟩ := exists_over t (k + 1)
      obtain ⟨m2, h5, h6⟩ := ih (j := k + 1) h2 (fun c hc => hs c (by simp [hc])) g g (h4.read _)
      refine ⟨m2, .more (.over ht hi0 (.char h1 (valid_alnum.2 hc) h3)) h5, ?_⟩
      rw [List.filter_cons_of_pos (by simpa using hc)]
      simpa using h4.trans h6
    · have hsp : Space c := (hs c (by simp)).resolve_left hc
      rw [List.filter_cons_of_neg (by simpa using hc)]
      cases hi with
      | here h => exact absurd hsp (h _ h1)
      | more h h' h'' => exact ih h2 (fun c hc => hs c (by simp [hc])) h'' hi0 hr

end
end Abu
