import Verif.Proofs.ReadmeList
import Verif.Proofs.CalculatorUndefined
/-
The list of the README on numbers that do not fit.
-/
namespace Abu

/-- Some item of a list is undefined. -/
inductive ListDies (env : Env) (P S : Prog) (dst bnd : Ref) (t : List Ch) : Bool → Nat → Nat → Nat → Mem → Prop
  | here {g j i m} : Dies env P dst bnd t j i m → ListDies env P S dst bnd t false g j i m
  | item {g j i m i1 m1} : Ends env P dst bnd t j i m .SUCCESS i1 m1 →
      ListDies env P S dst bnd t true i1 i1 i1 m1 → ListDies env P S dst bnd t false g j i m
  | sep {g j i m i1 m1} : Ends env S .nil bnd t j i m .SUCCESS i1 m1 →
      ListDies env P S dst bnd t false g i1 i1 m1 → ListDies env P S dst bnd t true g j i m

section
variable {env : Env} {P S : Prog} {dst bnd : Ref} {t : List Ch} {g j i : Nat} {m : Mem}

theorem Dies.atomic (h : Dies env P (m.alloc dst.valueType).1 bnd t j i (m.alloc dst.valueType).2) :
    Dies env (.atomic P) dst bnd t j i m := by
  obtain ⟨st, m0, hb, hr⟩ := h
  refine ⟨_, _, hb.atomic, .body ?_⟩
  simp only [marks, Abu.body]
  exact .here' hr

theorem Dies.over {k} (ht : ∀ c ∈ t, IsChar c) (hk : Over t i k) (h : Dies env P dst bnd t j k m) :
    Dies env (.skip spaceP P) dst bnd t j i m :=
  Dies.skip space_stateless (hk.skips ht) h

theorem FinErr.cancel {k g K} (h : FinErr env P dst bnd k t i K m) :
    FinErr env P dst bnd (.cancel k) t i (g :: K) m := by
  intro S
  obtain ⟨n, e, he, h⟩ := h S
  exact ⟨n, e, he, h⟩

theorem FinErr.prepare {k K} (h : FinErr env P dst bnd k t i (i :: K) m) :
    FinErr env P dst bnd (.prepare k) t i K m := by
  intro S
  obtain ⟨n, e, he, h⟩ := h S
  exact ⟨n, e, he, h⟩

theorem ListDies.runs {b} (hP : marks P = 0) (hS : marks S = 0) (h : ListDies env P S dst bnd t b g j i m) :
    ∃ c m1, Built (if b then S else P) (if b then .nil else dst) bnd t j m c m1 ∧
      RunsErr env (.list P S) dst bnd (.list b c) t i [g] m1 := by
  induction h with
  | here h =>
    obtain ⟨c, m1, hb, hrun⟩ := h
    refine ⟨c, m1, hb, .body ?_⟩
    simp only [Abu.body]
    rw [hP] at hrun
    rw [← List.nil_append [_]]
    exact .here hrun
  | item h _ ih =>
    obtain ⟨c, m1, hb, hrun⟩ := h
    obtain ⟨c2, m2, hb2, hrun2⟩ := ih
    refine ⟨c, m1, hb, .body ?_⟩
    simp only [Abu.body]
    rw [hP] at hrun
    rw [← List.nil_append [_]]
    refine FinErr.call hrun fun c' => ?_
    refine .cancel (.prepare (FinErr.mk hb2 (.cont ?_)))
    simp only [if_true, hS, List.replicate_zero, List.nil_append]
    exact hrun2
  | sep h _ ih =>
    obtain ⟨c, m1, hb, hrun⟩ := h
    obtain ⟨c2, m2, hb2, hrun2⟩ := ih
    refine ⟨c, m1, hb, .body ?_⟩
    simp only [Abu.body]
    rw [hS] at hrun
    rw [← List.nil_append [_]]
    refine FinErr.call hrun fun c' => ?_
    refine FinErr.mk hb2 (.cont ?_)
    simp only [Bool.false_eq_true, if_false, hP, List.replicate_zero, List.nil_append]
    exact hrun2

theorem ListDies.dies (hP : marks P = 0) (hS : marks S = 0) (h : ListDies env P S dst bnd t false j j i m) :
    Dies env (.list P S) dst bnd t j i m := by
  obtain ⟨c, m1, hb, hrun⟩ := h.runs hP hS
  refine ⟨_, _, Built.list hb, ?_⟩
  simp only [marks, hP]
  exact hrun

end

section
variable {env : Env} {bnd : Ref} {t : List Ch} {j i : Nat} {m : Mem} {o : Nat} {p : List Nat}

theorem item_dies_list {k n s rest} (ht : ∀ c ∈ t, IsChar c) (hi : Over t i k) (h : Numeral n s)
    (hv : ¬ fitsInt n.natAbs = true) (hk : t.drop k = s ++ rest) (hn : NoDigitNext 10 rest) :
    Dies env itemW (.at o p (.coll .int)) bnd t j i m := by
  obtain ⟨sg, neg, ds, rs, hs, hd, hne, rfl, rfl⟩ := h
  rw [withSign_natAbs] at hv
  exact .over ht hi (.atomic (Dies.int hs hd hne hv hk hn (alloc_has (m := m) (w := .indet))))

/-- The text of a list in which a number does not fit. -/
theorem Listed.dies {ns s} (h : Listed ns s) (ht : ∀ c ∈ t, IsChar c) :
    ∀ {i g j vs m rest}, (∃ n ∈ ns, ¬ fitsInt n.natAbs = true) → NoDigitNext 10 rest →
      t.drop i = s ++ rest → m.read (.at o p (.coll .int)) = .ok (.coll vs) →
      ∃ k, Over t i k ∧ ∀ i0, Over t i0 k →
        ListDies env itemW (litW 44) (.at o p (.coll .int)) bnd t false g j i0 m := by
  induction h with
  | @one w n s hw hn =>
    intro i g j vs m rest hf hr hd _
    obtain ⟨n', hn', hf⟩ := hf
    obtain rfl := List.mem_singleton.1 hn'
    obtain ⟨c, s', rfl, hc⟩ := hn.head
    obtain ⟨hk, _⟩ := over_to (by simpa using hd) hw hc
    rw [List.append_assoc] at hd
    exact ⟨_, hk, fun i0 hi0 => .here (item_dies_list ht hi0 hn hf (drop_add hd) hr)⟩
  | @more w n s w1 ns u hw hn hw1 _ ih =>
    intro i g j vs m rest hf hnd hd hr
    obtain ⟨c, s', rfl, hc⟩ := hn.head
    have hd0 : t.drop i = w ++ ((c :: s') ++ (w1 ++ 44 :: (u ++ rest))) := by
      rw [hd]; simp
    obtain ⟨hk, _⟩ := over_to (by simpa using hd0) hw hc
    have hd1 := drop_add hd0
    have hd2 := drop_add hd1
    have h44 := noDigit_char (c := 44) (.inl rfl)
    obtain ⟨h3, h4⟩ := over_to hd2 hw1 h44.2.1
    have hd3 := (drop_cons (drop_add hd2)).2.1
    refine ⟨_, hk, fun i0 hi0 => ?_⟩
    by_cases hv : fitsInt n.natAbs = true
    · obtain ⟨m1, h1, h2⟩ := item_ends_list (env := env) (bnd := bnd) (j := j) ht hi0 hn hv hd1
        (noDigit_spaces hw1 h44.1 h44.2.2) hr
      obtain ⟨n', hn', hf'⟩ := hf
      have hf2 : ∃ n ∈ ns, ¬ fitsInt n.natAbs = true := by
        rcases List.mem_cons.1 hn' with rfl | hn'
        · exact absurd hv hf'
        · exact ⟨n', hn', hf'⟩
      obtain ⟨k, hk1, hk2⟩ := ih (g := i + w.length + (c :: s').length)
        (j := i + w.length + (c :: s').length + w1.length + 1) hf2 hnd hd3 (h2.read _)
      exact .item h1 (.sep (.litW ht h3 h4) (hk2 _ hk1))
    · exact .here (item_dies_list ht hi0 hn hv hd1 (noDigit_spaces hw1 h44.1 h44.2.2))

/-- Whatever the text is: either a list starts in which a number does not fit, or the numbers are read. -/
theorem list_total (ht : ∀ c ∈ t, IsChar c) : ∀ (l : Nat) {i g j vs m}, t.length - i ≤ l →
    m.read (.at o p (.coll .int)) = .ok (.coll vs) →
    ∀ k i0, Over t i k → Over t i0 k →
      (∃ ns s rest, Listed ns s ∧ t.drop i = s ++ rest ∧ NoDigitNext 10 rest ∧ ∃ n ∈ ns, ¬ fitsInt n.natAbs = true) ∨
      ∃ x m' ns, ListEnds env itemW (litW 44) (.at o p (.coll .int)) bnd t false g j i0 m x m' ∧
        Sets m o p (.coll (vs ++ ns.map .num)) m' ∧ (∀ n ∈ ns, fitsInt n.natAbs = true) ∧
        (ns = [] ∧ x = g ∨ ∃ s, Listed ns s ∧ t.drop i = s ++ t.drop x) := by
  intro l
  induction l with
  | zero =>
    intro i g j vs m hl hr k i0 hi hi0
    have h0 : t.drop i = [] := List.drop_eq_nil_iff.2 (by omega)
    obtain ⟨w, h1, h2, h3⟩ := exists_over t i
    obtain rfl := hi.det h3
    have hn : NoNumber (t.drop (i + w.length)) := by
      rw [← List.drop_drop, h0]
      intro sg neg c t' h
      simp at h
    obtain ⟨i', m', h4, h5⟩ := item_fails_list (env := env) (bnd := bnd) (j := j) (m := m) (o := o) (p := p) ht hi0 hn
    exact .inr ⟨g, m', [], .noItem h4, by simpa using h5.same hr, by simp, .inl ⟨rfl, rfl⟩⟩
  | succ l ih =>
    intro i g j vs m hl hr k i0 hi hi0
    obtain ⟨w, h1, h2, h3⟩ := exists_over t i
    obtain rfl := hi.det h3
    rcases number_or_none (t.drop (i + w.length)) fun c hc => ht c (List.mem_of_mem_drop hc) with
      ⟨n, s, rest, e, hn, hnext⟩ | hn
    · by_cases hv : fitsInt n.natAbs = true
      · obtain ⟨m1, h4, h5⟩ := item_ends_list (env := env) (bnd := bnd) (j := j) ht hi0 hn hv e hnext hr
        have hx := drop_add e
        generalize hx1 : i + w.length + s.length = x1 at *
        have hone : Listed [n] (w ++ s) ∧ t.drop i = (w ++ s) ++ t.drop x1 :=
          ⟨.one h2 hn, by rw [h1, e, hx, List.append_assoc]⟩
        obtain ⟨w1, g1, g2, g3⟩ := exists_over t x1
        by_cases hc : t[x1 + w1.length]? = some 44
        · have hi2 := lt_of_getElem? hc
          obtain ⟨w2, _, _, g4⟩ := exists_over t (x1 + w1.length + 1)
          rcases ih (i := x1 + w1.length + 1) (g := x1) (j := x1 + w1.length + 1)
            (by omega) (h5.read _) _ _ g4 g4 with ⟨ns, u, rest', f1, f2, f3, n', f4, f5⟩ | ⟨x, m2, ns, h6, h7, hf, h8⟩
          · refine .inl ⟨n :: ns, _, rest', .more h2 hn g2 f1, ?_, f3, n', by simp [f4], f5⟩
            rw [hone.2, g1, drop_of_getElem? hc, f2]
            simp
          · have hend : ListEnds env itemW (litW 44) (.at o p (.coll .int)) bnd t false g j i0 m x m2 :=
              .item h4 (.sep (.litW ht g3 hc) h6)
            rcases h8 with ⟨rfl, rfl⟩ | ⟨u, h8, h9⟩
            · exact .inr ⟨_, m2, [n], hend, by simpa using h5.trans h7, by simpa using hv, .inr ⟨_, hone⟩⟩
            · refine .inr ⟨x, m2, n :: ns, hend, by simpa using h5.trans h7, ?_, .inr ⟨_, .more h2 hn g2 h8, ?_⟩⟩
              · intro n' hn'
                rcases List.mem_cons.1 hn' with rfl | hn'
                · exact hv
                · exact hf n' hn'
              · rw [hone.2, g1, drop_of_getElem? hc, h9]
                simp
        · exact .inr ⟨x1, m1, [n], .item h4 (.noSep (.litW_fail ht g3 hc)), by simpa using h5, by simpa using hv,
            .inr ⟨_, hone⟩⟩
      · exact .inl ⟨[n], w ++ s, rest, .one h2 hn, by rw [h1, e, List.append_assoc], hnext, n, by simp, hv⟩
    · obtain ⟨i', m', h4, h5⟩ := item_fails_list (env := env) (bnd := bnd) (j := j) (m := m) (o := o) (p := p) ht hi0 hn
      exact .inr ⟨g, m', [], .noItem h4, by simpa using h5.same hr, by simp, .inl ⟨rfl, rfl⟩⟩

end
end Abu
