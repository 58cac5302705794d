import Verif.Proofs.Readme
/-
The list of the README.
-/
namespace Abu

/-- A number of the list. -/
def itemW : Prog := .skip spaceP (.atomic (.int 10 1 0))
/-- The numbers. -/
def listW : Prog := .skip spaceP (.list itemW (litW 44))

theorem elab_readmeList : topParser readmeList =
    .withSkipper (.skip spaceP (.seq [none, some 0, none] [litW 91, listW, litW 93])) := by rfl

theorem Val.update_same {v : Val} : ∀ {p : List Nat} {w : Val}, w.get p = .ok v →
    w.update (fun _ => .ok v) p = .ok w
  | [], w, h => by cases h; rfl
  | i :: p, .tup vs, h => by
    simp only [Val.get] at h
    cases hi : vs[i]? with
    | none => rw [hi] at h; cases h
    | some x =>
      rw [hi] at h
      simp only [Val.update, hi, Val.update_same h]
      obtain ⟨h1, h2⟩ := List.getElem?_eq_some_iff.1 hi
      rw [← h2, List.set_getElem_self]
  | _ :: _, .nil, h => by cases h
  | _ :: _, .indet, h => by cases h
  | _ :: _, .num _, h => by cases h
  | _ :: _, .coll _, h => by cases h
  | _ :: _, .obj _ _, h => by cases h

section
variable {env : Env} {bnd : Ref} {t : List Ch} {j i : Nat} {m m' : Mem} {o : Nat} {p : List Nat}

/-- Nothing happened to the sub-object. -/
theorem Grows.same {ty v} (h : Grows m m') (hr : m.read (.at o p ty) = .ok v) : Sets m o p v m' := by
  simp only [Mem.read] at hr
  cases ho : m.objs[o]? with
  | none => rw [ho] at hr; cases hr
  | some w =>
    rw [ho] at hr
    refine ⟨w, w, ho, Val.update_same hr, by rw [h o (lt_of_getElem? ho)]; exact ho, fun o' h1 _ => h o' h1⟩

theorem int_convert {n : Int} (h : fitsInt n.natAbs = true) : Ty.int.convert (.num n) = .ok (.num n) := by
  simp only [fitsInt, Bool.and_eq_true, decide_eq_true_eq] at h
  simp only [Ty.int, Ty.convert, NumKind.wrap, Except.ok.injEq, Val.num.injEq]
  omega

theorem item_ends_list {k n s rest vs} (ht : ∀ c ∈ t, IsChar c) (hi : Over t i k) (h : Numeral n s)
    (hv : fitsInt n.natAbs = true) (hk : t.drop k = s ++ rest) (hn : NoDigitNext 10 rest)
    (hr : m.read (.at o p (.coll .int)) = .ok (.coll vs)) :
    ∃ m', Ends env itemW (.at o p (.coll .int)) bnd t j i m .SUCCESS (k + s.length) m' ∧
      Sets m o p (.coll (vs ++ [.num n])) m' := by
  obtain ⟨m1, h1, h2⟩ := Ends.numeral (env := env) (bnd := bnd) (j := j) h hv hk hn
    (alloc_has (m := m) (w := .indet))
  have hg : Grows m m1 := grows_append.fresh (Nat.le_refl _) h2
  have ho : o < m.objs.length := by
    simp only [Mem.read] at hr
    cases ho : m.objs[o]? with
    | none => rw [ho] at hr; cases hr
    | some w => exact lt_of_getElem? ho
  have hr1 : m1.read (.at o p .nil) = .ok (.coll vs) := by
    simp only [Mem.read, hg o ho] at hr ⊢; exact hr
  obtain ⟨m2, h3, h4⟩ := modify_sets (f := fun v => match v with
    | .coll vs => .ok (.coll (vs ++ [.num n]))
    | _ => .error .noCompile) (b := .coll (vs ++ [.num n])) hr1 rfl
  refine ⟨m2, .over ht hi (.atomic (m1 := m1) h1 ?_), hg.sets ho h4⟩
  show m1.assignFrom (.at o p (.coll .int)) (.at m.objs.length [] .int) = .ok m2
  simp only [Mem.assignFrom, h2.read .int, Mem.assign, int_convert hv]
  exact h3

theorem item_fails_list {k} (ht : ∀ c ∈ t, IsChar c) (hi : Over t i k) (hn : NoNumber (t.drop k)) :
    ∃ i' m', Ends env itemW (.at o p (.coll .int)) bnd t j i m .FAILURE i' m' ∧ Grows m m' := by
  obtain ⟨i', m1, h1, h2⟩ := Ends.int_fail (env := env) (bnd := bnd) (j := j) ht hn
    (alloc_has (m := m) (w := .indet))
  exact ⟨i', m1, .over ht hi (.atomic_fail h1), grows_append.fresh (Nat.le_refl _) h2⟩

/-- The text of a list followed by a closing bracket. -/
theorem Listed.ends {ns s} (h : Listed ns s) (ht : ∀ c ∈ t, IsChar c) :
    ∀ {i g j vs m w' rest}, (∀ n ∈ ns, fitsInt n.natAbs = true) → Spaces w' →
      t.drop i = s ++ (w' ++ 93 :: rest) → m.read (.at o p (.coll .int)) = .ok (.coll vs) →
      ∃ k, Over t i k ∧ ∀ i0, Over t i0 k → ∃ m',
        ListEnds env itemW (litW 44) (.at o p (.coll .int)) bnd t false g j i0 m (i + s.length) m' ∧
          Sets m o p (.coll (vs ++ ns.map .num)) m' := by
  induction h with
  | @one w n s hw hn =>
    intro i g j vs m w' rest hf hw' hd hr
    obtain ⟨c, s', rfl, hc⟩ := hn.head
    obtain ⟨hk, _⟩ := over_to (by simpa using hd) hw hc
    rw [List.append_assoc] at hd
    have hd' := drop_add hd
    have h93 := noDigit_char (c := 93) (.inr rfl)
    refine ⟨_, hk, fun i0 hi0 => ?_⟩
    obtain ⟨m1, h1, h2⟩ := item_ends_list (env := env) (bnd := bnd) (j := j) ht hi0 hn (hf n (by simp)) hd'
        (noDigit_spaces hw' h93.1 h93.2.2) hr
    obtain ⟨h3, h4⟩ := over_to (drop_add hd') hw' h93.2.1
    refine ⟨m1, .item h1 ?_, h2⟩
    rw [List.length_append, ← Nat.add_assoc]
    exact .noSep (.litW_fail ht h3 (by rw [h4]; decide))
  | @more w n s w1 ns u hw hn hw1 _ ih =>
    intro i g j vs m w' rest hf hw' hd hr
    obtain ⟨c, s', rfl, hc⟩ := hn.head
    have hd0 : t.drop i = w ++ ((c :: s') ++ (w1 ++ 44 :: (u ++ (w' ++ 93 :: rest)))) := by
      rw [hd]; simp
    obtain ⟨hk, _⟩ := over_to (by simpa using hd0) hw hc
    have hd1 := drop_add hd0
    have hd2 := drop_add hd1
    have h44 := noDigit_char (c := 44) (.inl rfl)
    obtain ⟨h3, h4⟩ := over_to hd2 hw1 h44.2.1
    have hd3 := (drop_cons (drop_add hd2)).2.1
    refine ⟨_, hk, fun i0 hi0 => ?_⟩
    obtain ⟨m1, h1, h2⟩ := item_ends_list (env := env) (bnd := bnd) (j := j) ht hi0 hn (hf n (by simp)) hd1
        (noDigit_spaces hw1 h44.1 h44.2.2) hr
    obtain ⟨k, hk1, hk2⟩ := ih (g := i + w.length + (c :: s').length)
      (j := i + w.length + (c :: s').length + w1.length + 1)
      (fun n hn => hf n (by simp [hn])) hw' hd3 (h2.read _)
    obtain ⟨m2, h5, h6⟩ := hk2 _ hk1
    refine ⟨m2, .item h1 (.sep (.litW ht h3 h4) ?_), by simpa using h2.trans h6⟩
    have e : i + (w ++ c :: s' ++ w1 ++ 44 :: u).length =
        i + w.length + (c :: s').length + w1.length + 1 + u.length := by
      simp only [List.length_append, List.length_cons]; omega
    rw [e]
    exact h5

theorem Over.det {k k'} (h : Over t i k) (h' : Over t i k') : k = k' := by
  induction h generalizing k' with
  | here h =>
    cases h' with
    | here _ => rfl
    | more h1 h2 _ => exact absurd h2 (h _ h1)
  | more h1 h2 _ ih =>
    cases h' with
    | here h' => exact absurd h2 (h' _ h1)
    | more _ _ h' => exact ih h'

theorem NumbersFit.at {k n s rest} (hf : NumbersFit t) (h : t.drop k = s ++ rest) (hn : Numeral n s) :
    fitsInt n.natAbs = true :=
  hf (t.take k) s rest n (by rw [List.append_assoc, ← h, List.take_append_drop]) hn

end
end Abu
