import Verif.Proofs.ReadmeList
/-
The rectangles of the README.
-/
namespace Abu

/-- A number. -/
def intW : Prog := .skip spaceP (.int 10 1 0)

/-- Slots after the first number: `r` more numbers, the next one in slot `q`. -/
def slotsAt : Nat → Nat → List (Option Nat)
  | _, 0 => [none]
  | q, r + 1 => none :: some q :: slotsAt (q + 1) r

/-- Parsers after the first number: `r` more numbers. -/
def progsAt : Nat → List Prog
  | 0 => [litW 93]
  | r + 1 => litW 44 :: intW :: progsAt r

/-- A constructor call with `r + 1` numbers. -/
def rectW (r : Nat) : Prog :=
  .skip spaceP (.construct (List.replicate (r + 1) .int) (.skip spaceP (.clean
    (.seq (none :: some 0 :: slotsAt 1 r) (litW 91 :: intW :: progsAt r)))))

theorem elab_readmeRectangle : topParser readmeRectangle =
    .withSkipper (.skip spaceP (.alt [rectW 1, rectW 3])) := by rfl

/-- What follows the first number of a list. -/
inductive Rest : List Int → List Ch → Prop
  | nil : Rest [] []
  | cons {w' w n s ns u} : Spaces w' → Spaces w → Numeral n s → Rest ns u →
      Rest (n :: ns) (w' ++ 44 :: (w ++ (s ++ u)))

theorem Listed.first {ns s} (h : Listed ns s) : ∃ n ns' w s' u, ns = n :: ns' ∧ Spaces w ∧ Numeral n s' ∧
    Rest ns' u ∧ s = w ++ (s' ++ u) := by
  induction h with
  | @one w n s hw hn => exact ⟨n, [], w, s, [], rfl, hw, hn, .nil, by simp⟩
  | @more w n s w' ns u hw hn hw' _ ih =>
    obtain ⟨n1, ns1, w1, s1, u1, rfl, h1, h2, h3, rfl⟩ := ih
    exact ⟨n, n1 :: ns1, w, s, _, rfl, hw, hn, .cons hw' h1 h2 h3, by simp⟩

theorem Rest.listed {ns u} (h : Rest ns u) : ∀ {w n s}, Spaces w → Numeral n s →
    Listed (n :: ns) (w ++ (s ++ u)) := by
  induction h with
  | nil =>
    intro w n s hw hn
    have := Listed.one hw hn
    simpa using this
  | cons hw' hw2 hn2 _ ih =>
    intro w n s hw hn
    have := Listed.more hw hn hw' (ih hw2 hn2)
    simpa using this

section
variable {env : Env} {bnd : Ref} {t : List Ch} {j i : Nat} {m m' : Mem} {o : Nat}

theorem seqDst_int {N q : Nat} (h : q < N) :
    seqDst (.at o [] (.tup (List.replicate N .int))) (some q) = some (.at o [q] .int) := by
  simp [seqDst, h, wrapDst, Ty.int]

theorem has_slot {ws : List Val} {q : Nat} (ho : m.objs[o]? = some (.tup ws)) (hq : q < ws.length) :
    Has m o [q] := by
  refine ⟨_, ws[q], ho, ?_⟩
  simp [Val.get, hq]

theorem Sets.slot {ws : List Val} {q v} (h : Sets m o [q] v m') (ho : m.objs[o]? = some (.tup ws)) :
    m'.objs[o]? = some (.tup (ws.set q v)) := by
  obtain ⟨w, w', e1, e2, e3, _⟩ := h
  rw [ho] at e1
  cases e1
  rw [e3]
  simp only [Val.update] at e2
  cases hq : ws[q]? with
  | none => rw [hq] at e2; cases e2
  | some x =>
    rw [hq] at e2
    simpa using e2.symm

theorem Others.trans {m1 m2 : Mem} (h : Others m o m1) (h' : Others m1 o m2) : Others m o m2 := by
  intro o' ho hne
  have := h o' ho hne
  rw [← this]
  rw [List.getElem?_eq_getElem ho] at this
  exact h' o' (lt_of_getElem? this) hne

theorem take_set_self {ws : List Val} {q : Nat} {v : Val} (h : q < ws.length) :
    (ws.set q v).take (q + 1) = ws.take q ++ [v] := by
  rw [List.take_add_one, List.getElem?_set_self h, List.take_set_of_le (Nat.le_refl _)]
  rfl

/-- More numbers and the closing bracket. -/
theorem Rest.ends {ns u} (h : Rest ns u) (ht : ∀ c ∈ t, IsChar c) {N : Nat} :
    ∀ {i q r m w' rest ws}, (∀ n ∈ ns, fitsInt n.natAbs = true) → Spaces w' →
      t.drop i = u ++ (w' ++ 93 :: rest) → m.objs[o]? = some (.tup ws) → ws.length = N → q + r = N →
      (ns.length = r → ∃ m', SeqEnds env (.at o [] (.tup (List.replicate N .int))) bnd t (slotsAt q r)
        (progsAt r) i i m .SUCCESS (i + u.length + w'.length + 1) m' ∧
        m'.objs[o]? = some (.tup (ws.take q ++ ns.map .num)) ∧ Others m o m') ∧
      (ns.length ≠ r → ∃ i' m', SeqEnds env (.at o [] (.tup (List.replicate N .int))) bnd t (slotsAt q r)
        (progsAt r) i i m .FAILURE i' m' ∧ Others m o m') := by
  have h93 := noDigit_char (c := 93) (.inr rfl)
  have h44 := noDigit_char (c := 44) (.inl rfl)
  induction h with
  | nil =>
    intro i q r m w' rest ws _ hw' hd ho hl hN
    obtain ⟨h1, h2⟩ := over_to hd hw' h93.2.1
    refine ⟨?_, ?_⟩
    · rintro rfl
      refine ⟨m, .last (d := .nil) rfl (.litW ht h1 h2) (by simp), ?_, fun _ _ _ => rfl⟩
      have hq : ws.take q = ws := List.take_of_length_le (by simp only [List.length_nil] at hN; omega)
      simpa [hq] using ho
    · intro hr
      cases r with
      | zero => exact absurd rfl hr
      | succ r =>
        exact ⟨_, m, .fail (d := .nil) rfl (.litW_fail ht h1 (by rw [h2]; decide)), fun _ _ _ => rfl⟩
  | @cons w1 w n s ns u hw1 hw hn hrest ih =>
    intro i q r m w' rest ws hf hw' hd ho hl hN
    have hd0 : t.drop i = w1 ++ 44 :: (w ++ (s ++ (u ++ (w' ++ 93 :: rest)))) := by rw [hd]; simp
    obtain ⟨h1, h2⟩ := over_to hd0 hw1 h44.2.1
    have hd1 := (drop_cons (drop_add hd0)).2.1
    have hd2 := drop_add hd1
    have hd3 := drop_add hd2
    cases r with
    | zero =>
      refine ⟨fun h => by simp at h, fun _ => ?_⟩
      exact ⟨_, m, .last (d := .nil) rfl (.litW_fail ht h1 (by rw [h2]; decide)) (by simp), fun _ _ _ => rfl⟩
    | succ r =>
      have hov : Over t (i + w1.length + 1) (i + w1.length + 1 + w.length) := by
        obtain ⟨c, s', rfl, hc⟩ := hn.head
        exact (over_to (by simpa using hd1) hw hc).1
      have hnext : NoDigitNext 10 (u ++ (w' ++ 93 :: rest)) := by
        cases hrest with
        | nil => exact noDigit_spaces hw' h93.1 h93.2.2
        | cons hx _ _ _ =>
          rw [List.append_assoc, List.cons_append]
          exact noDigit_spaces hx h44.1 h44.2.2
      have hq : q < N := by omega
      obtain ⟨m1, g1, g2⟩ := Ends.numeral (env := env) (bnd := bnd) (j := i + w1.length + 1) hn (hf n (by simp)) hd2 hnext
        (has_slot ho (by omega : q < ws.length))
      have ho1 := g2.slot ho
      obtain ⟨k1, k2⟩ := ih (q := q + 1) (r := r) (fun n hn => hf n (by simp [hn])) hw' hd3 ho1 (by simpa using hl)
        (by omega)
      refine ⟨fun hr => ?_, fun hr => ?_⟩
      · obtain ⟨m2, f1, f2, f3⟩ := k1 (by simpa using hr)
        refine ⟨m2, .cons (d := .nil) rfl (.litW ht h1 h2) (.cons (seqDst_int hq) (.over ht hov g1) ?_), ?_,
          g2.others.trans f3⟩
        · have e : i + (w1 ++ 44 :: (w ++ (s ++ u))).length + w'.length + 1 =
              i + w1.length + 1 + w.length + s.length + u.length + w'.length + 1 := by
            simp only [List.length_append, List.length_cons]; omega
          rw [e]
          exact f1
        · rw [f2, take_set_self (by omega)]
          simp
      · obtain ⟨i', m2, f1, f2⟩ := k2 (by simpa using hr)
        exact ⟨i', m2, .cons (d := .nil) rfl (.litW ht h1 h2) (.cons (seqDst_int hq) (.over ht hov g1) f1),
          g2.others.trans f2⟩

/-- Whatever the text is. -/
theorem rest_total (ht : ∀ c ∈ t, IsChar c) {N : Nat} : ∀ {r i q m ws},
    m.objs[o]? = some (.tup ws) → ws.length = N → q + r = N →
    (∃ i' m', SeqEnds env (.at o [] (.tup (List.replicate N .int))) bnd t (slotsAt q r)
        (progsAt r) i i m .FAILURE i' m' ∧ Others m o m') ∨
    (∃ ns u w' x, ns.length = r ∧ Rest ns u ∧ Spaces w' ∧ t.drop i = u ++ (w' ++ 93 :: t.drop x)) ∨
    ∃ ns u rest, ns.length ≤ r ∧ Rest ns u ∧ t.drop i = u ++ rest ∧ NoDigitNext 10 rest ∧
      ∃ n ∈ ns, ¬ fitsInt n.natAbs = true := by
  intro r
  induction r with
  | zero =>
    intro i q m ws ho hl hN
    obtain ⟨w, h1, h2, h3⟩ := exists_over t i
    by_cases hc : t[i + w.length]? = some 93
    · exact .inr <| .inl ⟨[], [], w, i + w.length + 1, rfl, .nil, h2, by rw [h1, drop_of_getElem? hc]; rfl⟩
    · exact .inl ⟨_, m, .last (d := .nil) rfl (.litW_fail ht h3 hc) (by simp), fun _ _ _ => rfl⟩
  | succ r ih =>
    intro i q m ws ho hl hN
    obtain ⟨w, h1, h2, h3⟩ := exists_over t i
    by_cases hc : t[i + w.length]? = some 44
    · obtain ⟨w1, g1, g2, g3⟩ := exists_over t (i + w.length + 1)
      have hq : q < N := by omega
      have hs := has_slot ho (by omega : q < ws.length)
      rcases number_or_none (t.drop (i + w.length + 1 + w1.length)) fun c hc => ht c (List.mem_of_mem_drop hc) with
        ⟨n, s, rest, e, hn, hnext⟩ | hn
      · by_cases hv : fitsInt n.natAbs = true
        · obtain ⟨m1, f1, f2⟩ := Ends.numeral (env := env) (bnd := bnd) (j := i + w.length + 1) hn hv e hnext hs
          rcases ih (i := i + w.length + 1 + w1.length + s.length) (q := q + 1) (f2.slot ho) (by simpa using hl) (by omega) with
            ⟨i', m2, k1, k2⟩ | ⟨ns, u, w', x, k1, k2, k3, k4⟩ | ⟨ns, u, rest', k1, k2, k3, k4, n', k5, k6⟩
          · exact .inl ⟨i', m2, .cons (d := .nil) rfl (.litW ht h3 hc) (.cons (seqDst_int hq) (.over ht g3 f1) k1),
              f2.others.trans k2⟩
          · refine .inr <| .inl ⟨n :: ns, _, w', x, by simpa using k1, .cons h2 g2 hn k2, k3, ?_⟩
            rw [h1, drop_of_getElem? hc, g1, e, ← drop_add e, k4]
            simp
          · refine .inr <| .inr ⟨n :: ns, _, rest', by simpa using k1, .cons h2 g2 hn k2, ?_, k4, n', by simp [k5], k6⟩
            rw [h1, drop_of_getElem? hc, g1, e, ← drop_add e, k3]
            simp
        · refine .inr <| .inr ⟨[n], _, rest, by simp, .cons h2 g2 hn .nil, ?_, hnext, n, by simp, hv⟩
          rw [h1, drop_of_getElem? hc, g1, e]
          simp
      · obtain ⟨i', m1, f1, f2⟩ := Ends.int_fail (env := env) (bnd := bnd) (j := i + w.length + 1) ht hn hs
        exact .inl ⟨i', m1, .cons (d := .nil) rfl (.litW ht h3 hc) (.fail (seqDst_int hq) (.over ht g3 f1)),
          f2.others⟩
    · exact .inl ⟨_, m, .fail (d := .nil) rfl (.litW_fail ht h3 hc), fun _ _ _ => rfl⟩

/-- The buffer of the constructor arguments. -/
theorem rect_alloc (N : Nat) : m.alloc (.tup (List.replicate N .int)) =
    (.at m.objs.length [] (.tup (List.replicate N .int)),
      ⟨m.objs ++ [.tup (List.replicate N (.num 0))], m.log⟩) := by
  have : ∀ N, Ty.valueInits (List.replicate N .int) = List.replicate N (Val.num 0) := by
    intro N
    induction N with
    | zero => rfl
    | succ N ih => simp only [List.replicate_succ, Ty.valueInits, ih]; rfl
  simp only [Mem.alloc, Ty.defaultInit, Ty.valueInit, this]

/-- What the constructor call does. -/
theorem rect_construct {id N : Nat} {args : List Val} {n : Nat} {p : List Nat} (hn : m.objs[n]? = some (.tup args))
    (hm : Has m o p) : ∃ m', m.construct (.at o p (.user id)) (.at n [] (.tup (List.replicate N .int))) = .ok m' ∧
      Sets m o p (.obj id args) m' := by
  obtain ⟨a, ha⟩ := hm.read
  obtain ⟨m3, h1, h2⟩ := modify_sets (f := fun _ => .ok (.obj id args)) (b := .obj id args) (ha .nil) rfl
  refine ⟨m3, ?_, h2⟩
  simp only [Mem.construct, Mem.read, hn, Val.get, Ty.makeFrom, Mem.assign, Ty.convert, if_true]
  exact h1

variable {p : List Nat}

/-- The text of a list. -/
theorem rect_ends {id k r n ns w s u w' rest} (ht : ∀ c ∈ t, IsChar c) (hi : Over t i k) (hc : t[k]? = some 91)
    (hw : Spaces w) (hn : Numeral n s) (hr : Rest ns u) (hw' : Spaces w')
    (hf : ∀ a ∈ n :: ns, fitsInt a.natAbs = true)
    (hd : t.drop (k + 1) = w ++ (s ++ (u ++ (w' ++ 93 :: rest)))) (hm : Has m o p) :
    (ns.length = r → ∃ m', Ends env (rectW r) (.at o p (.user id)) bnd t j i m .SUCCESS
      (k + 1 + w.length + s.length + u.length + w'.length + 1) m' ∧
      Sets m o p (.obj id ((n :: ns).map .num)) m') ∧
    (ns.length ≠ r → ∃ m', Ends env (rectW r) (.at o p (.user id)) bnd t j i m .FAILURE j m' ∧
      Grows m m') := by
  have hd1 := drop_add hd
  have hd2 := drop_add hd1
  have h93 := noDigit_char (c := 93) (.inr rfl)
  have h44 := noDigit_char (c := 44) (.inl rfl)
  have hov : Over t (k + 1) (k + 1 + w.length) := by
    obtain ⟨c, s', rfl, hc⟩ := hn.head
    exact (over_to (by simpa using hd) hw hc).1
  have hnext : NoDigitNext 10 (u ++ (w' ++ 93 :: rest)) := by
    cases hr with
    | nil => exact noDigit_spaces hw' h93.1 h93.2.2
    | cons hx _ _ _ =>
      rw [List.append_assoc, List.cons_append]
      exact noDigit_spaces hx h44.1 h44.2.2
  have ho : (⟨m.objs ++ [.tup (List.replicate (r + 1) (.num 0))], m.log⟩ : Mem).objs[m.objs.length]? =
      some (.tup (List.replicate (r + 1) (.num 0))) := by simp
  obtain ⟨m1, g1, g2⟩ := Ends.numeral (env := env) (bnd := bnd) (j := k + 1) hn (hf n (by simp)) hd1 hnext
    (has_slot ho (by simp : 0 < (List.replicate (r + 1) (Val.num 0)).length))
  have hg1 : Grows m m1 := grows_append.fresh (Nat.le_refl _) g2
  obtain ⟨k1, k2⟩ := hr.ends (env := env) (bnd := bnd) ht (N := r + 1) (q := 1) (r := r)
    (fun a ha => hf a (by simp [ha])) hw' hd2 (g2.slot ho) (by simp) (by omega)
  refine ⟨fun hl => ?_, fun hl => ?_⟩
  · obtain ⟨m2, f1, f2, f3⟩ := k1 hl
    have hg2 : Grows m m2 := hg1.others (Nat.le_refl _) f3
    obtain ⟨m3, c1, c2⟩ := rect_construct (id := id) (N := r + 1) f2 (hm.grows hg2)
    refine ⟨m3, .over ht hi (.construct (m1 := m2) ?_ ?_), ?_⟩
    · rw [rect_alloc]
      exact .over ht hi.end_at (.clean (SeqEnds.ends (.cons (d := .nil) rfl (.litW ht hi.end_at hc)
        (.cons (seqDst_int (by omega)) (.over ht hov g1) f1))))
    · rw [rect_alloc]
      exact c1
    · have := hg2.sets hm.lt c2
      simpa [List.replicate_succ] using this
  · obtain ⟨i', m2, f1, f2⟩ := k2 hl
    refine ⟨m2, .over ht hi (.construct_fail ?_), hg1.others (Nat.le_refl _) f2⟩
    rw [rect_alloc]
    exact .over ht hi.end_at (.clean_fail (SeqEnds.ends (.cons (d := .nil) rfl (.litW ht hi.end_at hc)
      (.cons (seqDst_int (by omega)) (.over ht hov g1) f1))))

/-- Other texts. -/
theorem rect_fails {id k r} (ht : ∀ c ∈ t, IsChar c) (hi : Over t i k)
    (hf : ∀ n ns w s u rest, t.drop k = 91 :: (w ++ (s ++ (u ++ rest))) → Spaces w → Numeral n s → Rest ns u →
      ns.length ≤ r → NoDigitNext 10 rest → ∀ a ∈ n :: ns, fitsInt a.natAbs = true)
    (h : ∀ n ns w s u w' rest, t.drop k = 91 :: (w ++ (s ++ (u ++ (w' ++ 93 :: rest)))) → Spaces w →
      Numeral n s → Rest ns u → Spaces w' → ns.length ≠ r) :
    ∃ m', Ends env (rectW r) (.at o p (.user id)) bnd t j i m .FAILURE j m' ∧ Grows m m' := by
  have ho : (⟨m.objs ++ [.tup (List.replicate (r + 1) (.num 0))], m.log⟩ : Mem).objs[m.objs.length]? =
      some (.tup (List.replicate (r + 1) (.num 0))) := by simp
  suffices hs : ∃ i' m', SeqEnds env (.at m.objs.length [] (.tup (List.replicate (r + 1) .int))) bnd t
      (none :: some 0 :: slotsAt 1 r) (litW 91 :: intW :: progsAt r) j k
      ⟨m.objs ++ [.tup (List.replicate (r + 1) (.num 0))], m.log⟩ .FAILURE i' m' ∧ Grows m m' by
    obtain ⟨i', m', h1, h2⟩ := hs
    refine ⟨m', .over ht hi (.construct_fail ?_), h2⟩
    rw [rect_alloc]
    exact .over ht hi.end_at (.clean_fail h1.ends)
  by_cases hc : t[k]? = some 91
  · obtain ⟨w, h1, h2, h3⟩ := exists_over t (k + 1)
    have hs := has_slot ho (by simp : 0 < (List.replicate (r + 1) (Val.num 0)).length)
    rcases number_or_none (t.drop (k + 1 + w.length)) fun c hc => ht c (List.mem_of_mem_drop hc) with
      ⟨n, s, rest, e, hn, hnext⟩ | hn
    · have hv := hf n [] w s [] rest (by rw [drop_of_getElem? hc, h1, e]; rfl) h2 hn .nil (by simp) hnext n (by simp)
      obtain ⟨m1, g1, g2⟩ := Ends.numeral (env := env) (bnd := bnd) (j := k + 1) hn hv e hnext hs
      have hg1 : Grows m m1 := grows_append.fresh (Nat.le_refl _) g2
      rcases rest_total (env := env) (bnd := bnd) ht (N := r + 1) (r := r) (q := 1)
        (i := k + 1 + w.length + s.length) (g2.slot ho) (by simp) (by omega) with
        ⟨i', m2, f1, f2⟩ | ⟨ns, u, w', x, f1, f2, f3, f4⟩ | ⟨ns, u, rest', f1, f2, f3, f4, n', f5, f6⟩
      · exact ⟨i', m2, .cons (d := .nil) rfl (.litW ht hi.end_at hc) (.cons (seqDst_int (by omega)) (.over ht h3 g1) f1),
          hg1.others (Nat.le_refl _) f2⟩
      · refine absurd f1 (h n ns w s u w' (t.drop x) ?_ h2 hn f2 f3)
        rw [drop_of_getElem? hc, h1, e, ← drop_add e, f4]
      · refine absurd (hf n ns w s u rest' ?_ h2 hn f2 f1 f4 n' (by simp [f5])) f6
        rw [drop_of_getElem? hc, h1, e, ← drop_add e, f3]
    · obtain ⟨i', m1, g1, g2⟩ := Ends.int_fail (env := env) (bnd := bnd) (j := k + 1) ht hn hs
      exact ⟨i', m1, .cons (d := .nil) rfl (.litW ht hi.end_at hc) (.fail (seqDst_int (by omega)) (.over ht h3 g1)),
        grows_append.fresh (Nat.le_refl _) g2⟩
  · exact ⟨_, _, .fail (d := .nil) rfl (.litW_fail ht hi.end_at hc), grows_append⟩

end
end Abu
