import Verif.Proofs.ReadmeRect
import Verif.Proofs.ReadmeUndefined
/-
The rectangle of the README on numbers that do not fit.
-/
namespace Abu

section
variable {env : Env} {P : Prog} {dst bnd : Ref} {t : List Ch} {j i : Nat} {m : Mem} {o : Nat} {p : List Nat}

theorem Dies.construct {tys} (h : Dies env P (m.alloc (.tup tys)).1 bnd t j i (m.alloc (.tup tys)).2) :
    Dies env (.construct tys P) dst bnd t j i m := by
  obtain ⟨st, m0, hb, hr⟩ := h
  refine ⟨_, _, hb.construct, .body ?_⟩
  simp only [marks, Abu.body]
  exact .here' hr

theorem Dies.numeral {k n s rest} (h : Numeral n s) (hv : ¬ fitsInt n.natAbs = true)
    (ht : t.drop k = s ++ rest) (hn : NoDigitNext 10 rest) (hm : Has m o p) :
    Dies env (.int 10 1 0) (.at o p .int) bnd t j k m := by
  obtain ⟨sg, neg, ds, rs, hs, hd, hne, rfl, rfl⟩ := h
  rw [withSign_natAbs] at hv
  exact Dies.int hs hd hne hv ht hn hm

theorem Rest.noDigit {ns u rest} (h : Rest ns u) (hn : NoDigitNext 10 rest) : NoDigitNext 10 (u ++ rest) := by
  have h44 := noDigit_char (c := 44) (.inl rfl)
  cases h with
  | nil => exact hn
  | cons hx _ _ _ =>
    rw [List.append_assoc, List.cons_append]
    exact noDigit_spaces hx h44.1 h44.2.2

/-- A number that does not fit is among those that are read, or comes later. -/
theorem Rest.big {ns u} (h : Rest ns u) (ht : ∀ c ∈ t, IsChar c) {N : Nat} :
    ∀ {i q r m rest ws}, NoDigitNext 10 rest → t.drop i = u ++ rest → m.objs[o]? = some (.tup ws) →
      ws.length = N → q + r = N → (∃ n ∈ ns, ¬ fitsInt n.natAbs = true) →
      SeqDies env (.at o [] (.tup (List.replicate N .int))) bnd t (slotsAt q r) (progsAt r) i i m ∨
      (r < ns.length ∧ ∃ i' m', SeqEnds env (.at o [] (.tup (List.replicate N .int))) bnd t (slotsAt q r)
        (progsAt r) i i m .FAILURE i' m' ∧ Others m o m') := by
  have h44 := noDigit_char (c := 44) (.inl rfl)
  induction h with
  | nil => rintro i q r m rest ws _ _ _ _ _ ⟨n, hn, _⟩; cases hn
  | @cons w1 w n s ns u hw1 hw hn hrest ih =>
    intro i q r m rest ws hnd hd ho hl hN hb
    have hd0 : t.drop i = w1 ++ 44 :: (w ++ (s ++ (u ++ rest))) := by rw [hd]; simp
    obtain ⟨h1, h2⟩ := over_to hd0 hw1 h44.2.1
    have hd1 := (drop_cons (drop_add hd0)).2.1
    have hd2 := drop_add hd1
    have hd3 := drop_add hd2
    cases r with
    | zero =>
      exact .inr ⟨by simp, _, m, .last (d := .nil) rfl (.litW_fail ht h1 (by rw [h2]; decide)) (by simp), fun _ _ _ => rfl⟩
    | succ r =>
      have hov : Over t (i + w1.length + 1) (i + w1.length + 1 + w.length) := by
        obtain ⟨c, s', rfl, hc⟩ := hn.head
        exact (over_to (by simpa using hd1) hw hc).1
      have hnext := hrest.noDigit hnd
      have hq : q < N := by omega
      have hs := has_slot ho (by omega : q < ws.length)
      by_cases hv : fitsInt n.natAbs = true
      · obtain ⟨m1, g1, g2⟩ := Ends.numeral (env := env) (bnd := bnd) (j := i + w1.length + 1) hn hv hd2 hnext hs
        have hb2 : ∃ n ∈ ns, ¬ fitsInt n.natAbs = true := by
          obtain ⟨n', hn', hb⟩ := hb
          rcases List.mem_cons.1 hn' with rfl | hn'
          · exact absurd hv hb
          · exact ⟨n', hn', hb⟩
        rcases ih (q := q + 1) (r := r) hnd hd3 (g2.slot ho) (by simpa using hl) (by omega) hb2 with
          k | ⟨k0, i', m2, k1, k2⟩
        · exact .inl (.cons (d := .nil) rfl (.litW ht h1 h2) (.cons (seqDst_int hq) (.over ht hov g1) k))
        · exact .inr ⟨by simpa using k0, i', m2, .cons (d := .nil) rfl (.litW ht h1 h2)
            (.cons (seqDst_int hq) (.over ht hov g1) k1), g2.others.trans k2⟩
      · exact .inl (.cons (d := .nil) rfl (.litW ht h1 h2) (.here (seqDst_int hq)
          (.over ht hov (.numeral hn hv hd2 hnext hs))))

theorem rect_big {id k r n ns w s u rest} (ht : ∀ c ∈ t, IsChar c) (hi : Over t i k) (hc : t[k]? = some 91)
    (hw : Spaces w) (hn : Numeral n s) (hr : Rest ns u) (hnd : NoDigitNext 10 rest)
    (hb : ∃ a ∈ n :: ns, ¬ fitsInt a.natAbs = true) (hd : t.drop (k + 1) = w ++ (s ++ (u ++ rest))) :
    Dies env (rectW r) (.at o p (.user id)) bnd t j i m ∨
    (r < ns.length ∧ ∃ m', Ends env (rectW r) (.at o p (.user id)) bnd t j i m .FAILURE j m') := by
  have hd1 := drop_add hd
  have hd2 := drop_add hd1
  have hov : Over t (k + 1) (k + 1 + w.length) := by
    obtain ⟨c, s', rfl, hc⟩ := hn.head
    exact (over_to (by simpa using hd) hw hc).1
  have hnext := hr.noDigit hnd
  have ho : (⟨m.objs ++ [.tup (List.replicate (r + 1) (.num 0))], m.log⟩ : Mem).objs[m.objs.length]? =
      some (.tup (List.replicate (r + 1) (.num 0))) := by simp
  have hs := has_slot ho (by simp : 0 < (List.replicate (r + 1) (Val.num 0)).length)
  have die : SeqDies env (.at m.objs.length [] (.tup (List.replicate (r + 1) .int))) bnd t
      (none :: some 0 :: slotsAt 1 r) (litW 91 :: intW :: progsAt r) j k
      ⟨m.objs ++ [.tup (List.replicate (r + 1) (.num 0))], m.log⟩ →
      Dies env (rectW r) (.at o p (.user id)) bnd t j i m := by
    intro h
    refine .over ht hi (.construct ?_)
    rw [rect_alloc]
    exact .over ht hi.end_at (.clean h.dies)
  by_cases hv : fitsInt n.natAbs = true
  · obtain ⟨m1, g1, g2⟩ := Ends.numeral (env := env) (bnd := bnd) (j := k + 1) hn hv hd1 hnext hs
    have hb2 : ∃ n ∈ ns, ¬ fitsInt n.natAbs = true := by
      obtain ⟨n', hn', hb⟩ := hb
      rcases List.mem_cons.1 hn' with rfl | hn'
      · exact absurd hv hb
      · exact ⟨n', hn', hb⟩
    rcases hr.big (env := env) (bnd := bnd) ht (N := r + 1) (q := 1) (r := r) hnd hd2 (g2.slot ho) (by simp)
      (by omega) hb2 with f | ⟨f0, i', m2, f1, f2⟩
    · exact .inl (die (.cons (d := .nil) rfl (.litW ht hi.end_at hc) (.cons (seqDst_int (by omega)) (.over ht hov g1) f)))
    · refine .inr ⟨f0, m2, .over ht hi (.construct_fail ?_)⟩
      rw [rect_alloc]
      exact .over ht hi.end_at (.clean_fail (SeqEnds.ends (.cons (d := .nil) rfl (.litW ht hi.end_at hc)
        (.cons (seqDst_int (by omega)) (.over ht hov g1) f1))))
  · exact .inl (die (.cons (d := .nil) rfl (.litW ht hi.end_at hc) (.here (seqDst_int (by omega))
      (.over ht hov (.numeral hn hv hd1 hnext hs)))))

end
end Abu
