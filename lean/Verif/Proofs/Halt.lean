import Verif.Proofs.LowStep
/-
Parsers whose loops consume return.
-/
namespace Abu

section
variable {env : Env} {t : List Ch} {c : Nat → Bool}

/-- The parser returns whenever it was constructed at `lo` or later. -/
def HaltsAt (env : Env) (t : List Ch) (lo : Nat) (P : Prog) : Prop :=
  ∀ i own S, Start t lo P i own → Halts env t P (fresh P) i (own ++ S)

theorem HaltsAt.mono {lo lo' P} (h : HaltsAt env t lo P) (hl : lo ≤ lo') : HaltsAt env t lo' P :=
  fun i own S hs => h i own S (hs.mono hl)

theorem halts_iter {P st i S cp cs} (hc : childOf P st = some (cp, cs))
    (hch : Halts env t cp cs i S)
    (h : ∀ r i1 S1, Big env t cp cs i S r i1 S1 →
      ∃ it, after P st r .unit i1 S1 = some it ∧
        ∀ st2 i2 S2, it = .cont st2 i2 S2 → Halts env t P st2 i2 S2) :
    Halts env t P st i S := by
  obtain ⟨r, i1, S1, hb⟩ := hch
  obtain ⟨it, ha, hn⟩ := h r i1 S1 hb
  cases it with
  | ret r' i' S' => exact ⟨_, _, _, .ret hc hb ha⟩
  | cont st2 i2 S2 =>
    obtain ⟨r', i', S', hb'⟩ := hn _ _ _ rfl
    exact ⟨_, _, _, .cont hc hb ha hb'⟩

variable (henv : ∀ id q sk, env id = some q → Comp sk → Comp (elabP sk RecurChildReqs q))
variable (hc : ∀ id q, env id = some q → c id = true → q.eats c = true)

include henv hc

/-- The same for a child constructed at `b`, knowing what it ends with. -/
theorem halts_child {P st i S cp b own} (hch : childOf P st = some (cp, fresh cp))
    (hcp : Comp cp) (hb : HaltsAt env t b cp) (hs : Start t b cp i own)
    (h : ∀ r i1 L, Ended t c b cp r i1 L →
      ∃ it, after P st r .unit i1 (L ++ S) = some it ∧
        ∀ st2 i2 S2, it = .cont st2 i2 S2 → Halts env t P st2 i2 S2) :
    Halts env t P st i (own ++ S) := by
  refine halts_iter hch (hb i own S hs) fun r i1 S1 hbig => ?_
  obtain ⟨L, rfl, he⟩ := low_ended henv hc hbig hcp rfl (.inr ⟨rfl, hs⟩)
  exact h r i1 L he

/-- Classes that call one child once. -/
theorem haltsAt_once {lo P p} (hP : Comp P) (hl : P.isLeaf = false)
    (hr : ∀ id sk, P ≠ .recur id sk)
    (hch : childOf P (fresh P) = some (p, fresh p)) (hp : HaltsAt env t lo p)
    (hno : ∀ r cs i S st2 i2 S2, after P (fresh P) r cs i S ≠ some (.cont st2 i2 S2)) :
    HaltsAt env t lo P := by
  intro i own S hs
  have hsit : Sit t c lo P (fresh P) i own := hs.sit hP hl hr
  obtain ⟨_, b, own', rest, rfl, hb, hst, hnext⟩ := sit_step hsit hP hch
  rw [List.append_assoc]
  refine halts_child henv hc hch (childOf_comp hch hP) (hp.mono hb) hst fun r i1 L he => ?_
  have hn := hnext r .unit i1 L S he
  cases ha : after P (fresh P) r .unit i1 (L ++ (rest ++ S)) with
  | none => rw [ha] at hn; exact hn.elim
  | some it =>
    refine ⟨it, rfl, fun st2 i2 S2 h => ?_⟩
    subst h
    exact absurd ha (hno _ _ _ _ _ _ _)

theorem haltsAt_seq {lo slots} {ps : List Prog} (hP : Comp (.seq slots ps))
    (h1 : ∀ p ∈ ps, ∀ b, lo < b → HaltsAt env t b p)
    (h2 : ∀ (k : Nat) (p : Prog), ps[k]? = some p → (∀ (j : Nat) (q : Prog), j < k → ps[j]? = some q → q.eats c = false) →
      HaltsAt env t lo p) : HaltsAt env t lo (.seq slots ps) := by
  have key : ∀ d k p b i own S, ps.length - k = d → ps[k]? = some p → lo ≤ b →
      (∀ j q, j < k → ps[j]? = some q → q.eats c = true → lo < b) → Start t b p i own →
      Halts env t (.seq slots ps) (.seq k (fresh p)) i (own ++ S) := by
    intro d
    induction d with
    | zero =>
      intro k p b i own S hd hp
      have := (List.getElem?_eq_some_iff.1 hp).1
      omega
    | succ d ih =>
      intro k p b i own S hd hp hb hk hs
      have hlt := (List.getElem?_eq_some_iff.1 hp).1
      have hpb : HaltsAt env t b p := by
        rcases Nat.lt_or_ge lo b with hlb | hlb
        · exact h1 p (List.mem_of_getElem? hp) b hlb
        · refine (h2 k p hp fun j q hj hq => ?_).mono hb
          cases he : q.eats c with
          | false => rfl
          | true => have := hk j q hj hq he; omega
      have hch : childOf (.seq slots ps) (.seq k (fresh p)) = some (p, fresh p) := by
        simp [childOf, hp]
      refine halts_child henv hc hch (childOf_comp hch hP) hpb hs fun r i1 L he => ?_
      cases r with
      | SUCCESS =>
        simp only [after]
        split
        · rename_i p' s' hp' hs'
          refine ⟨_, rfl, fun st2 i2 S2 h => ?_⟩
          cases h
          refine ih (k + 1) p' i1 i1 _ _ (by omega) hp' (Nat.le_trans hb he.low) ?_
            (.new (Nat.le_refl _) he.high)
          intro j q hj hq hqe
          rcases Nat.lt_or_ge j k with hjk | hjk
          · exact Nat.lt_of_lt_of_le (hk j q hjk hq hqe) he.low
          · have : j = k := by omega
            subst this
            rw [hp] at hq; cases hq
            exact Nat.lt_of_le_of_lt hb (he.ate rfl hqe)
        · exact ⟨_, rfl, fun _ _ _ h => by cases h⟩
      | FAILURE => exact ⟨_, rfl, fun _ _ _ h => by cases h⟩
      | PARTIAL => exact ⟨_, rfl, fun _ _ _ h => by cases h⟩
  intro i own S hs
  have hsit : Sit t c lo (.seq slots ps) (fresh (.seq slots ps)) i own :=
    hs.sit hP rfl (by intros; simp)
  generalize hf : fresh (.seq slots ps) = st at hsit ⊢
  cases hsit with
  | seq hp hb hk hst => exact key _ _ _ _ _ _ _ rfl hp hb hk hst

theorem haltsAt_alt {lo} {ps : List Prog} (hP : Comp (.alt ps))
    (h : ∀ p ∈ ps, HaltsAt env t lo p) : HaltsAt env t lo (.alt ps) := by
  have key : ∀ d k p b i own S, ps.length - k = d → ps[k]? = some p → lo ≤ b →
      Start t b p i own →
      Halts env t (.alt ps) (.alt k (fresh p)) i (own ++ S) := by
    intro d
    induction d with
    | zero =>
      intro k p b i own S hd hp
      have := (List.getElem?_eq_some_iff.1 hp).1
      omega
    | succ d ih =>
      intro k p b i own S hd hp hb hs
      have hlt := (List.getElem?_eq_some_iff.1 hp).1
      have hch : childOf (.alt ps) (.alt k (fresh p)) = some (p, fresh p) := by
        simp [childOf, hp]
      refine halts_child henv hc hch (childOf_comp hch hP)
        ((h p (List.mem_of_getElem? hp)).mono hb) hs fun r i1 L he => ?_
      cases r with
      | FAILURE =>
        simp only [after]
        split
        · rename_i p' hp'
          refine ⟨_, rfl, fun st2 i2 S2 h => ?_⟩
          cases h
          exact ih (k + 1) p' i1 i1 _ _ (by omega) hp' (Nat.le_trans hb he.low)
            (.new (Nat.le_refl _) he.high)
        · exact ⟨_, rfl, fun _ _ _ h => by cases h⟩
      | SUCCESS => exact ⟨_, rfl, fun _ _ _ h => by cases h⟩
      | PARTIAL => exact ⟨_, rfl, fun _ _ _ h => by cases h⟩
  intro i own S hs
  have hsit : Sit t c lo (.alt ps) (fresh (.alt ps)) i own :=
    hs.sit hP rfl (by intros; simp)
  generalize hf : fresh (.alt ps) = st at hsit ⊢
  cases hsit with
  | alt hp hb hst => exact key _ _ _ _ _ _ _ rfl hp hb hst

theorem haltsAt_rep {lo mn mx p} (hp : Comp p) (he : mx ≠ 0 ∨ p.eats c = true)
    (h : HaltsAt env t lo p) : HaltsAt env t lo (.rep mn mx p) := by
  have key : ∀ d n b i own S, lo ≤ b →
      (if p.eats c then t.length - b else mx - n) = d → (mx = 0 ∨ n < mx) →
      Start t b p i own →
      Halts env t (.rep mn mx p) (.rep n (fresh p)) i (own ++ S) := by
    intro d
    induction d using Nat.strongRecOn with
    | ind d ih =>
      intro n b i own S hb hd hn hs
      refine halts_child henv hc rfl hp (h.mono hb) hs fun r i1 L hend => ?_
      cases r with
      | SUCCESS =>
        simp only [after]
        split
        · exact ⟨_, rfl, fun _ _ _ h => by cases h⟩
        · refine ⟨_, rfl, fun st2 i2 S2 h => ?_⟩
          cases h
          have hlow := hend.low
          have hhigh := hend.high
          refine ih _ ?_ (n + 1) i1 i1 _ _ (Nat.le_trans hb hlow) rfl (by omega)
            (.new (Nat.le_refl _) hhigh)
          subst hd
          cases hpe : p.eats c with
          | true =>
            have := hend.ate rfl hpe
            simp only [if_true]; omega
          | false =>
            rw [hpe] at he
            simp only [Bool.false_eq_true, or_false] at he
            simp only [Bool.false_eq_true, if_false]; omega
      | FAILURE => exact ⟨_, rfl, fun _ _ _ h => by cases h⟩
      | PARTIAL => exact ⟨_, rfl, fun _ _ _ h => by cases h⟩
  intro i own S hs
  exact key _ 0 lo i own S (Nat.le_refl _) rfl (by omega) ⟨hs.low, hs.high, hs.len, hs.own⟩

theorem haltsAt_except {lo op neg} (ho : Comp op) (hn : Comp neg) (h1 : HaltsAt env t lo op)
    (h2 : HaltsAt env t lo neg) : HaltsAt env t lo (.except op neg) := by
  intro i own S hs
  refine halts_child henv hc rfl hn h2 ⟨hs.low, hs.high, hs.len, hs.own⟩ fun r i1 L he => ?_
  cases r with
  | FAILURE =>
    refine ⟨_, rfl, fun st2 i2 S2 h => ?_⟩
    cases h
    refine halts_child henv hc rfl ho h1 (.new he.low he.high) fun r i1 L he => ?_
    cases r <;> exact ⟨_, rfl, fun _ _ _ h => by cases h⟩
  | _ => exact ⟨_, rfl, fun _ _ _ h => by cases h⟩

theorem haltsAt_list {lo op sep} (ho : Comp op) (hs : Comp sep)
    (he : op.eats c = true ∨ sep.eats c = true)
    (h1 : HaltsAt env t lo op) (h2 : ∀ b, lo < b → HaltsAt env t b sep)
    (h3 : op.eats c = false → HaltsAt env t lo sep) : HaltsAt env t lo (.list op sep) := by
  have h2' : ∀ b, lo ≤ b → (op.eats c = true → lo < b) → HaltsAt env t b sep := by
    intro b hb hlt
    cases hoe : op.eats c with
    | true => exact h2 b (hlt hoe)
    | false => exact (h3 hoe).mono hb
  have key : ∀ d b i own m S, lo ≤ b → t.length - b = d → Start t b op i own → lo ≤ m →
      m ≤ t.length → Halts env t (.list op sep) (.list false (fresh op)) i (own ++ (m :: S)) := by
    intro d
    induction d using Nat.strongRecOn with
    | ind d ih =>
      intro b i own m S hb hd hst hm hm'
      refine halts_child henv hc rfl ho (h1.mono hb) hst fun r i1 L hend => ?_
      have hlow := hend.low
      cases r with
      | SUCCESS =>
        obtain ⟨x, L', e, _, _, _⟩ := pop_own (S := S) (hend.left.mono hb) hm hm'
        have e : L ++ m :: S = x :: (L' ++ S) := e
        refine ⟨_, by simp only [after, e, newChild]; rfl, fun st2 i2 S2 h => ?_⟩
        cases h
        refine halts_child henv hc rfl hs (h2' i1 (by omega) fun h => ?_)
          (.new (Nat.le_refl _) hend.high) fun r i2 L2 hend2 => ?_
        · have := hend.ate rfl h; omega
        have hlow2 := hend2.low
        have hhigh2 := hend2.high
        cases r with
        | SUCCESS =>
          refine ⟨_, rfl, fun st2 i2 S2 h => ?_⟩
          cases h
          have hlt : b < i2 := by
            rcases he with he | he
            · have := hend.ate rfl he; omega
            · have := hend2.ate rfl he; omega
          obtain ⟨y, L3, e3, hy, hy', _⟩ := pop_own (S := L' ++ S) (lo := lo) (m := i1)
            (hend2.left.mono (by omega)) (by omega) hend.high
          have e3 : L2 ++ i1 :: (L' ++ S) = y :: (L3 ++ (L' ++ S)) := e3
          rw [e3]
          exact ih (t.length - i2) (by omega) i2 i2 _ y _ (by omega) rfl
            (.new (Nat.le_refl _) hhigh2) hy hy'
        | FAILURE =>
          cases L2 <;> exact ⟨_, rfl, fun _ _ _ h => by cases h⟩
        | PARTIAL => exact ⟨_, rfl, fun _ _ _ h => by cases h⟩
      | FAILURE => cases L <;> exact ⟨_, rfl, fun _ _ _ h => by cases h⟩
      | PARTIAL => exact ⟨_, rfl, fun _ _ _ h => by cases h⟩
  intro i own S hst
  obtain ⟨own', m, rfl, h4, h5, h6⟩ := hst.split (p := op) rfl
  rw [List.append_assoc]
  exact key _ lo i own' m S (Nat.le_refl _) rfl h4 h5 h6

theorem haltsAt_skip {lo s p} (hs : Comp s) (hp : Comp p) (he : s.eats c = true)
    (h1 : HaltsAt env t lo s) (h2 : HaltsAt env t lo p) : HaltsAt env t lo (.skip s p) := by
  have key : ∀ d b i own own2 S, lo ≤ b → t.length - b = d → Start t b s i own →
      own2.length = marks p → Within t lo own2 →
      Halts env t (.skip s p) (.skip false (fresh s) (fresh p)) i (own ++ (own2 ++ S)) := by
    intro d
    induction d using Nat.strongRecOn with
    | ind d ih =>
      intro b i own own2 S hb hd hst hl2 hw2
      refine halts_child henv hc rfl hs (h1.mono hb) hst fun r i1 L hend => ?_
      have hlow := hend.low
      obtain ⟨a, d', e, h3, _, h4, _⟩ := split_own (n := marks p) (k := L.length)
        (by rw [List.length_append, hl2, Nat.add_comm]) ((hend.left.mono hb).append hw2)
      have e' : L ++ (own2 ++ S) = a ++ (d' ++ S) := by
        rw [← List.append_assoc, e, List.append_assoc]
      rw [e']
      cases r with
      | SUCCESS =>
        refine ⟨_, rfl, fun st2 i2 S2 h => ?_⟩
        cases h
        have hhigh := hend.high
        have := hend.ate rfl he
        exact ih (t.length - i1) (by omega) i1 i1 _ a _ (by omega) rfl
          (.new (Nat.le_refl _) hend.high) h3 h4
      | FAILURE =>
        refine ⟨_, rfl, fun st2 i2 S2 h => ?_⟩
        cases h
        refine halts_child henv hc rfl hp h2 ⟨by omega, hend.high, h3, h4⟩ fun r i1 L he => ?_
        cases r <;> exact ⟨_, rfl, fun _ _ _ h => by cases h⟩
      | PARTIAL => exact ⟨_, rfl, fun _ _ _ h => by cases h⟩
  intro i own S hst
  obtain ⟨a, b, rfl, ha, hb, wa, wb⟩ := split_own hst.len hst.own
  rw [List.append_assoc]
  exact key _ lo i a b S (Nat.le_refl _) rfl ⟨hst.low, hst.high, ha, wa⟩ hb wb

end
end Abu
