import Verif.Proofs.TimeLeaf
/-
A bound on the number of iterations, for parsers without `Recur` whose loops consume.
-/
namespace Abu

section
variable {env : Env} {t : List Ch} {c : Nat → Bool}

/-- The parser returns after at most `B` iterations. -/
def EndsBy (env : Env) (t : List Ch) (P : Prog) (st : PState) (i : Nat) (S : List Nat) (B : Nat) :
    Prop :=
  ∃ r i' S' k, BigIn env t P st i S r i' S' k ∧ k ≤ B

theorem EndsBy.mono {P st i S B B'} (h : EndsBy env t P st i S B) (hB : B ≤ B') :
    EndsBy env t P st i S B' := by
  obtain ⟨r, i', S', k, h1, h2⟩ := h
  exact ⟨r, i', S', k, h1, Nat.le_trans h2 hB⟩

/-- The parser returns after at most `B` iterations, wherever it is constructed. -/
def TakesAt (env : Env) (t : List Ch) (P : Prog) (B : Nat) : Prop :=
  ∀ lo i own S, Start t lo P i own → EndsBy env t P (fresh P) i (own ++ S) B

theorem TakesAt.mono {P B B'} (h : TakesAt env t P B) (hB : B ≤ B') : TakesAt env t P B' :=
  fun lo i own S hs => (h lo i own S hs).mono hB

theorem endsBy_iter {P st i S cp cs A B} (hc : childOf P st = some (cp, cs))
    (hch : EndsBy env t cp cs i S A)
    (h : ∀ r i1 S1, Big env t cp cs i S r i1 S1 →
      ∃ it, after P st r .unit i1 S1 = some it ∧
        ∀ st2 i2 S2, it = .cont st2 i2 S2 → EndsBy env t P st2 i2 S2 B) :
    EndsBy env t P st i S (A + 1 + B) := by
  obtain ⟨r, i1, S1, k, hb, hk⟩ := hch
  obtain ⟨it, ha, hn⟩ := h r i1 S1 hb.big
  cases it with
  | ret r' i' S' => exact ⟨_, _, _, _, .ret hc hb ha, by omega⟩
  | cont st2 i2 S2 =>
    obtain ⟨r', i', S', l, hb', hl⟩ := hn _ _ _ rfl
    exact ⟨_, _, _, _, .cont hc hb ha hb', by omega⟩

variable (henv : ∀ id q sk, env id = some q → Comp sk → Comp (elabP sk RecurChildReqs q))
variable (hc : ∀ id q, env id = some q → c id = true → q.eats c = true)

include henv hc

theorem endsBy_child {P st i S cp b own A B} (hch : childOf P st = some (cp, fresh cp))
    (hcp : Comp cp) (hb : TakesAt env t cp A) (hs : Start t b cp i own)
    (h : ∀ r i1 L, Ended t c b cp r i1 L →
      ∃ it, after P st r .unit i1 (L ++ S) = some it ∧
        ∀ st2 i2 S2, it = .cont st2 i2 S2 → EndsBy env t P st2 i2 S2 B) :
    EndsBy env t P st i (own ++ S) (A + 1 + B) := by
  refine endsBy_iter hch (hb b i own S hs) fun r i1 S1 hbig => ?_
  obtain ⟨L, rfl, he⟩ := low_ended henv hc hbig hcp rfl (.inr ⟨rfl, hs⟩)
  exact h r i1 L he

theorem takesAt_once {P p A} (hP : Comp P) (hl : P.isLeaf = false)
    (hr : ∀ id sk, P ≠ .recur id sk)
    (hch : childOf P (fresh P) = some (p, fresh p)) (hp : TakesAt env t p A)
    (hno : ∀ r cs i S st2 i2 S2, after P (fresh P) r cs i S ≠ some (.cont st2 i2 S2)) :
    TakesAt env t P (A + 1) := by
  intro lo i own S hs
  have hsit : Sit t c lo P (fresh P) i own := hs.sit hP hl hr
  obtain ⟨_, b, own', rest, rfl, hb, hst, hnext⟩ := sit_step hsit hP hch
  rw [List.append_assoc]
  refine endsBy_child (B := 0) henv hc hch (childOf_comp hch hP) hp hst fun r i1 L he => ?_
  have hn := hnext r .unit i1 L S he
  cases ha : after P (fresh P) r .unit i1 (L ++ (rest ++ S)) with
  | none => rw [ha] at hn; exact hn.elim
  | some it =>
    refine ⟨it, rfl, fun st2 i2 S2 h => ?_⟩
    subst h
    exact absurd ha (hno _ _ _ _ _ _ _)

omit henv hc in
/-- The sum of the bounds of the children, and an iteration for each. -/
def sumOf (C : Prog → Nat) : List Prog → Nat
  | [] => 0
  | p :: ps => C p + 1 + sumOf C ps

omit henv hc in
theorem sumOf_drop {C : Prog → Nat} {ps : List Prog} {k p} (h : ps[k]? = some p) :
    sumOf C (ps.drop k) = C p + 1 + sumOf C (ps.drop (k + 1)) := by
  obtain ⟨hk, rfl⟩ := List.getElem?_eq_some_iff.1 h
  rw [List.drop_eq_getElem_cons hk]; rfl

theorem takesAt_seq {slots} {ps : List Prog} {C : Prog → Nat} (hP : Comp (.seq slots ps))
    (h : ∀ p ∈ ps, TakesAt env t p (C p)) : TakesAt env t (.seq slots ps) (sumOf C ps) := by
  have key : ∀ d k p b i own S, ps.length - k = d → ps[k]? = some p → Start t b p i own →
      EndsBy env t (.seq slots ps) (.seq k (fresh p)) i (own ++ S) (sumOf C (ps.drop k)) := by
    intro d
    induction d with
    | zero =>
      intro k p b i own S hd hp
      have := (List.getElem?_eq_some_iff.1 hp).1
      omega
    | succ d ih =>
      intro k p b i own S hd hp hs
      have hlt := (List.getElem?_eq_some_iff.1 hp).1
      have hch : childOf (.seq slots ps) (.seq k (fresh p)) = some (p, fresh p) := by
        simp [childOf, hp]
      rw [sumOf_drop hp]
      refine endsBy_child henv hc hch (childOf_comp hch hP) (h p (List.mem_of_getElem? hp)) hs
        fun r i1 L he => ?_
      cases r with
      | SUCCESS =>
        simp only [after]
        split
        · rename_i p' s' hp' hs'
          refine ⟨_, rfl, fun st2 i2 S2 h => ?_⟩
          cases h
          exact ih (k + 1) p' i1 i1 _ _ (by omega) hp' (.new (Nat.le_refl _) he.high)
        · exact ⟨_, rfl, fun _ _ _ h => by cases h⟩
      | FAILURE => exact ⟨_, rfl, fun _ _ _ h => by cases h⟩
      | PARTIAL => exact ⟨_, rfl, fun _ _ _ h => by cases h⟩
  intro lo i own S hs
  cases ps with
  | nil => cases hP with | seq h _ _ => exact absurd rfl h
  | cons p ps => exact key _ 0 p lo i own S rfl rfl ⟨hs.low, hs.high, hs.len, hs.own⟩

theorem takesAt_alt {ps : List Prog} {C : Prog → Nat} (hP : Comp (.alt ps))
    (h : ∀ p ∈ ps, TakesAt env t p (C p)) : TakesAt env t (.alt ps) (sumOf C ps) := by
  have key : ∀ d k p b i own S, ps.length - k = d → ps[k]? = some p → Start t b p i own →
      EndsBy env t (.alt ps) (.alt k (fresh p)) i (own ++ S) (sumOf C (ps.drop k)) := by
    intro d
    induction d with
    | zero =>
      intro k p b i own S hd hp
      have := (List.getElem?_eq_some_iff.1 hp).1
      omega
    | succ d ih =>
      intro k p b i own S hd hp hs
      have hlt := (List.getElem?_eq_some_iff.1 hp).1
      have hch : childOf (.alt ps) (.alt k (fresh p)) = some (p, fresh p) := by
        simp [childOf, hp]
      rw [sumOf_drop hp]
      refine endsBy_child henv hc hch (childOf_comp hch hP) (h p (List.mem_of_getElem? hp)) hs
        fun r i1 L he => ?_
      cases r with
      | FAILURE =>
        simp only [after]
        split
        · rename_i p' hp'
          refine ⟨_, rfl, fun st2 i2 S2 h => ?_⟩
          cases h
          exact ih (k + 1) p' i1 i1 _ _ (by omega) hp' (.new (Nat.le_refl _) he.high)
        · exact ⟨_, rfl, fun _ _ _ h => by cases h⟩
      | SUCCESS => exact ⟨_, rfl, fun _ _ _ h => by cases h⟩
      | PARTIAL => exact ⟨_, rfl, fun _ _ _ h => by cases h⟩
  intro lo i own S hs
  cases ps with
  | nil => cases hP with | alt h _ => exact absurd rfl h
  | cons p ps => exact key _ 0 p lo i own S rfl rfl ⟨hs.low, hs.high, hs.len, hs.own⟩

omit henv hc in
theorem mul_step {d d' A : Nat} (h : d' < d) : A + 1 + d' * (A + 1) ≤ d * (A + 1) := by
  have := Nat.mul_le_mul_right (A + 1) (Nat.succ_le_of_lt h)
  rw [Nat.succ_mul] at this
  omega

theorem takesAt_rep {mn mx p A} (hp : Comp p) (he : mx ≠ 0 ∨ p.eats c = true)
    (h : TakesAt env t p A) :
    TakesAt env t (.rep mn mx p) ((if mx = 0 then t.length + 1 else mx) * (A + 1)) := by
  have key : ∀ d n b i own S, (if mx = 0 then t.length - b + 1 else mx - n) = d →
      (mx = 0 ∨ n < mx) → Start t b p i own →
      EndsBy env t (.rep mn mx p) (.rep n (fresh p)) i (own ++ S) (d * (A + 1)) := by
    intro d
    induction d using Nat.strongRecOn with
    | ind d ih =>
      intro n b i own S hd hn hs
      have hd0 : d - 1 < d := by split at hd <;> omega
      refine (endsBy_child henv hc rfl hp h hs fun r i1 L hend => ?_).mono (mul_step hd0)
      cases r with
      | SUCCESS =>
        simp only [after]
        split
        · exact ⟨_, rfl, fun _ _ _ h => by cases h⟩
        · refine ⟨_, rfl, fun st2 i2 S2 h => ?_⟩
          cases h
          have hlow := hend.low
          have hhigh := hend.high
          have hd' : (if mx = 0 then t.length - i1 + 1 else mx - (n + 1)) ≤ d - 1 := by
            split
            · rename_i hmx
              have := hend.ate rfl (he.resolve_left fun h => h hmx)
              simp only [hmx, if_true] at hd
              omega
            · rename_i hmx
              simp only [hmx, if_false] at hd
              omega
          exact (ih _ (by omega) (n + 1) i1 i1 _ _ rfl (by omega) (.new (Nat.le_refl _) hhigh)).mono
            (Nat.mul_le_mul_right _ hd')
      | FAILURE => exact ⟨_, rfl, fun _ _ _ h => by cases h⟩
      | PARTIAL => exact ⟨_, rfl, fun _ _ _ h => by cases h⟩
  intro lo i own S hs
  refine (key _ 0 lo i own S rfl (by omega) ⟨hs.low, hs.high, hs.len, hs.own⟩).mono
    (Nat.mul_le_mul_right _ ?_)
  split <;> omega

theorem takesAt_except {op neg A B} (ho : Comp op) (hn : Comp neg) (h1 : TakesAt env t op A)
    (h2 : TakesAt env t neg B) : TakesAt env t (.except op neg) (B + 1 + (A + 1)) := by
  intro lo i own S hs
  refine endsBy_child henv hc rfl hn h2 (b := lo) ⟨hs.low, hs.high, hs.len, hs.own⟩
    fun r i1 L he => ?_
  cases r with
  | FAILURE =>
    refine ⟨_, rfl, fun st2 i2 S2 h => ?_⟩
    cases h
    refine endsBy_child (B := 0) henv hc rfl ho h1 (.new he.low he.high) fun r i1 L he => ?_
    cases r <;> exact ⟨_, rfl, fun _ _ _ h => by cases h⟩
  | _ => exact ⟨_, rfl, fun _ _ _ h => by cases h⟩

theorem takesAt_list {op sep A B} (ho : Comp op) (hs : Comp sep)
    (he : op.eats c = true ∨ sep.eats c = true)
    (h1 : TakesAt env t op A) (h2 : TakesAt env t sep B) :
    TakesAt env t (.list op sep) ((t.length + 1) * (A + 1 + B + 1)) := by
  have key : ∀ d lo b i own m S, lo ≤ b → t.length - b + 1 = d → Start t b op i own → lo ≤ m →
      m ≤ t.length → EndsBy env t (.list op sep) (.list false (fresh op)) i (own ++ (m :: S))
        (d * (A + 1 + B + 1)) := by
    intro d
    induction d using Nat.strongRecOn with
    | ind d ih =>
      intro lo b i own m S hb hd hst hm hm'
      have hd0 : d - 1 < d := by omega
      have hmul : A + 1 + (B + 1 + (d - 1) * (A + 1 + B + 1)) ≤ d * (A + 1 + B + 1) := by
        have := mul_step (A := A + 1 + B) hd0
        omega
      refine (endsBy_child henv hc rfl ho h1 hst fun r i1 L hend => ?_).mono hmul
      have hlow := hend.low
      cases r with
      | SUCCESS =>
        obtain ⟨x, L', e, _, _, _⟩ := pop_own (S := S) (hend.left.mono hb) hm hm'
        have e : L ++ m :: S = x :: (L' ++ S) := e
        refine ⟨_, by simp only [after, e, newChild]; rfl, fun st2 i2 S2 h => ?_⟩
        cases h
        refine endsBy_child henv hc rfl hs h2
          (.new (Nat.le_refl _) hend.high) fun r i2 L2 hend2 => ?_
        have hlow2 := hend2.low
        have hhigh2 := hend2.high
        cases r with
        | SUCCESS =>
          refine ⟨_, rfl, fun st2 i2 S2 h => ?_⟩
          cases h
          have hlt : b < i2 := by
            rcases he with he | he
            · have := hend.ate rfl he; omega
            · have := hend2.ate rfl he; omega
          obtain ⟨y, L3, e3, hy, hy', _⟩ := pop_own (S := L' ++ S) (lo := lo) (m := i1)
            (hend2.left.mono (by omega)) (by omega) hend.high
          have e3 : L2 ++ i1 :: (L' ++ S) = y :: (L3 ++ (L' ++ S)) := e3
          rw [e3]
          exact (ih (t.length - i2 + 1) (by omega) lo i2 i2 _ y _ (by omega) rfl
            (.new (Nat.le_refl _) hhigh2) hy hy').mono (Nat.mul_le_mul_right _ (by omega))
        | FAILURE =>
          cases L2 <;> exact ⟨_, rfl, fun _ _ _ h => by cases h⟩
        | PARTIAL => exact ⟨_, rfl, fun _ _ _ h => by cases h⟩
      | FAILURE => cases L <;> exact ⟨_, rfl, fun _ _ _ h => by cases h⟩
      | PARTIAL => exact ⟨_, rfl, fun _ _ _ h => by cases h⟩
  intro lo i own S hst
  obtain ⟨own', m, rfl, h4, h5, h6⟩ := hst.split (p := op) rfl
  rw [List.append_assoc]
  exact (key _ lo lo i own' m S (Nat.le_refl _) rfl h4 h5 h6).mono
    (Nat.mul_le_mul_right _ (by omega))

theorem takesAt_skip {s p A B} (hs : Comp s) (hp : Comp p) (he : s.eats c = true)
    (h1 : TakesAt env t s A) (h2 : TakesAt env t p B) :
    TakesAt env t (.skip s p) ((t.length + 1) * (A + 1) + (B + 1)) := by
  have key : ∀ d lo b i own own2 S, lo ≤ b → t.length - b + 1 = d → Start t b s i own →
      own2.length = marks p → Within t lo own2 →
      EndsBy env t (.skip s p) (.skip false (fresh s) (fresh p)) i (own ++ (own2 ++ S))
        (d * (A + 1) + (B + 1)) := by
    intro d
    induction d using Nat.strongRecOn with
    | ind d ih =>
      intro lo b i own own2 S hb hd hst hl2 hw2
      have hd0 : d - 1 < d := by omega
      have hmul : A + 1 + ((d - 1) * (A + 1) + (B + 1)) ≤ d * (A + 1) + (B + 1) := by
        have := mul_step (A := A) hd0
        omega
      refine (endsBy_child henv hc rfl hs h1 hst fun r i1 L hend => ?_).mono hmul
      have hlow := hend.low
      obtain ⟨a, d', e, h3, _, h4, _⟩ := split_own (n := marks p) (k := L.length)
        (by rw [List.length_append, hl2, Nat.add_comm]) ((hend.left.mono hb).append hw2)
      have e' : L ++ (own2 ++ S) = a ++ (d' ++ S) := by
        rw [← List.append_assoc, e, List.append_assoc]
      rw [e']
      cases r with
      | SUCCESS =>
        refine ⟨_, rfl, fun st2 i2 S2 h => ?_⟩
        cases h
        have hhigh := hend.high
        have := hend.ate rfl he
        exact (ih (t.length - i1 + 1) (by omega) lo i1 i1 _ a _ (by omega) rfl
          (.new (Nat.le_refl _) hend.high) h3 h4).mono
          (Nat.add_le_add_right (Nat.mul_le_mul_right _ (by omega)) _)
      | FAILURE =>
        refine ⟨_, rfl, fun st2 i2 S2 h => ?_⟩
        cases h
        refine (endsBy_child (B := 0) henv hc rfl hp h2 (b := lo) ⟨by omega, hend.high, h3, h4⟩
          fun r i1 L he => ?_).mono (by omega)
        cases r <;> exact ⟨_, rfl, fun _ _ _ h => by cases h⟩
      | PARTIAL => exact ⟨_, rfl, fun _ _ _ h => by cases h⟩
  intro lo i own S hst
  obtain ⟨a, b, rfl, ha, hb, wa, wb⟩ := split_own hst.len hst.own
  rw [List.append_assoc]
  exact (key _ lo lo i a b S (Nat.le_refl _) rfl ⟨hst.low, hst.high, ha, wa⟩ hb wb).mono
    (Nat.add_le_add_right (Nat.mul_le_mul_right _ (by omega)) _)

end
end Abu
