import Verif.Proofs.Embed
/-
Parser objects only refer to objects that exist.
-/
namespace Abu

/-- The reference is to one of the first `n` objects, if to any. -/
def Ref.Below (n : Nat) : Ref → Prop
  | .nil => True
  | .at o _ _ => o < n

theorem Ref.Below.mono {n n' : Nat} {r : Ref} (h : r.Below n) (hn : n ≤ n') : r.Below n' := by
  cases r with
  | nil => trivial
  | «at» o p t => exact Nat.lt_of_lt_of_le h hn

theorem below_region (n : Nat) : Region (Ref.Below n) where
  nil := trivial
  slot {o p ts k t} h _ := by
    unfold wrapDst
    split
    · trivial
    · exact h

theorem PState.In.imp {S T : Ref → Prop} (h : ∀ r, S r → T r) : ∀ {st : PState}, st.In S → st.In T
  | .seq _ c, hs => PState.In.imp h (st := c) hs
  | .alt _ c, hs => PState.In.imp h (st := c) hs
  | .rep _ c, hs => PState.In.imp h (st := c) hs
  | .wrap c, hs => PState.In.imp h (st := c) hs
  | .buffered _ c, hs => ⟨h _ hs.1, PState.In.imp h (st := c) hs.2⟩
  | .skip _ s c, hs => ⟨PState.In.imp h (st := s) hs.1, PState.In.imp h (st := c) hs.2⟩
  | .except _ c, hs => PState.In.imp h (st := c) hs
  | .list _ c, hs => PState.In.imp h (st := c) hs
  | .recurSome c, hs => PState.In.imp h (st := c) hs
  | .unit, _ => trivial
  | .strLit _, _ => trivial
  | .symbol _ _, _ => trivial
  | .uint _, _ => trivial
  | .int _ _ _, _ => trivial
  | .recurNone, _ => trivial

theorem PState.In.below {n n' : Nat} {st : PState} (h : st.In (Ref.Below n)) (hn : n ≤ n') :
    st.In (Ref.Below n') := h.imp fun _ h => h.mono hn

theorem alloc_below (m : Mem) (t : Ty) :
    m.objs.length ≤ (m.alloc t).2.objs.length ∧ (m.alloc t).1.Below (m.alloc t).2.objs.length := by
  unfold Mem.alloc
  split
  · exact ⟨Nat.le_refl _, trivial⟩
  · constructor
    · simp
    · simp [Ref.Below]

section
variable {σ : Type} [DataSource σ]

theorem exec_below {C : Nat → Prog → Ref → Ref → Prop}
    {call : Prog → Ref → Ref → PState → World σ Mem → Out σ Mem (Res × PState)}
    (hc : ∀ p d b st w r st' w', (∀ n, w.mem.objs.length ≤ n → C n p d b) →
      st.In (Ref.Below w.mem.objs.length) → call p d b st w = .ok ((r, st'), w') →
      st'.In (Ref.Below w'.mem.objs.length) ∧ w.mem.objs.length ≤ w'.mem.objs.length)
    {α : Type} {Q : Nat → α → Prop} (x : Cmd α) {w : World σ Mem}
    (hx : ∀ n, w.mem.objs.length ≤ n → Uses (Ref.Below n) (C n) (Q n) x) {a w'}
    (h : exec call x w = .ok (a, w')) :
    Q w'.mem.objs.length a ∧ w.mem.objs.length ≤ w'.mem.objs.length := by
  induction x generalizing w with
  | pure b =>
    simp only [exec] at h; cases h
    refine ⟨?_, Nat.le_refl _⟩
    cases hx _ (Nat.le_refl _) with | pure h => exact h
  | fault e => simp only [exec] at h; cases h
  | isEmpty k ih => exact ih _ (fun n hn => by cases hx n hn with | isEmpty h => exact h _) h
  | isFinal k ih => exact ih _ (fun n hn => by cases hx n hn with | isFinal h => exact h _) h
  | next k ih =>
    simp only [exec] at h
    split at h
    · cases h
    · exact ih _ (fun n hn => by cases hx n hn with | next h => exact h _) h
  | advance k ih =>
    simp only [exec] at h
    split at h
    · cases h
    · rename_i ds _
      exact ih (w := ⟨ds, w.mem⟩) (by intro n hn; cases hx n hn with | advance h => exact h) h
  | prepare k ih =>
    exact ih (w := ⟨DataSource.prepare w.ds, w.mem⟩)
      (by intro n hn; cases hx n hn with | prepare h => exact h) h
  | commit k ih =>
    simp only [exec] at h
    split at h
    · cases h
    · rename_i ds _
      exact ih (w := ⟨ds, w.mem⟩) (by intro n hn; cases hx n hn with | commit h => exact h) h
  | cancel k ih =>
    simp only [exec] at h
    split at h
    · cases h
    · rename_i ds _
      exact ih (w := ⟨ds, w.mem⟩) (by intro n hn; cases hx n hn with | cancel h => exact h) h
  | mem o k ih =>
    simp only [exec] at h
    split at h
    · cases h
    · rename_i m hm
      have hl : m.objs.length = w.mem.objs.length := run_length hm
      have := ih (w := ⟨_, m⟩) (fun n hn => by
        cases hx n (by rw [← hl]; exact hn) with | mem _ h => exact h) h
      exact ⟨this.1, by rw [← hl]; exact this.2⟩
  | alloc t k ih =>
    simp only [exec] at h
    obtain ⟨h1, h2⟩ := alloc_below w.mem t
    have := ih (w.mem.alloc t).1 (w := ⟨w.ds, (w.mem.alloc t).2⟩) (fun n hn => by
      cases hx n (Nat.le_trans h1 hn) with | alloc h => exact h _ (h2.mono hn)) h
    exact ⟨this.1, Nat.le_trans h1 this.2⟩
  | call p d b st k ih =>
    simp only [exec] at h
    split at h
    · cases h
    · rename_i r s' w1 hcall
      have h1 : ∀ n, w.mem.objs.length ≤ n → C n p d b := fun n hn => by
        cases hx n hn with | call h _ _ => exact h
      have h2 : st.In (Ref.Below w.mem.objs.length) := by
        cases hx _ (Nat.le_refl _) with | call _ h _ => exact h
      obtain ⟨h3, h4⟩ := hc _ _ _ _ _ _ _ _ h1 h2 hcall
      have := ih r s' (w := w1) (fun n hn => by
        cases hx n (Nat.le_trans h4 hn) with | call _ _ h => exact h _ _ (h3.below hn)) h
      exact ⟨this.1, Nat.le_trans h4 this.2⟩

theorem construct_below {p dst bnd} {w : World σ Mem}
    (hd : ∀ n, w.mem.objs.length ≤ n → DstOK (Ref.Below n) p dst) {st w'}
    (h : construct p dst bnd w = .ok (st, w')) :
    st.In (Ref.Below w'.mem.objs.length) ∧ w.mem.objs.length ≤ w'.mem.objs.length :=
  exec_below (C := fun _ _ _ _ => True) (Q := fun n st => st.In (Ref.Below n))
    (fun _ _ _ _ _ _ _ _ _ _ h => by cases h) _
    (fun n hn => mk_uses (below_region n) p dst bnd (hd n hn)) h

theorem run_below {env : Env} (n : Nat) {p dst bnd st} {w : World σ Mem}
    (hc : ∀ n, w.mem.objs.length ≤ n → CallOK env (Ref.Below n) p dst bnd)
    (hst : st.In (Ref.Below w.mem.objs.length)) {r st' w'}
    (h : run env n p dst bnd st w = .ok ((r, st'), w')) :
    st'.In (Ref.Below w'.mem.objs.length) ∧ w.mem.objs.length ≤ w'.mem.objs.length := by
  induction n generalizing p dst bnd st w r st' w' with
  | zero => cases h
  | succ n ih =>
    rw [run_succ_eq] at h
    cases hx : exec (run env n) (body env p dst bnd st) w with
    | error e => rw [hx] at h; cases h
    | ok y =>
      obtain ⟨s, w1⟩ := y
      obtain ⟨h1, h2⟩ := exec_below (C := fun n => CallOK env (Ref.Below n))
        (Q := fun n s => s.In (Ref.Below n))
        (fun p d b st w r st' w' a1 a2 a3 => ih a1 a2 a3) _
        (fun n hn => body_uses (below_region n) p dst bnd st (hc n hn).1 (hc n hn).2
          (hst.below hn)) hx
      rw [hx] at h
      cases s with
      | ret r2 st2 => cases h; exact ⟨h1, h2⟩
      | cont st2 =>
        have := ih (fun n hn => hc n (Nat.le_trans h2 hn)) h1 h
        exact ⟨this.1, Nat.le_trans h2 this.2⟩

end

/-- Placements that agree on existing objects do the same to references to them. -/
theorem Ref.move_congr {φ ψ : Place} {n : Nat} (h : ∀ o, o < n → φ o = ψ o) {r : Ref}
    (hr : r.Below n) : r.move φ = r.move ψ := by
  cases r with
  | nil => rfl
  | «at» o p t => simp only [Ref.move, h o hr]

theorem PState.move_congr {φ ψ : Place} {n : Nat} (h : ∀ o, o < n → φ o = ψ o) :
    ∀ {st : PState}, st.In (Ref.Below n) → st.move φ = st.move ψ
  | .seq _ c, hs => by simp only [PState.move, PState.move_congr h (st := c) hs]
  | .alt _ c, hs => by simp only [PState.move, PState.move_congr h (st := c) hs]
  | .rep _ c, hs => by simp only [PState.move, PState.move_congr h (st := c) hs]
  | .wrap c, hs => by simp only [PState.move, PState.move_congr h (st := c) hs]
  | .buffered _ c, hs => by
    simp only [PState.move, Ref.move_congr h hs.1, PState.move_congr h (st := c) hs.2]
  | .skip _ s c, hs => by
    simp only [PState.move, PState.move_congr h (st := s) hs.1, PState.move_congr h (st := c) hs.2]
  | .except _ c, hs => by simp only [PState.move, PState.move_congr h (st := c) hs]
  | .list _ c, hs => by simp only [PState.move, PState.move_congr h (st := c) hs]
  | .recurSome c, hs => by simp only [PState.move, PState.move_congr h (st := c) hs]
  | .unit, _ => rfl
  | .strLit _, _ => rfl
  | .symbol _ _, _ => rfl
  | .uint _, _ => rfl
  | .int _ _ _, _ => rfl
  | .recurNone, _ => rfl

/-- Moved references miss what all objects are placed apart from. -/
theorem Ref.move_misses {φ : Place} {n o : Nat} {q : List Nat}
    (h : ∀ x, x < n → (φ x).1 ≠ o ∨ Diverge (φ x).2 q) {r : Ref} (hr : r.Below n) :
    (r.move φ).Misses o q := by
  cases r with
  | nil => trivial
  | «at» x p t => exact (h x hr).imp id fun h => h.append p

theorem PState.move_misses {φ : Place} {n o : Nat} {q : List Nat}
    (h : ∀ x, x < n → (φ x).1 ≠ o ∨ Diverge (φ x).2 q) :
    ∀ {st : PState}, st.In (Ref.Below n) → (st.move φ).In (Ref.Misses o q)
  | .seq _ c, hs => PState.move_misses h (st := c) hs
  | .alt _ c, hs => PState.move_misses h (st := c) hs
  | .rep _ c, hs => PState.move_misses h (st := c) hs
  | .wrap c, hs => PState.move_misses h (st := c) hs
  | .buffered _ c, hs => ⟨Ref.move_misses h hs.1, PState.move_misses h (st := c) hs.2⟩
  | .skip _ s c, hs => ⟨PState.move_misses h (st := s) hs.1, PState.move_misses h (st := c) hs.2⟩
  | .except _ c, hs => PState.move_misses h (st := c) hs
  | .list _ c, hs => PState.move_misses h (st := c) hs
  | .recurSome c, hs => PState.move_misses h (st := c) hs
  | .unit, _ => trivial
  | .strLit _, _ => trivial
  | .symbol _ _, _ => trivial
  | .uint _, _ => trivial
  | .int _ _ _, _ => trivial
  | .recurNone, _ => trivial

end Abu
