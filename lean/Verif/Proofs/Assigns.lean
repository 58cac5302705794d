import Verif.Proofs.Inverse
import Verif.Proofs.Action
/-
Leaf parsers that assign to their destination once, as their last step, do the same to any other
destination.
-/
namespace Abu

/-- Commands that assign to a destination at the end, and do not depend on it otherwise. -/
inductive Assigns : (Ref → Cmd Step) → Prop
  | cont (st) : Assigns fun _ => contS st
  | fail (r st) : r ≠ .SUCCESS → Assigns fun _ => retS r st
  | fault (e) : Assigns fun _ => .fault e
  | assign (w st) : Assigns fun d => .mem (.assign d w) (retS .SUCCESS st)
  | assignAdvance (w st) : Assigns fun d => .mem (.assign d w) (.advance (retS .SUCCESS st))
  | assignCommit (w st) : Assigns fun d => .mem (.assign d w) (.commit (retS .SUCCESS st))
  | isEmpty {k : Bool → Ref → Cmd Step} : (∀ b, Assigns (k b)) → Assigns fun d => .isEmpty fun b => k b d
  | isFinal {k : Bool → Ref → Cmd Step} : (∀ b, Assigns (k b)) → Assigns fun d => .isFinal fun b => k b d
  | next {k : Ch → Ref → Cmd Step} : (∀ b, Assigns (k b)) → Assigns fun d => .next fun b => k b d
  | advance {k} : Assigns k → Assigns fun d => .advance (k d)
  | prepare {k} : Assigns k → Assigns fun d => .prepare (k d)
  | cancel {k} : Assigns k → Assigns fun d => .cancel (k d)

theorem Assigns.guarded {st} {A : Ref → Cmd Step} {B : Ch → Ref → Cmd Step} (hA : Assigns A)
    (hB : ∀ c, Assigns (B c)) : Assigns fun d => Abu.guarded st (A d) fun c => B c d := by
  unfold Abu.guarded
  refine .isEmpty (k := fun e d => if e then .isFinal fun f => if f then A d else retS .PARTIAL st
    else .next fun c => B c d) fun e => ?_
  cases e
  · exact .next hB
  · refine .isFinal (k := fun f d => if f then A d else retS .PARTIAL st) fun f => ?_
    cases f
    · exact .fail _ _ (by simp)
    · exact hA

/-- `Char`, `CharSymbol` and `Symbol`. -/
def Prog.assigning : Prog → Bool
  | .char _ => true
  | .charSymbol _ => true
  | .symbol _ => true
  | _ => false

theorem body_assigns {env : Env} {P : Prog} (hP : P.assigning = true) (st : PState) :
    Assigns fun d => body env P d .nil st := by
  cases P <;> simp only [Prog.assigning, Bool.false_eq_true] at hP
  case char s =>
    cases st <;> simp only [body] <;> first | exact .fault _ | skip
    refine .guarded (.fail _ _ (by simp)) (B := fun c d => if s.isValid c then
      .mem (.assign d (.num c)) (.advance (retS .SUCCESS .unit)) else retS .FAILURE .unit) fun c => ?_
    cases s.isValid c
    · exact .fail _ _ (by simp)
    · exact .assignAdvance _ _
  case charSymbol m =>
    cases st <;> simp only [body] <;> first | exact .fault _ | skip
    refine .guarded (.fail _ _ (by simp)) (B := fun c d => match m.find? (fun e => e.1 == c) with
      | none => retS .FAILURE .unit
      | some (_, v) => .mem (.assign d v) (retS .SUCCESS .unit)) fun c => ?_
    cases m.find? (fun e => e.1 == c)
    · exact .fail _ _ (by simp)
    · exact .assign _ _
  case symbol root =>
    cases st <;> simp only [body] <;> first | exact .fault _ | skip
    rename_i n v
    have hhit : ∀ (n' : Node) (x : Val), Assigns fun d =>
        (if n'.child.isEmpty = true then .mem (.assign d x) (retS .SUCCESS (PState.symbol n' v))
          else .prepare (contS (.symbol n' (some x)))) := by
      intro n' x
      cases n'.child.isEmpty
      · exact .prepare (.cont _)
      · exact .assign _ _
    cases v with
    | none =>
      refine .guarded (.fail .FAILURE (.symbol n none) (by simp))
        (B := fun c d => match n.child.find c with
          | none => retS .FAILURE (PState.symbol n none)
          | some n' =>
            .advance <|
              match n'.val with
              | none => contS (.symbol n' none)
              | some x =>
                if n'.child.isEmpty then .mem (.assign d x) (retS .SUCCESS (.symbol n' none))
                else .prepare (contS (.symbol n' (some x)))) fun c => ?_
      cases n.child.find c with
      | none => exact .fail _ _ (by simp)
      | some n' =>
        refine .advance ?_
        cases n'.val with
        | none => exact .cont _
        | some x => exact hhit n' x
    | some y =>
      refine .guarded (.assignCommit y (.symbol n (some y)))
        (B := fun c d => match n.child.find c with
          | none => .mem (.assign d y) (.commit (retS .SUCCESS (PState.symbol n (some y))))
          | some n' =>
            .advance <|
              match n'.val with
              | none => contS (.symbol n' (some y))
              | some x => .cancel <|
                if n'.child.isEmpty then .mem (.assign d x) (retS .SUCCESS (.symbol n' (some y)))
                else .prepare (contS (.symbol n' (some x)))) fun c => ?_
      cases n.child.find c with
      | none => exact .assignCommit _ _
      | some n' =>
        refine .advance ?_
        cases n'.val with
        | none => exact .cont _
        | some x => exact .cancel (hhit n' x)

theorem body_assigning {env : Env} {P : Prog} (hP : P.assigning = true) (d b b2 : Ref) (st : PState) :
    body env P d b st = body env P d b2 st := by
  cases P <;> simp only [Prog.assigning, Bool.false_eq_true] at hP <;> cases st <;> simp only [body]

theorem exec_assigns {x : Ref → Cmd Step} (h : Assigns x) {f} {ds : Cursor} {m : Mem} {d s w'}
    (he : exec f (x d) ⟨ds, m⟩ = .ok (s, w')) :
    ((∀ st, s ≠ .ret .SUCCESS st) ∧ w'.mem = m ∧
      ∀ d2 m2, exec f (x d2) ⟨ds, m2⟩ = .ok (s, ⟨w'.ds, m2⟩)) ∨
    ∃ st, s = .ret .SUCCESS st ∧ ∃ w, m.assign d w = .ok w'.mem ∧
      ∀ d2 (m2 m3 : Mem), m2.assign d2 w = .ok m3 → exec f (x d2) ⟨ds, m2⟩ = .ok (s, ⟨w'.ds, m3⟩) := by
  induction h generalizing ds with
  | cont st => cases he; exact .inl ⟨by simp, rfl, fun _ _ => rfl⟩
  | fail r st hr =>
    cases he
    refine .inl ⟨fun st h => ?_, rfl, fun _ _ => rfl⟩
    simp only [Step.ret.injEq] at h
    exact hr h.1
  | fault e => cases he
  | assign w st =>
    simp only [exec, Store.op, Mem.run] at he ⊢
    cases hm : m.assign d w with
    | error e => rw [hm] at he; cases he
    | ok m1 =>
      rw [hm] at he
      cases he
      exact .inr ⟨st, rfl, w, hm, fun d2 m2 m3 h3 => by rw [h3]⟩
  | assignAdvance w st =>
    simp only [exec, Store.op, Mem.run] at he ⊢
    cases hm : m.assign d w with
    | error e => rw [hm] at he; cases he
    | ok m1 =>
      rw [hm] at he
      simp only at he
      cases ha : DataSource.advance ds with
      | none => rw [ha] at he; cases he
      | some ds' =>
        rw [ha] at he
        cases he
        exact .inr ⟨st, rfl, w, hm, fun d2 m2 m3 h3 => by rw [h3]⟩
  | assignCommit w st =>
    simp only [exec, Store.op, Mem.run] at he ⊢
    cases hm : m.assign d w with
    | error e => rw [hm] at he; cases he
    | ok m1 =>
      rw [hm] at he
      simp only at he
      cases ha : DataSource.commit ds with
      | none => rw [ha] at he; cases he
      | some ds' =>
        rw [ha] at he
        cases he
        exact .inr ⟨st, rfl, w, hm, fun d2 m2 m3 h3 => by rw [h3]⟩
  | isEmpty _ ih => exact ih _ he
  | isFinal _ ih => exact ih _ he
  | next _ ih =>
    simp only [exec] at he ⊢
    cases ha : DataSource.next ds with
    | none => rw [ha] at he; cases he
    | some c => rw [ha] at he; exact ih _ he
  | advance _ ih =>
    simp only [exec] at he ⊢
    cases ha : DataSource.advance ds with
    | none => rw [ha] at he; cases he
    | some c => rw [ha] at he; exact ih he
  | prepare _ ih => exact ih he
  | cancel _ ih =>
    simp only [exec] at he ⊢
    cases ha : DataSource.cancel ds with
    | none => rw [ha] at he; cases he
    | some c => rw [ha] at he; exact ih he

theorem run_assigns {env : Env} {P : Prog} (hP : P.assigning = true) {d b : Ref} {n : Nat} :
    ∀ {st : PState} {ds : Cursor} {m : Mem} {r st'} {w' : World Cursor Mem}, run env n P d b st ⟨ds, m⟩ = .ok ((r, st'), w') →
    (r ≠ .SUCCESS ∧ w'.mem = m ∧
      ∀ d2 b2 (m2 : Mem), run env n P d2 b2 st ⟨ds, m2⟩ = .ok ((r, st'), ⟨w'.ds, m2⟩)) ∨
    (r = .SUCCESS ∧ ∃ w, m.assign d w = .ok w'.mem ∧ ∀ d2 b2 (m2 m3 : Mem), m2.assign d2 w = .ok m3 →
      run env n P d2 b2 st ⟨ds, m2⟩ = .ok ((r, st'), ⟨w'.ds, m3⟩)) := by
  induction n with
  | zero => intro st ds m r st' w' h; cases h
  | succ n ih =>
    intro st ds m r st' w' h
    rw [run_succ_andThen, body_assigning hP d b .nil] at h
    cases hx : exec (run env n) (body env P d .nil st) (⟨ds, m⟩ : World Cursor Mem) with
    | error e => rw [hx] at h; cases h
    | ok y =>
      obtain ⟨s, w1⟩ := y
      rw [hx] at h
      rcases exec_assigns (body_assigns hP st) hx with ⟨h1, h2, h3⟩ | ⟨st1, rfl, w, h2, h3⟩
      · cases s with
        | ret r1 st1 =>
          cases h
          refine .inl ⟨fun hr => h1 st' (by rw [hr]), h2, fun d2 b2 m2 => ?_⟩
          rw [run_succ_andThen, body_assigning hP d2 b2 .nil, h3]; rfl
        | cont st1 =>
          obtain ⟨ds1, m1⟩ := w1
          simp only at h2
          subst h2
          rcases ih h with ⟨e1, e2, e3⟩ | ⟨e1, w, e2, e3⟩
          · exact .inl ⟨e1, e2, fun d2 b2 m2 => by
              rw [run_succ_andThen, body_assigning hP d2 b2 .nil, h3]; exact e3 d2 b2 m2⟩
          · exact .inr ⟨e1, w, e2, fun d2 b2 m2 m3 hm => by
              rw [run_succ_andThen, body_assigning hP d2 b2 .nil, h3]; exact e3 d2 b2 m2 m3 hm⟩
      · cases h
        exact .inr ⟨rfl, w, h2, fun d2 b2 m2 m3 hm => by
          rw [run_succ_andThen, body_assigning hP d2 b2 .nil, h3 _ _ _ hm]; rfl⟩

theorem built_assigning {P : Prog} (hP : P.assigning = true) {d b : Ref} (d2 b2 : Ref)
    {t i m st m1} (m2 : Mem) (h : Built P d b t i m st m1) : m1 = m ∧ Built P d2 b2 t i m2 st m2 := by
  have h0 := h (fun _ _ _ _ _ => .error .stuck) []
  cases P <;> simp only [Prog.assigning, Bool.false_eq_true] at hP <;>
  · simp only [Abu.mk, exec, Except.ok.injEq, Prod.mk.injEq, cw, World.mk.injEq, marks,
      List.replicate_zero, List.nil_append, true_and] at h0
    obtain ⟨rfl, rfl⟩ := h0
    exact ⟨rfl, fun call S => by simp only [Abu.mk]; rfl⟩

theorem Does.assigns {env : Env} {P : Prog} (hP : P.assigning = true) {d b : Ref} {t i m r i' L m'}
    (h : Does env P d b t i m r i' L m') :
    (r ≠ .SUCCESS ∧ m' = m ∧ ∀ d2 b2 m2, Does env P d2 b2 t i m2 r i' L m2) ∨
    (r = .SUCCESS ∧ ∃ w, m.assign d w = .ok m' ∧
      ∀ d2 b2 (m2 m3 : Mem), m2.assign d2 w = .ok m3 → Does env P d2 b2 t i m2 r i' L m3) := by
  obtain ⟨st, m1, hb, n, st', hr⟩ := h
  obtain ⟨rfl, _⟩ := built_assigning hP d b m hb
  have h0 := hr []
  have key : ∀ {d2 b2 m2 m3}, run env n P d2 b2 st (cw t i (List.replicate (marks P) i ++ []) m2) =
      .ok ((r, st'), cw t i' (L ++ []) m3) → Does env P d2 b2 t i m2 r i' L m3 := by
    intro d2 b2 m2 m3 hrun
    obtain ⟨_, hb2⟩ := built_assigning hP d2 b2 m2 hb
    rw [List.append_nil] at hrun
    obtain ⟨i1, L1, m4, heq, hruns⟩ := Runs.of_run hrun
    unfold cw at heq
    simp only [World.mk.injEq, Cursor.mk.injEq, true_and, and_true, List.append_nil] at heq
    obtain ⟨⟨rfl, rfl⟩, rfl⟩ := heq
    exact ⟨_, _, hb2, hruns⟩
  unfold cw at h0
  rcases run_assigns hP h0 with ⟨e1, e2, e3⟩ | ⟨e1, w, e2, e3⟩
  · exact .inl ⟨e1, e2, fun d2 b2 m2 => key (e3 d2 b2 m2)⟩
  · exact .inr ⟨e1, w, e2, fun d2 b2 m2 m3 hm => key (e3 d2 b2 m2 m3 hm)⟩

end Abu
