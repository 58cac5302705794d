import Verif.Proofs.TimeBig
/-
The number of iterations of the parsers without children.
-/
namespace Abu

mutual
/-- Length of the longest key. -/
def Node.height : Node → Nat
  | .mk _ ks => ks.height
/-- The same for the keys in a map. -/
def Kids.height : Kids → Nat
  | .nil => 0
  | .cons _ n ks => max (n.height + 1) ks.height
end

theorem Kids.find_height {c : Ch} : ∀ {ks : Kids} {n : Node}, ks.find c = some n →
    n.height < ks.height
  | .nil, n, h => by cases h
  | .cons d m ks, n, h => by
    rw [Kids.find] at h
    rw [Kids.height]
    split at h
    · cases h; omega
    · have := Kids.find_height h; omega

theorem Node.height_eq (n : Node) : n.height = n.child.height := by
  cases n; rfl

/-- Bound on the number of iterations of a parser without children, on a text of length `L`. -/
def Prog.leafSteps (L : Nat) : Prog → Nat
  | .strLit s => s.length + 1
  | .symbol r => r.height + 1
  | .int _ _ mx => (if mx = 0 then L else mx) + 2
  | .uint _ _ mx => (if mx = 0 then L else mx) + 1
  | _ => 1

section
variable {env : Env} {t : List Ch}

theorem callSteps_guarded {call : Prog → Ref → Ref → PState → World Cursor Unit →
    Out Cursor Unit (Res × PState)} {cost st A B} (hA : ∀ w, callSteps call cost A w = 0)
    (hB : ∀ c w, callSteps call cost (B c) w = 0) (w) :
    callSteps call cost (guarded st A B) w = 0 := by
  unfold guarded
  simp only [callSteps]
  split
  · simp only [callSteps]
    split
    · exact hA w
    · rfl
  · simp only [callSteps]
    split
    · rfl
    · exact hB _ w

theorem callSteps_negIf {call : Prog → Ref → Ref → PState → World Cursor Unit →
    Out Cursor Unit (Res × PState)} {cost neg dst k} (h : ∀ w, callSteps call cost k w = 0) (w) :
    callSteps call cost (negIf neg dst k) w = 0 := by
  unfold negIf
  split
  · simp only [callSteps]; split
    · rfl
    · exact h _
  · exact h w

theorem callSteps_advance {call : Prog → Ref → Ref → PState → World Cursor Unit →
    Out Cursor Unit (Res × PState)} {cost} {k : Cmd Step} (h : ∀ w, callSteps call cost k w = 0) (w) :
    callSteps call cost (.advance k) w = 0 := by
  simp only [callSteps]; split
  · rfl
  · exact h _

theorem callSteps_commit {call : Prog → Ref → Ref → PState → World Cursor Unit →
    Out Cursor Unit (Res × PState)} {cost} {k : Cmd Step} (h : ∀ w, callSteps call cost k w = 0) (w) :
    callSteps call cost (.commit k) w = 0 := by
  simp only [callSteps]; split
  · rfl
  · exact h _

theorem callSteps_cancel {call : Prog → Ref → Ref → PState → World Cursor Unit →
    Out Cursor Unit (Res × PState)} {cost} {k : Cmd Step} (h : ∀ w, callSteps call cost k w = 0) (w) :
    callSteps call cost (.cancel k) w = 0 := by
  simp only [callSteps]; split
  · rfl
  · exact h _

theorem callSteps_mem {call : Prog → Ref → Ref → PState → World Cursor Unit →
    Out Cursor Unit (Res × PState)} {cost o} {k : Cmd Step} (h : ∀ w, callSteps call cost k w = 0) (w) :
    callSteps call cost (.mem o k) w = 0 := by
  simp only [callSteps]; split
  · rfl
  · exact h _

/-- Parsers without children make no calls. -/
theorem callSteps_leaf {call : Prog → Ref → Ref → PState → World Cursor Unit →
    Out Cursor Unit (Res × PState)} {cost P dst bnd st} (hl : P.isLeaf = true) (w) :
    callSteps call cost (body env P dst bnd st) w = 0 := by
  fun_cases body env P dst bnd st
  all_goals first | (cases hl; done) | rfl | skip
  case case1 =>
    refine callSteps_guarded (fun _ => rfl) (fun c w => ?_) w
    split
    · exact callSteps_mem (callSteps_advance fun _ => rfl) w
    · rfl
  case case2 =>
    refine callSteps_guarded (fun _ => rfl) (fun c w => ?_) w
    split
    · rfl
    · exact callSteps_mem (fun _ => rfl) w
  case case4 =>
    refine callSteps_guarded (fun _ => rfl) (fun c w => ?_) w
    split
    · exact callSteps_advance (fun _ => rfl) w
    · rfl
  case case5 n v _ _ =>
    have hstop : ∀ w : World Cursor Unit, callSteps call cost
        (match v with
          | some x => .mem (.assign dst x) (.commit (retS .SUCCESS (.symbol n v)))
          | none => retS .FAILURE (.symbol n v)) w = 0 := by
      intro w
      cases v
      · rfl
      · exact callSteps_mem (callSteps_commit fun _ => rfl) w
    refine callSteps_guarded hstop (fun c w => ?_) w
    split
    · exact hstop w
    · refine callSteps_advance (fun w => ?_) w
      split
      · rfl
      · split
        · split
          · exact callSteps_cancel (callSteps_mem (fun _ => rfl)) w
          · exact callSteps_mem (fun _ => rfl) w
        · split
          · exact callSteps_cancel (fun _ => rfl) w
          · rfl
  case case6 =>
    refine callSteps_guarded (fun _ => rfl) (fun c w => ?_) w
    split
    · refine callSteps_mem (callSteps_advance fun _ => ?_) w
      split <;> rfl
    · rfl
  case case7 =>
    refine callSteps_guarded (callSteps_negIf fun _ => rfl) (fun c w => ?_) w
    split
    · exact callSteps_advance (fun _ => rfl) w
    · split
      · exact callSteps_advance (fun _ => rfl) w
      · split
        · refine callSteps_mem (callSteps_advance fun _ => ?_) w
          split
          · exact callSteps_negIf (fun _ => rfl) _
          · rfl
        · exact callSteps_negIf (fun _ => rfl) _
  case case8 => exact callSteps_guarded (fun _ => rfl) (fun c w => rfl) w

/-- A command that makes no calls does not depend on what calls do. -/
theorem exec_no_calls {call call' : Prog → Ref → Ref → PState → World Cursor Unit →
    Out Cursor Unit (Res × PState)} {α : Type} (c : Cmd α) (w : World Cursor Unit)
    (h : callSteps call (fun _ _ _ _ _ => 1) c w = 0) : exec call c w = exec call' c w := by
  induction c generalizing w with
  | pure a => rfl
  | fault e => rfl
  | isEmpty k ih => exact ih _ _ h
  | isFinal k ih => exact ih _ _ h
  | next k ih =>
    simp only [callSteps, exec] at h ⊢
    split
    · rfl
    · rename_i c hc; rw [hc] at h; exact ih _ _ h
  | advance k ih =>
    simp only [callSteps, exec] at h ⊢
    split
    · rfl
    · rename_i c hc; rw [hc] at h; exact ih _ h
  | prepare k ih => exact ih _ h
  | commit k ih =>
    simp only [callSteps, exec] at h ⊢
    split
    · rfl
    · rename_i c hc; rw [hc] at h; exact ih _ h
  | cancel k ih =>
    simp only [callSteps, exec] at h ⊢
    split
    · rfl
    · rename_i c hc; rw [hc] at h; exact ih _ h
  | mem o k ih =>
    simp only [callSteps, exec] at h ⊢
    split
    · rfl
    · rename_i c hc; rw [hc] at h; exact ih _ h
  | alloc t k ih => exact ih _ _ h
  | call p d b s k ih => simp only [callSteps] at h; omega

/-- Parsers without children do not depend on the definitions of `Recur`. -/
theorem run_leaf_env {env' : Env} {p : Prog} (hl : p.isLeaf = true) (n : Nat) (st : PState)
    (w : World Cursor Unit) :
    run env n p .nil .nil st w = run env' n p .nil .nil st w ∧
      steps env n p .nil .nil st w = steps env' n p .nil .nil st w := by
  induction n generalizing st w with
  | zero => exact ⟨rfl, rfl⟩
  | succ n ih =>
    have hb : body env p .nil .nil st = body env' p .nil .nil st := by
      cases p <;> first | (cases hl; done) | (cases st <;> rfl)
    have hx : exec (run env n) (body env p .nil .nil st) w =
        exec (run env' n) (body env' p .nil .nil st) w := by
      rw [hb]
      exact exec_no_calls _ _ (callSteps_leaf hl w)
    rw [run_succ_eq, run_succ_eq, steps_succ, steps_succ, callSteps_leaf hl, callSteps_leaf hl, hx]
    constructor
    · split
      · rfl
      · rfl
      · exact (ih _ _).1
    · split
      · rw [(ih _ _).2]
      · rfl

/-- A measure of the states of a parser without children goes down with every iteration. -/
theorem steps_leaf {P : Prog} (hl : P.isLeaf = true) (f : PState → World Cursor Unit → Nat)
    (ok : PState → World Cursor Unit → Prop)
    (h : ∀ call st w st' w', ok st w → exec call (body env P .nil .nil st) w = .ok (.cont st', w') →
      ok st' w' ∧ f st' w' < f st w) :
    ∀ n st w, ok st w → steps env n P .nil .nil st w ≤ f st w + 1 := by
  intro n
  induction n with
  | zero => intro st w _; exact Nat.zero_le _
  | succ n ih =>
    intro st w hok
    rw [steps_succ, callSteps_leaf hl]
    split
    · rename_i st' w' he
      obtain ⟨h1, h2⟩ := h _ _ _ _ _ hok he
      have := ih st' w' h1
      omega
    · omega

theorem steps_leaf_le {P : Prog} (hl : P.isLeaf = true) {i : Nat} (hi : i ≤ t.length) (n : Nat)
    (S : List Nat) :
    steps env n P .nil .nil (fresh P) (gw t i S) ≤ P.leafSteps t.length := by
  have once : ∀ {P : Prog} {st}, P.isLeaf = true →
      (∀ call i S st' w', exec call (body env P .nil .nil st) (gw t i S) ≠ .ok (.cont st', w')) →
      ∀ n, steps env n P .nil .nil st (gw t i S) ≤ 1 := by
    intro P st hl h n
    refine steps_leaf hl (fun _ _ => 0) (fun s w => s = st ∧ ∃ i S, w = gw t i S) ?_ n _ _
      ⟨rfl, i, S, rfl⟩
    rintro call st w st' w' ⟨rfl, i, S, rfl⟩ he
    exact absurd he (h _ _ _ _ _)
  cases P with
  | char s =>
    refine once rfl (fun call i S st' w' => ?_) n
    simp only [fresh, body]
    cases hc : t[i]? with
    | none => rw [exec_guarded_end (List.getElem?_eq_none_iff.1 hc)]; simp [exec]
    | some ch =>
      rw [exec_guarded_char hc]
      split
      · simp only [exec_mem, Store.op]
        rw [exec_advance hc]
        simp [exec]
      · simp [exec]
  | charSymbol m =>
    refine once rfl (fun call i S st' w' => ?_) n
    simp only [fresh, body]
    cases hc : t[i]? with
    | none => rw [exec_guarded_end (List.getElem?_eq_none_iff.1 hc)]; simp [exec]
    | some ch =>
      rw [exec_guarded_char hc]
      split
      · simp [exec]
      · simp only [exec_mem, Store.op]; simp [exec]
  | strLit s =>
    refine Nat.le_trans (steps_leaf rfl
      (fun st _ => match st with | .strLit k => s.length - k | _ => 0)
      (fun st w => ∃ k i S, st = .strLit k ∧ w = gw t i S) ?_ n _ _
      ⟨0, i, S, rfl, rfl⟩) (by simp [fresh, Prog.leafSteps])
    rintro call st w st' w' ⟨k, i, S, rfl, rfl⟩ he
    simp only [body] at he
    cases hs : s[k]? with
    | none => simp [hs, exec] at he
    | some e =>
      have hk := (List.getElem?_eq_some_iff.1 hs).1
      simp only [hs] at he
      cases hc : t[i]? with
      | none => rw [exec_guarded_end (List.getElem?_eq_none_iff.1 hc)] at he; simp [exec] at he
      | some ch =>
        rw [exec_guarded_char hc] at he
        split at he
        · rw [exec_advance hc] at he
          simp only [exec] at he
          cases he
          exact ⟨⟨k + 1, i + 1, S, rfl, rfl⟩, by simp only; omega⟩
        · simp [exec] at he
  | symbol root =>
    refine Nat.le_trans (steps_leaf rfl
      (fun st _ => match st with | .symbol k _ => k.height | _ => 0)
      (fun st w => ∃ k v i S, st = .symbol k v ∧ w = gw t i S) ?_ n _ _
      ⟨root, none, i, S, rfl, rfl⟩) (by simp [fresh, Prog.leafSteps])
    rintro call st w st' w' ⟨k, v, i, S, rfl, rfl⟩ he
    simp only [body] at he
    have hstop : exec call (match v with
          | some x => .mem (.assign .nil x) (.commit (retS .SUCCESS (.symbol k v)))
          | none => retS .FAILURE (.symbol k v)) (gw t i S) ≠ .ok (.cont st', w') := by
      cases v with
      | none => simp [exec]
      | some x =>
        cases S with
        | nil => intro h; cases h
        | cons p S => intro h; cases h
    cases hc : t[i]? with
    | none =>
      rw [exec_guarded_end (List.getElem?_eq_none_iff.1 hc)] at he
      exact absurd he hstop
    | some ch =>
      rw [exec_guarded_char hc] at he
      split at he
      · exact absurd he hstop
      · rename_i k' hf
        have hh := Kids.find_height hf
        rw [← Node.height_eq] at hh
        rw [exec_advance hc] at he
        split at he
        · simp only [exec] at he
          cases he
          exact ⟨⟨_, _, _, _, rfl, rfl⟩, hh⟩
        · rename_i x hx
          have hcan : ∀ (y : Cmd Step) S', (∀ S, exec call y (gw t (i + 1) S) = .ok (.cont st', w') →
                ∃ S', st' = .symbol k' (some x) ∧ w' = gw t (i + 1) S') →
              exec call (if v.isSome = true then .cancel y else y) (gw t (i + 1) S') =
                .ok (.cont st', w') → ∃ S', st' = .symbol k' (some x) ∧ w' = gw t (i + 1) S' := by
            intro y S' h h1
            split at h1
            · cases S' with
              | nil => cases h1
              | cons p S' => exact h S' h1
            · exact h S' h1
          obtain ⟨S', rfl, rfl⟩ := hcan _ S (fun S h1 => by
            split at h1
            · cases h1
            · cases h1; exact ⟨_, rfl, rfl⟩) he
          exact ⟨⟨_, _, _, _, rfl, rfl⟩, hh⟩
  | uint b mn mx =>
    refine Nat.le_trans (steps_leaf rfl
      (fun st w => if mx = 0 then t.length - w.ds.pos else
        match st with | .uint k => mx - k | _ => 0)
      (fun st w => ∃ k i S, st = .uint k ∧ (mx = 0 ∨ k < mx) ∧ w = gw t i S) ?_ n _ _
      ⟨0, i, S, rfl, by omega, rfl⟩) (by simp only [fresh, Prog.leafSteps]; split <;> omega)
    rintro call st w st' w' ⟨k, i, S, rfl, hk, rfl⟩ he
    simp only [body] at he
    cases hc : t[i]? with
    | none => rw [exec_guarded_end (List.getElem?_eq_none_iff.1 hc)] at he; simp [exec] at he
    | some ch =>
      have hlt := (List.getElem?_eq_some_iff.1 hc).1
      rw [exec_guarded_char hc] at he
      split at he
      · simp only [exec_mem, Store.op] at he
        rw [exec_advance hc] at he
        split at he
        · simp [exec] at he
        · simp only [exec] at he
          cases he
          refine ⟨⟨k + 1, i + 1, S, rfl, by omega, rfl⟩, ?_⟩
          simp only
          split <;> omega
      · simp [exec] at he
  | int b mn mx =>
    refine Nat.le_trans (steps_leaf rfl
      (fun st w => if mx = 0 then t.length - w.ds.pos else
        match st with | .int k look _ => mx - k + (if look = true ∧ k = 0 then 1 else 0) | _ => 0)
      (fun st w => ∃ k look neg i S, st = .int k look neg ∧ (mx = 0 ∨ k < mx) ∧ w = gw t i S) ?_ n _ _
      ⟨0, true, false, i, S, rfl, by omega, rfl⟩)
      (by simp only [fresh, Prog.leafSteps]; split <;> simp <;> omega)
    rintro call st w st' w' ⟨k, look, neg, i, S, rfl, hk, rfl⟩ he
    simp only [body] at he
    have hneg : ∀ {i S r st}, exec call (negIf neg .nil (retS r st)) (gw t i S) ≠ .ok (.cont st', w') := by
      intro i S r st h
      unfold negIf at h
      split at h <;> cases h
    cases hc : t[i]? with
    | none =>
      rw [exec_guarded_end (List.getElem?_eq_none_iff.1 hc)] at he
      exact absurd he hneg
    | some ch =>
      have hlt := (List.getElem?_eq_some_iff.1 hc).1
      rw [exec_guarded_char hc] at he
      split at he
      · rename_i h3
        rw [exec_advance hc] at he
        simp only [exec] at he
        cases he
        refine ⟨⟨k, false, true, i + 1, S, rfl, by omega, rfl⟩, ?_⟩
        simp only
        split
        · omega
        · simp [h3.1, h3.2.1]
      · split at he
        · rename_i h3
          rw [exec_advance hc] at he
          simp only [exec] at he
          cases he
          refine ⟨⟨k, false, neg, i + 1, S, rfl, by omega, rfl⟩, ?_⟩
          simp only
          split
          · omega
          · simp [h3.1, h3.2.1]
        · split at he
          · simp only [exec_mem, Store.op] at he
            rw [exec_advance hc] at he
            split at he
            · exact absurd he hneg
            · simp only [exec] at he
              cases he
              refine ⟨⟨k + 1, _, neg, i + 1, S, rfl, by omega, rfl⟩, ?_⟩
              simp only
              split
              · omega
              · split <;> split <;> omega
          · exact absurd he hneg
  | eoi =>
    refine once rfl (fun call i S st' w' => ?_) n
    simp only [fresh, body]
    cases hc : t[i]? with
    | none => rw [exec_guarded_end (List.getElem?_eq_none_iff.1 hc)]; simp [exec]
    | some ch => rw [exec_guarded_char hc]; simp [exec]
  | pass => exact once rfl (fun call i S st' w' => by simp [fresh, body, exec]) n
  | fail => exact once rfl (fun call i S st' w' => by simp [fresh, body, exec]) n
  | _ => cases hl

end
end Abu
