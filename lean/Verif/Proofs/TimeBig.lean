import Verif.Proofs.Time
import Verif.Proofs.Halt
/-
`Big` with the number of iterations.
-/
namespace Abu

/-- `Big`, in `k` iterations. -/
inductive BigIn (env : Env) (t : List Ch) :
    Prog → PState → Nat → List Nat → Res → Nat → List Nat → Nat → Prop
  | leaf {p st i S n r st' i' S'} : p.isLeaf = true →
      run env n p .nil .nil st (gw t i S) = .ok ((r, st'), gw t i' S') →
      BigIn env t p st i S r i' S' (steps env n p .nil .nil st (gw t i S))
  | ret {p st i S cp cs r1 cs' i1 S1 r i' S' k} : childOf p st = some (cp, cs) →
      BigIn env t cp cs i S r1 i1 S1 k → after p st r1 cs' i1 S1 = some (.ret r i' S') →
      BigIn env t p st i S r i' S' (k + 1)
  | cont {p st i S cp cs r1 cs' i1 S1 st2 i2 S2 r i' S' k l} : childOf p st = some (cp, cs) →
      BigIn env t cp cs i S r1 i1 S1 k → after p st r1 cs' i1 S1 = some (.cont st2 i2 S2) →
      BigIn env t p st2 i2 S2 r i' S' l → BigIn env t p st i S r i' S' (k + l + 1)
  | recurNone {id sk q i S r i' S' k} : env id = some q →
      BigIn env t (elabP sk RecurChildReqs q) (fresh (elabP sk RecurChildReqs q)) i
        (List.replicate (marks (elabP sk RecurChildReqs q)) i ++ S) r i' S' k →
      BigIn env t (.recur id sk) .recurNone i S r i' S' (k + 2)
  | recurSome {id sk q c i S r i' S' k} : env id = some q →
      BigIn env t (elabP sk RecurChildReqs q) c i S r i' S' k →
      BigIn env t (.recur id sk) (.recurSome c) i S r i' S' (k + 1)

theorem BigIn.big {env t p st i S r i' S' k} (h : BigIn env t p st i S r i' S' k) :
    Big env t p st i S r i' S' := by
  induction h with
  | leaf hl hr => exact .leaf hl hr
  | ret hc _ ha ih => exact .ret hc ih ha
  | cont hc _ ha _ ih ih2 => exact .cont hc ih ha ih2
  | recurNone hq _ ih => exact .recurNone hq ih
  | recurSome hq _ ih => exact .recurSome hq ih

section
variable {env : Env} {call : Prog → Ref → Ref → PState → World Cursor Unit →
  Out Cursor Unit (Res × PState)} {cost : Prog → Ref → Ref → PState → World Cursor Unit → Nat}

/-- The only call of an iteration is that of the child. -/
theorem callSteps_child {p st cp cs w} (hc : childOf p st = some (cp, cs)) (hp : Comp p) :
    callSteps call cost (body env p .nil .nil st) w = cost cp .nil .nil cs w := by
  have hmk : ∀ {p : Prog} {f : PState → PState} {w},
      callSteps call cost ((mk p .nil .nil).bind fun c => contS (f c)) w = 0 := by
    intro p f w
    rw [callSteps_bind, callSteps_mk]
    split <;> rfl
  revert hc
  fun_cases childOf p st <;> intro hc <;> simp at hc
  case case1 slots ps k c =>
    obtain ⟨p, hp1, rfl, rfl⟩ := hc
    have : ∃ s, slots[k]? = some s := by
      cases hp with
      | seq _ hl _ =>
        rw [List.getElem?_eq_some_iff] at hp1
        obtain ⟨h, _⟩ := hp1
        exact ⟨_, List.getElem?_eq_getElem (by omega)⟩
    obtain ⟨s, hs⟩ := this
    simp only [body, hp1, hs, seqDst, callSteps]
    cases call p .nil .nil c w with
    | error e => rfl
    | ok x =>
      obtain ⟨⟨r, s'⟩, w'⟩ := x
      cases r with
      | SUCCESS =>
        simp only
        split
        · simp only [hmk]; rfl
        · rfl
      | _ => rfl
  case case2 ps k c =>
    obtain ⟨p, hp1, rfl, rfl⟩ := hc
    simp only [body, hp1, callSteps]
    cases call p .nil .nil c w with
    | error e => rfl
    | ok x =>
      obtain ⟨⟨r, s'⟩, w'⟩ := x
      cases r with
      | FAILURE =>
        simp only
        split
        · simp only [hmk]; rfl
        · rfl
      | _ => rfl
  all_goals
    obtain ⟨rfl, rfl⟩ := hc
    simp only [body, callSteps]
    generalize call _ _ _ _ _ = x
    cases x with
    | error e => rfl
    | ok x =>
      obtain ⟨⟨r, s'⟩, w'⟩ := x
      cases r <;> simp only [callSteps, hmk, Store.op] <;>
        first
        | rfl
        | (split <;> first | rfl | simp only [callSteps, hmk] <;> rfl)

end

section
variable {env : Env} {t : List Ch}

/-- What is derived with some of the definitions happens. -/
theorem run_of_bigIn_env {env0 : Env} {p st i S r i' S' k} (h : BigIn env0 t p st i S r i' S' k)
    (hsub : ∀ id q, env0 id = some q → env id = some q)
    (hleaf : ∀ {p : Prog}, p.isLeaf = true → ∀ n st (w : World Cursor Unit),
      run env0 n p .nil .nil st w = run env n p .nil .nil st w ∧
      steps env0 n p .nil .nil st w = steps env n p .nil .nil st w)
    (henv : ∀ id q sk, env0 id = some q → Comp sk → Comp (elabP sk RecurChildReqs q))
    (hp : Comp p) : ∀ {st2}, StEq st st2 →
    ∃ n st', run env n p .nil .nil st2 (gw t i S) = .ok ((r, st'), gw t i' S') ∧
      steps env n p .nil .nil st2 (gw t i S) = k := by
  induction h with
  | leaf hl h =>
    intro st2 he
    cases he with
    | refl =>
      refine ⟨_, _, (hleaf hl _ _ _).1.symm.trans h, ((hleaf hl _ _ _).2).symm⟩
    | skip a b c =>
      exfalso
      clear hp
      rename_i p i S n r st' i' S'
      cases n with
      | zero => cases h
      | succ n => cases p <;> first | (cases hl; done) | (cases h; done)
  | @ret p st i S cp cs r1 cs' i1 S1 r i' S' k hc _ ha ih =>
    intro st2 he
    obtain ⟨n, cs2, hn, hk⟩ := ih (childOf_comp hc hp) (.refl _)
    have hc2 := (childOf_stEq he).trans hc
    have h1 := exec_child_ok (env := env) hc2 hp hn
    rw [after_ret_stEq he ha] at h1
    generalize hx : exec (run env n) (body env p .nil .nil st2) (gw t i S) = x at h1
    cases h1
    refine ⟨n + 1, _, by rw [run_succ_eq, hx], ?_⟩
    rw [steps_succ, hx, callSteps_child hc2 hp, hk]
    simp only; omega
  | @cont p st i S cp cs r1 cs' i1 S1 st3 i2 S2 r i' S' k l hc _ ha _ ih ih2 =>
    intro st2 he
    obtain ⟨n, cs2, hn, hk⟩ := ih (childOf_comp hc hp) (.refl _)
    have hc2 := (childOf_stEq he).trans hc
    have h1 := exec_child_ok (env := env) hc2 hp hn
    obtain ⟨st4, he4, ha4⟩ := after_cont_stEq (cs' := cs2) he ha
    rw [ha4] at h1
    generalize hx : exec (run env n) (body env p .nil .nil st2) (gw t i S) = x at h1
    cases h1
    obtain ⟨m, st', hm, hl⟩ := ih2 hp he4
    have hmax : exec (run env (max n m)) (body env p .nil .nil st2) (gw t i S) =
        .ok (.cont st4, gw t i2 S2) := by
      rw [exec_mono (run_mono env (Nat.le_max_left n m)) _ _ (by rw [hx]; simp), hx]
    refine ⟨max n m + 1, st', ?_, ?_⟩
    · rw [run_succ_eq, hmax]
      exact (run_mono env (Nat.le_max_right n m) _ _ _ _ _ (by rw [hm]; simp)).trans hm
    · rw [steps_succ, hmax, callSteps_child hc2 hp]
      simp only
      rw [(steps_mono env (Nat.le_max_left n m)).eq _ _ _ _ _ (by rw [hn]; simp),
        (steps_mono env (Nat.le_max_right n m)).eq _ _ _ _ _ (by rw [hm]; simp), hk, hl]
      omega
  | @recurNone id sk q i S r i' S' k hq _ ih =>
    intro st2 he
    cases he
    cases hp with
    | recur hsk =>
    have hcq := henv id q sk hq hsk
    have hq := hsub id q hq
    obtain ⟨n, st', hn, hk⟩ := ih hcq (.refl _)
    refine ⟨n + 2, .recurSome st', ?_, ?_⟩
    · rw [run_succ_eq]
      simp only [body, hq, exec_bind, exec_mk hcq, exec]
      rw [run_succ_eq]
      simp only [body, hq, exec, push_gw, hn]
    · rw [steps_succ]
      simp only [body, hq, exec_bind, exec_mk hcq, exec, callSteps_bind, callSteps_mk, callSteps]
      rw [steps_succ]
      simp only [body, hq, exec, push_gw, hn, callSteps, hk]
      omega
  | @recurSome id sk q c i S r i' S' k hq _ ih =>
    intro st2 he
    cases he
    cases hp with
    | recur hsk =>
    have hcq := henv id q sk hq hsk
    have hq := hsub id q hq
    obtain ⟨n, st', hn, hk⟩ := ih hcq (.refl _)
    refine ⟨n + 1, .recurSome st', ?_, ?_⟩
    · rw [run_succ_eq]
      simp only [body, hq, exec, hn]
    · rw [steps_succ]
      simp only [body, hq, exec, callSteps, hn, hk]
      omega

theorem run_of_bigIn {p st i S r i' S' k} (h : BigIn env t p st i S r i' S' k)
    (henv : ∀ id q sk, env id = some q → Comp sk → Comp (elabP sk RecurChildReqs q))
    (hp : Comp p) :
    ∃ n st', run env n p .nil .nil st (gw t i S) = .ok ((r, st'), gw t i' S') ∧
      steps env n p .nil .nil st (gw t i S) = k :=
  run_of_bigIn_env h (fun _ _ h => h) (fun _ _ _ _ => ⟨rfl, rfl⟩) henv hp (.refl _)

end
end Abu
