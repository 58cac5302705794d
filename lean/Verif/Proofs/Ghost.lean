import Verif.Proofs.Rollback
/-
The machine on a complete text with `Nil` destinations, as an inductive relation.
-/
namespace Abu

/-- State of a newly constructed parser object without destinations. -/
def fresh : Prog → PState
  | .strLit _ => .strLit 0
  | .symbol r => .symbol r none
  | .int .. => .int 0 true false
  | .uint .. => .uint 0
  | .seq _ (p :: _) => .seq 0 (fresh p)
  | .alt (p :: _) => .alt 0 (fresh p)
  | .rep _ _ p => .rep 0 (fresh p)
  | .opt p => .wrap (fresh p)
  | .not p => .wrap (fresh p)
  | .discard p => .wrap (fresh p)
  | .lexeme p => .wrap (fresh p)
  | .bindDst p => .wrap (fresh p)
  | .construct _ p => .buffered .nil (fresh p)
  | .action _ p => .buffered .nil (fresh p)
  | .except _ neg => .except false (fresh neg)
  | .list op _ => .list false (fresh op)
  | .withSkipper p => .wrap (fresh p)
  | .recur _ _ => .recurNone
  | .atomic p => .buffered .nil (fresh p)
  | .clean p => .wrap (fresh p)
  | .skip s p => .skip false (fresh s) (fresh p)
  | _ => .unit

/-- Number of rollback points created by the constructor. -/
def marks : Prog → Nat
  | .seq _ (p :: _) => marks p
  | .alt (p :: _) => marks p
  | .rep _ _ p => marks p
  | .opt p => marks p + 1
  | .not p => marks p + 1
  | .discard p => marks p
  | .lexeme p => marks p
  | .bindDst p => marks p
  | .construct _ p => marks p
  | .action _ p => marks p
  | .except _ neg => marks neg
  | .list op _ => marks op + 1
  | .withSkipper p => marks p
  | .atomic p => marks p
  | .clean p => marks p + 1
  | .skip s p => marks s + marks p
  | _ => 0

/-- Parser classes without empty sequences or alternatives. -/
inductive Comp : Prog → Prop
  | char {s} : Comp (.char s)
  | charSymbol {m} : Comp (.charSymbol m)
  | strLit {s} : Comp (.strLit s)
  | symbol {r} : Comp (.symbol r)
  | int {b mn mx} : Comp (.int b mn mx)
  | uint {b mn mx} : Comp (.uint b mn mx)
  | eoi : Comp .eoi
  | pass : Comp .pass
  | fail : Comp .fail
  | seq {slots ps} : ps ≠ [] → slots.length = ps.length → (∀ p ∈ ps, Comp p) →
      Comp (.seq slots ps)
  | alt {ps} : ps ≠ [] → (∀ p ∈ ps, Comp p) → Comp (.alt ps)
  | rep {mn mx p} : Comp p → Comp (.rep mn mx p)
  | opt {p} : Comp p → Comp (.opt p)
  | not {p} : Comp p → Comp (.not p)
  | discard {p} : Comp p → Comp (.discard p)
  | lexeme {p} : Comp p → Comp (.lexeme p)
  | bindDst {p} : Comp p → Comp (.bindDst p)
  | construct {tys p} : Comp p → Comp (.construct tys p)
  | action {a p} : Comp p → Comp (.action a p)
  | except {op neg} : Comp op → Comp neg → Comp (.except op neg)
  | list {op sep} : Comp op → Comp sep → Comp (.list op sep)
  | withSkipper {p} : Comp p → Comp (.withSkipper p)
  | recur {id sk} : Comp sk → Comp (.recur id sk)
  | atomic {p} : Comp p → Comp (.atomic p)
  | clean {p} : Comp p → Comp (.clean p)
  | skip {s p} : Comp s → Comp p → Comp (.skip s p)

/-- The machine state with rollback points pushed at the current position. -/
def push (n : Nat) (w : World Cursor Unit) : World Cursor Unit :=
  ⟨{ w.ds with saved := List.replicate n w.ds.pos ++ w.ds.saved }, ()⟩

theorem push_zero (w : World Cursor Unit) : push 0 w = w := rfl

theorem push_push (a b : Nat) (w : World Cursor Unit) : push a (push b w) = push (b + a) w := by
  simp only [push]
  rw [← List.append_assoc, List.replicate_append_replicate, Nat.add_comm]

theorem exec_mk {call} {p : Prog} (h : Comp p) (w : World Cursor Unit) :
    exec call (mk p .nil .nil) w = .ok (fresh p, push (marks p) w) := by
  induction h generalizing w with
  | char | charSymbol | strLit | symbol | int | uint | eoi | pass | fail | recur => rfl
  | @seq slots ps hne hl _ ih =>
    cases ps with
    | nil => exact absurd rfl hne
    | cons p ps =>
      cases slots with
      | nil => simp at hl
      | cons s ss => simp only [mk, seqDst, exec_bind, ih p (by simp)]; rfl
  | @alt ps hne _ ih =>
    cases ps with
    | nil => exact absurd rfl hne
    | cons p ps => simp only [mk, exec_bind, ih p (by simp)]; rfl
  | rep _ ih | discard _ ih | lexeme _ ih | bindDst _ ih | withSkipper _ ih | list _ _ ih _
  | except _ _ _ ih =>
    simp only [mk, exec_bind, ih]; rfl
  | opt _ ih | not _ ih | clean _ ih =>
    simp only [mk, exec_bind, ih]; rfl
  | construct _ ih | action _ ih | atomic _ ih =>
    simp only [mk, exec, Store.alloc, exec_bind, ih]; rfl
  | skip _ _ ih1 ih2 =>
    simp only [mk, exec_bind, ih1, ih2]
    rw [push_push]; rfl

/-- Parsers that call no other parser. -/
def Prog.isLeaf : Prog → Bool
  | .char _ | .charSymbol _ | .strLit _ | .symbol _ | .int .. | .uint .. | .eoi | .pass
  | .fail => true
  | _ => false

/-- The child that `consume` calls. -/
def childOf : Prog → PState → Option (Prog × PState)
  | .seq _ ps, .seq i c => ps[i]?.map (·, c)
  | .alt ps, .alt i c => ps[i]?.map (·, c)
  | .rep _ _ p, .rep _ c => some (p, c)
  | .opt p, .wrap c => some (p, c)
  | .not p, .wrap c => some (p, c)
  | .discard p, .wrap c => some (p, c)
  | .lexeme p, .wrap c => some (p, c)
  | .bindDst p, .wrap c => some (p, c)
  | .construct _ p, .buffered .nil c => some (p, c)
  | .action _ p, .buffered .nil c => some (p, c)
  | .except _ neg, .except false c => some (neg, c)
  | .except op _, .except true c => some (op, c)
  | .list op _, .list false c => some (op, c)
  | .list _ sep, .list true c => some (sep, c)
  | .withSkipper p, .wrap c => some (p, c)
  | .atomic p, .buffered .nil c => some (p, c)
  | .clean p, .wrap c => some (p, c)
  | .skip s _, .skip false sc _ => some (s, sc)
  | .skip _ p, .skip true _ c => some (p, c)
  | _, _ => none

/-- What happens after a child has returned: return, or go on in another state. -/
inductive Iter
  | ret (r : Res) (i : Nat) (S : List Nat)
  | cont (st : PState) (i : Nat) (S : List Nat)

/-- Return after going back to the last rollback point. -/
def back (r : Res) : List Nat → Option Iter
  | [] => none
  | i :: S => some (.ret r i S)

/-- Go on with a newly constructed child. -/
def newChild (f : PState → PState) (p : Prog) (i : Nat) (S : List Nat) : Option Iter :=
  some (.cont (f (fresh p)) i (List.replicate (marks p) i ++ S))

/-- The rest of the iteration when the child returned `r` leaving position `i` and rollback
points `S`; `none`: rollback underflow. -/
def after : Prog → PState → Res → PState → Nat → List Nat → Option Iter
  | .seq slots ps, .seq k _, .SUCCESS, _, i, S =>
    match ps[k + 1]?, slots[k + 1]? with
    | some p', some _ => newChild (.seq (k + 1)) p' i S
    | _, _ => some (.ret .SUCCESS i S)
  | .alt ps, .alt k _, .FAILURE, _, i, S =>
    match ps[k + 1]? with
    | some p' => newChild (.alt (k + 1)) p' i S
    | none => some (.ret .FAILURE i S)
  | .rep mn _ _, .rep n _, .FAILURE, _, i, S => some (.ret (enough n mn) i S)
  | .rep _ mx p, .rep n _, .SUCCESS, _, i, S =>
    if mx ≠ 0 ∧ n + 1 = mx then some (.ret .SUCCESS i S) else newChild (.rep (n + 1)) p i S
  | .opt _, _, .FAILURE, _, _, S => back .SUCCESS S
  | .not _, _, .SUCCESS, _, _, S => back .FAILURE S
  | .not _, _, .FAILURE, _, _, S => back .SUCCESS S
  | .except _ _, .except false _, .SUCCESS, _, i, S => some (.ret .FAILURE i S)
  | .except op _, .except false _, .FAILURE, _, i, S => newChild (.except true) op i S
  | .list _ sep, .list false _, .SUCCESS, _, i, S =>
    match S with
    | [] => none
    | _ :: S => newChild (.list true) sep i (i :: S)
  | .list _ _, .list false _, .FAILURE, _, _, S => back .SUCCESS S
  | .list op _, .list true _, .SUCCESS, _, i, S => newChild (.list false) op i S
  | .list _ _, .list true _, .FAILURE, _, _, S => back .SUCCESS S
  | .clean _, _, .SUCCESS, _, i, S =>
    match S with
    | [] => none
    | _ :: S => some (.ret .SUCCESS i S)
  | .clean _, _, .FAILURE, _, _, S => back .FAILURE S
  | .skip s _, .skip false _ c, .SUCCESS, _, i, S => newChild (fun sc => .skip false sc c) s i S
  | .skip s _, .skip false _ c, .FAILURE, cs, i, S =>
    some (.cont (.skip true cs c) i S)
  | _, _, r, _, i, S => some (.ret r i S)

/-- `consume` as a relation: on the complete text `t`, from a state, a position and rollback
points, to a result, a position and rollback points. -/
inductive Big (env : Env) (t : List Ch) :
    Prog → PState → Nat → List Nat → Res → Nat → List Nat → Prop
  | leaf {p st i S n r st' i' S'} : p.isLeaf = true →
      run env n p .nil .nil st (⟨⟨t, i, S, true⟩, ()⟩ : World Cursor Unit) =
        .ok ((r, st'), ⟨⟨t, i', S', true⟩, ()⟩) →
      Big env t p st i S r i' S'
  | ret {p st i S cp cs r1 cs' i1 S1 r i' S'} : childOf p st = some (cp, cs) →
      Big env t cp cs i S r1 i1 S1 → after p st r1 cs' i1 S1 = some (.ret r i' S') →
      Big env t p st i S r i' S'
  | cont {p st i S cp cs r1 cs' i1 S1 st2 i2 S2 r i' S'} : childOf p st = some (cp, cs) →
      Big env t cp cs i S r1 i1 S1 → after p st r1 cs' i1 S1 = some (.cont st2 i2 S2) →
      Big env t p st2 i2 S2 r i' S' → Big env t p st i S r i' S'
  | recurNone {id sk q i S r i' S'} : env id = some q →
      Big env t (elabP sk RecurChildReqs q) (fresh (elabP sk RecurChildReqs q)) i
        (List.replicate (marks (elabP sk RecurChildReqs q)) i ++ S) r i' S' →
      Big env t (.recur id sk) .recurNone i S r i' S'
  | recurSome {id sk q c i S r i' S'} : env id = some q →
      Big env t (elabP sk RecurChildReqs q) c i S r i' S' →
      Big env t (.recur id sk) (.recurSome c) i S r i' S'

/-- The text is not changed by parsers. -/
theorem exec_text {μ : Type} [Store μ] {call} (h : ∀ p d b st (w : World Cursor μ) a w',
      call p d b st w = .ok (a, w') → w'.ds.text = w.ds.text) {α : Type} (x : Cmd α)
    (w : World Cursor μ) {a w'} (he : exec call x w = .ok (a, w')) : w'.ds.text = w.ds.text := by
  induction x generalizing w with
  | pure a => simp only [exec, Except.ok.injEq, Prod.mk.injEq] at he; rw [he.2]
  | fault e => cases he
  | isEmpty k ih => exact ih _ w he
  | isFinal k ih => exact ih _ w he
  | next k ih =>
    simp only [exec] at he; split at he
    · cases he
    · exact ih _ w he
  | advance k ih =>
    simp only [exec] at he; split at he
    · cases he
    · rename_i ds hds
      have : (if w.ds.pos < w.ds.text.length then some { w.ds with pos := w.ds.pos + 1 }
        else none) = some ds := hds
      split at this
      · cases this; have h2 := ih _ he; exact h2
      · cases this
  | prepare k ih => simp only [exec] at he; have h2 := ih _ he; exact h2
  | commit k ih =>
    obtain ⟨⟨tx, pos, saved, fin⟩, m⟩ := w
    cases saved with
    | nil => cases he
    | cons s ss => exact ih ⟨⟨tx, s, ss, fin⟩, m⟩ he
  | cancel k ih =>
    obtain ⟨⟨tx, pos, saved, fin⟩, m⟩ := w
    cases saved with
    | nil => cases he
    | cons s ss => exact ih ⟨⟨tx, pos, ss, fin⟩, m⟩ he
  | mem o k ih =>
    simp only [exec] at he; split at he
    · cases he
    · have h2 := ih _ he; exact h2
  | alloc t k ih => simp only [exec] at he; have h2 := ih _ _ he; exact h2
  | call p d b st k ih =>
    simp only [exec] at he
    cases hc : call p d b st w with
    | error e => rw [hc] at he; cases he
    | ok y =>
      obtain ⟨⟨r, s⟩, w1⟩ := y
      rw [hc] at he
      rw [← h _ _ _ _ _ _ _ hc]
      exact ih _ _ _ he

theorem run_text {μ : Type} [Store μ] (env : Env) (n : Nat) (p dst bnd st) (w : World Cursor μ)
    {a w'} (h : run env n p dst bnd st w = .ok (a, w')) : w'.ds.text = w.ds.text := by
  induction n generalizing p dst bnd st w a w' with
  | zero => cases h
  | succ n ih =>
    rw [run_succ_andThen] at h
    cases hx : exec (run env n) (body env p dst bnd st) w with
    | error e => rw [hx] at h; cases h
    | ok y =>
      obtain ⟨s, w1⟩ := y
      have h1 := exec_text (fun p d b st w a w' h => ih p d b st w h) _ w hx
      rw [hx] at h
      cases s with
      | ret r st' => simp only [andThen, Except.ok.injEq, Prod.mk.injEq] at h; rw [← h.2, h1]
      | cont st' => rw [← h1]; exact ih _ _ _ _ _ h

section
variable {env : Env} {call : Prog → Ref → Ref → PState → World Cursor Unit →
  Out Cursor Unit (Res × PState)}

/-- The world on a complete text. -/
abbrev gw (t : List Ch) (i : Nat) (S : List Nat) : World Cursor Unit := ⟨⟨t, i, S, true⟩, ()⟩

/-- Outcome of an iteration of `consume`, up to the state left behind by `return`. -/
inductive IterIs (t : List Ch) : Option Iter → Out Cursor Unit Step → Prop
  | none {e} : IterIs t none (.error e)
  | ret {r i S st} : IterIs t (some (.ret r i S)) (.ok (.ret r st, gw t i S))
  | cont {st i S} : IterIs t (some (.cont st i S)) (.ok (.cont st, gw t i S))

theorem push_gw (n : Nat) (t : List Ch) (i : Nat) (S : List Nat) :
    push n (gw t i S) = gw t i (List.replicate n i ++ S) := rfl

theorem exec_child_error {p st cp cs w e} (hc : childOf p st = some (cp, cs))
    (hp : Comp p)
    (hcall : call cp .nil .nil cs w = .error e) :
    exec call (body env p .nil .nil st) w = .error e := by
  revert hc
  fun_cases childOf p st <;> intro hc <;> simp at hc
  case case1 slots ps k c =>
    obtain ⟨p, hp1, rfl, rfl⟩ := hc
    have : ∃ s, slots[k]? = some s := by
      cases hp with
      | seq _ hl _ =>
        rw [List.getElem?_eq_some_iff] at hp1
        obtain ⟨h, _⟩ := hp1
        exact ⟨_, List.getElem?_eq_getElem (by omega)⟩
    obtain ⟨s, hs⟩ := this
    simp only [body, hp1, hs, seqDst, exec, hcall]
  case case2 ps k c =>
    obtain ⟨p, hp1, rfl, rfl⟩ := hc
    simp only [body, hp1, exec, hcall]
  all_goals
    obtain ⟨rfl, rfl⟩ := hc
    simp only [body, exec, hcall]

/-- The parser object has no destination. -/
def NilSt : PState → Prop
  | .seq _ c => NilSt c
  | .alt _ c => NilSt c
  | .rep _ c => NilSt c
  | .wrap c => NilSt c
  | .buffered b c => b = .nil ∧ NilSt c
  | .skip false s c => NilSt s ∧ NilSt c
  | .skip true _ c => NilSt c
  | .except _ c => NilSt c
  | .list _ c => NilSt c
  | .recurSome c => NilSt c
  | _ => True

theorem nilSt_fresh (p : Prog) : NilSt (fresh p) := by
  fun_induction fresh p <;> simp_all [NilSt]

theorem childOf_nil {p st cp cs} (h : childOf p st = some (cp, cs)) (hs : NilSt st) :
    NilSt cs := by
  revert h
  fun_cases childOf p st <;> intro hc <;> simp at hc
  case case1 => obtain ⟨_, _, _, rfl⟩ := hc; exact hs
  case case2 => obtain ⟨_, _, _, rfl⟩ := hc; exact hs
  all_goals (obtain ⟨rfl, rfl⟩ := hc; simp_all [NilSt])

theorem childOf_comp {p st cp cs} (h : childOf p st = some (cp, cs)) (hp : Comp p) : Comp cp := by
  revert h
  fun_cases childOf p st <;> intro hc <;> simp at hc
  case case1 =>
    obtain ⟨q, h, rfl, _⟩ := hc
    cases hp with | seq _ _ h2 => exact h2 _ (List.mem_of_getElem? h)
  case case2 =>
    obtain ⟨q, h, rfl, _⟩ := hc
    cases hp with | alt _ h2 => exact h2 _ (List.mem_of_getElem? h)
  all_goals (obtain ⟨rfl, rfl⟩ := hc; cases hp; assumption)

theorem after_nil {p st r cs i S st2 i2 S2} (hs : NilSt st)
    (h : after p st r cs i S = some (.cont st2 i2 S2)) : NilSt st2 := by
  revert h
  fun_cases after p st r cs i S <;> intro h <;> simp_all [newChild, back]
  all_goals first
    | (obtain ⟨rfl, _⟩ := h; simp_all [NilSt, nilSt_fresh])
    | (cases S <;> simp at h; done)
    | skip

theorem exec_child_ok {p st cp cs r cs' t i S w} (hc : childOf p st = some (cp, cs))
    (hp : Comp p) (hcall : call cp .nil .nil cs w = .ok ((r, cs'), gw t i S)) :
    IterIs t (after p st r cs' i S) (exec call (body env p .nil .nil st) w) := by
  revert hc
  fun_cases childOf p st <;> intro hc <;> simp at hc
  case case1 slots ps k c =>
    obtain ⟨p, hp1, rfl, rfl⟩ := hc
    cases hp with
    | seq _ hl hcs =>
    have : ∃ s, slots[k]? = some s := by
        rw [List.getElem?_eq_some_iff] at hp1
        obtain ⟨h, _⟩ := hp1
        exact ⟨_, List.getElem?_eq_getElem (by omega)⟩
    obtain ⟨s, hs⟩ := this
    simp only [body, hp1, hs, seqDst, exec, hcall]
    cases r <;> simp only [after, exec]
    · cases hq : ps[k + 1]? with
      | none => exact .ret
      | some q =>
        cases hs' : slots[k + 1]? with
        | none => exact .ret
        | some s' =>
          simp only [exec_bind, exec_mk (hcs q (List.mem_of_getElem? hq)), newChild, exec]
          exact .cont
    · exact .ret
    · exact .ret
  case case2 ps k c =>
    obtain ⟨p, hp1, rfl, rfl⟩ := hc
    cases hp with
    | alt _ hcs =>
    simp only [body, hp1, exec, hcall]
    cases r <;> simp only [after, exec]
    · exact .ret
    · cases hq : ps[k + 1]? with
      | none => exact .ret
      | some q =>
        simp only [exec_bind, exec_mk (hcs q (List.mem_of_getElem? hq)), newChild, exec]
        exact .cont
    · exact .ret
  all_goals
    obtain ⟨rfl, rfl⟩ := hc
    cases hp
    simp only [body, exec, hcall]
    cases r <;> simp only [after, exec, Store.op, newChild, exec_bind, exec_mk, *] <;>
      first
      | exact .ret
      | exact .cont
      | (cases S <;> first | exact .none | exact .ret | exact .cont)
      | skip
  case case3.rep.SUCCESS =>
    split
    · exact .ret
    · simp only [exec_bind, exec_mk, *]; exact .cont

/-- States that differ at most in what is left of a skipper that is done. -/
inductive StEq : PState → PState → Prop
  | refl (st) : StEq st st
  | skip (a b c) : StEq (.skip true a c) (.skip true b c)

theorem childOf_stEq {p st st'} (h : StEq st st') : childOf p st' = childOf p st := by
  cases h with
  | refl => rfl
  | skip a b c => cases p <;> rfl

theorem after_cs (p st r cs cs' i S) :
    after p st r cs i S = after p st r cs' i S ∨
    ∃ s q a c, p = .skip s q ∧ st = .skip false a c ∧ r = .FAILURE := by
  cases p <;> cases st <;> try exact .inl rfl
  case skip.skip s q d a c =>
    cases d
    · cases r
      · exact .inl rfl
      · exact .inr ⟨_, _, _, _, rfl, rfl, rfl⟩
      · exact .inl rfl
    · exact .inl rfl
  case except.except d c => cases d <;> cases r <;> exact .inl rfl
  case list.list d c => cases d <;> cases r <;> exact .inl rfl
  all_goals (cases r <;> exact .inl rfl)

theorem after_ret_stEq {p st st' r cs cs' i S r' i' S'} (h : StEq st st')
    (ha : after p st r cs i S = some (.ret r' i' S')) :
    after p st' r cs' i S = some (.ret r' i' S') := by
  cases h with
  | refl =>
    rcases after_cs p st r cs cs' i S with h | ⟨s, q, a, c, rfl, rfl, rfl⟩
    · rw [← h, ha]
    · cases ha
  | skip a b c => cases p <;> cases r <;> exact ha

theorem after_cont_stEq {p st st' r cs cs' i S st2 i' S'} (h : StEq st st')
    (ha : after p st r cs i S = some (.cont st2 i' S')) :
    ∃ st2', StEq st2 st2' ∧ after p st' r cs' i S = some (.cont st2' i' S') := by
  cases h with
  | refl =>
    rcases after_cs p st r cs cs' i S with h | ⟨s, q, a, c, rfl, rfl, rfl⟩
    · rw [← h, ha]; exact ⟨_, .refl _, rfl⟩
    · cases ha; exact ⟨_, .skip _ _ _, rfl⟩
  | skip a b c =>
    refine ⟨st2, .refl _, ?_⟩
    cases p <;> cases r <;> exact ha

theorem run_of_big {t p st i S r i' S'} (h : Big env t p st i S r i' S')
    (henv : ∀ id q sk, env id = some q → Comp sk → Comp (elabP sk RecurChildReqs q))
    (hp : Comp p) : ∀ {st2}, StEq st st2 →
    ∃ n st', run env n p .nil .nil st2 (gw t i S) = .ok ((r, st'), gw t i' S') := by
  induction h with
  | leaf hl h =>
    intro st2 he
    cases he with
    | refl => exact ⟨_, _, h⟩
    | skip a b c =>
      exfalso
      clear hp
      rename_i p i S n r st' i' S'
      cases n with
      | zero => cases h
      | succ n => cases p <;> first | (cases hl; done) | (cases h; done)
  | @ret p st i S cp cs r1 cs' i1 S1 r i' S' hc _ ha ih =>
    intro st2 he
    obtain ⟨n, cs2, hn⟩ := ih (childOf_comp hc hp) (.refl _)
    have h1 := exec_child_ok (env := env) ((childOf_stEq he).trans hc) hp hn
    rw [after_ret_stEq he ha] at h1
    generalize hx : exec (run env n) (body env p .nil .nil st2) (gw t i S) = x at h1
    cases h1
    exact ⟨n + 1, _, by rw [run_succ_eq, hx]⟩
  | @cont p st i S cp cs r1 cs' i1 S1 st3 i2 S2 r i' S' hc _ ha _ ih ih2 =>
    intro st2 he
    obtain ⟨n, cs2, hn⟩ := ih (childOf_comp hc hp) (.refl _)
    have h1 := exec_child_ok (env := env) ((childOf_stEq he).trans hc) hp hn
    obtain ⟨st4, he4, ha4⟩ := after_cont_stEq (cs' := cs2) he ha
    rw [ha4] at h1
    generalize hx : exec (run env n) (body env p .nil .nil st2) (gw t i S) = x at h1
    cases h1
    obtain ⟨m, st', hm⟩ := ih2 hp he4
    refine ⟨max n m + 1, st', ?_⟩
    rw [run_succ_eq, exec_mono (run_mono env (Nat.le_max_left n m)) _ _ (by rw [hx]; simp), hx]
    exact (run_mono env (Nat.le_max_right n m) _ _ _ _ _ (by rw [hm]; simp)).trans hm
  | @recurNone id sk q i S r i' S' hq _ ih =>
    intro st2 he
    cases he
    cases hp with
    | recur hsk =>
    have hcq := henv id q sk hq hsk
    obtain ⟨n, st', hn⟩ := ih hcq (.refl _)
    refine ⟨n + 2, .recurSome st', ?_⟩
    rw [run_succ_eq]
    simp only [body, hq, exec_bind, exec_mk hcq, exec]
    rw [run_succ_eq]
    simp only [body, hq, exec, push_gw, hn]
  | @recurSome id sk q c i S r i' S' hq _ ih =>
    intro st2 he
    cases he
    cases hp with
    | recur hsk =>
    have hcq := henv id q sk hq hsk
    obtain ⟨n, st', hn⟩ := ih hcq (.refl _)
    refine ⟨n + 1, .recurSome st', ?_⟩
    rw [run_succ_eq]
    simp only [body, hq, exec, hn]

theorem big_of_run (henv : ∀ id q sk, env id = some q → Comp sk → Comp (elabP sk RecurChildReqs q))
    {n t p st i S r st' w} (hp : Comp p) (hs : NilSt st)
    (h : run env n p .nil .nil st (gw t i S) = .ok ((r, st'), w)) :
    ∃ i' S', w = gw t i' S' ∧ Big env t p st i S r i' S' := by
  induction n generalizing p st i S r st' w with
  | zero => cases h
  | succ n ih =>
    have hw : ∃ i' S', w = gw t i' S' := by
      have h1 := run_text env _ p _ _ _ _ h
      have h2 := run_final env _ p _ _ _ _ h
      obtain ⟨⟨tx, i', S', f⟩, u⟩ := w
      simp only at h1 h2
      subst h1 h2
      exact ⟨i', S', rfl⟩
    by_cases hl : p.isLeaf = true
    · obtain ⟨i', S', rfl⟩ := hw
      exact ⟨i', S', rfl, .leaf hl h⟩
    cases hc : childOf p st with
    | some x =>
      obtain ⟨cp, cs⟩ := x
      rw [run_succ_eq] at h
      cases hx : run env n cp .nil .nil cs (gw t i S) with
      | error e => rw [exec_child_error hc hp hx] at h; cases h
      | ok y =>
        obtain ⟨⟨r1, cs1⟩, w1⟩ := y
        obtain ⟨i1, S1, rfl, hb⟩ := ih (childOf_comp hc hp) (childOf_nil hc hs) hx
        have h1 := exec_child_ok (env := env) hc hp hx
        generalize ha : after p st r1 cs1 i1 S1 = a at h1
        generalize exec (run env n) (body env p .nil .nil st) (gw t i S) = y at h h1
        cases h1 with
        | none => cases h
        | ret => cases h; exact ⟨_, _, rfl, .ret hc hb ha⟩
        | cont =>
          obtain ⟨i', S', rfl, hb2⟩ := ih hp (after_nil hs ha) h
          exact ⟨i', S', rfl, .cont hc hb ha hb2⟩
    | none =>
      cases p <;> cases st <;> first
        | (exact absurd rfl hl)
        | (cases hc; done)
        | (cases h; done)
        | skip
      case seq.seq slots ps k c =>
        simp only [childOf, Option.map_eq_none_iff] at hc
        rw [run_succ_eq] at h
        simp only [body, hc, exec] at h
        cases h
      case alt.alt ps k c =>
        simp only [childOf, Option.map_eq_none_iff] at hc
        rw [run_succ_eq] at h
        simp only [body, hc, exec] at h
        cases h
      case construct.buffered a b c d => simp only [NilSt] at hs; rw [hs.1] at hc; cases hc
      case action.buffered a b c d => simp only [NilSt] at hs; rw [hs.1] at hc; cases hc
      case atomic.buffered a b c => simp only [NilSt] at hs; rw [hs.1] at hc; cases hc
      case skip.skip s p d a b => cases d <;> cases hc
      case except.except s p d a => cases d <;> cases hc
      case list.list s p d a => cases d <;> cases hc
      case recur.recurNone id sk =>
        cases hp with
        | recur hsk =>
        rw [run_succ_eq] at h
        cases hq : env id with
        | none => simp only [body, hq, exec] at h; cases h
        | some q =>
          have hcq := henv id q sk hq hsk
          simp only [body, hq, exec_bind, exec_mk hcq, exec] at h
          obtain ⟨i', S', rfl, hb⟩ := ih (.recur hsk)
            (show NilSt (.recurSome _) from nilSt_fresh _) h
          refine ⟨i', S', rfl, .recurNone hq ?_⟩
          cases hb with
          | leaf h1 => cases h1
          | ret h1 => cases h1
          | cont h1 => cases h1
          | recurSome hq' hb => rw [hq] at hq'; cases hq'; exact hb
      case recur.recurSome id sk c =>
        cases hp with
        | recur hsk =>
        rw [run_succ_eq] at h
        cases hq : env id with
        | none => simp only [body, hq, exec] at h; cases h
        | some q =>
          have hcq := henv id q sk hq hsk
          simp only [body, hq, exec] at h
          cases hx : run env n (elabP sk RecurChildReqs q) .nil .nil c (gw t i S) with
          | error e => rw [hx] at h; cases h
          | ok y =>
            obtain ⟨⟨r1, cs1⟩, w1⟩ := y
            rw [hx] at h
            cases h
            obtain ⟨i', S', rfl, hb⟩ := ih hcq (show NilSt c from hs) hx
            exact ⟨i', S', rfl, .recurSome hq hb⟩
end
end Abu
