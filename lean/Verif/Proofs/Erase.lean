import Verif.Spec.Forget
import Verif.Proofs.Rollback
/-
Recognition does not depend on destinations: the run of a parser against the run of the same
parser with `Nil` destinations and other actions.
-/
namespace Abu

mutual
/-- `Pat.mapAct` for parser classes. -/
def Prog.mapAct (g : Act → Act) : Prog → Prog
  | .seq slots ps => .seq slots (Prog.mapActs g ps)
  | .alt ps => .alt (Prog.mapActs g ps)
  | .rep mn mx p => .rep mn mx (p.mapAct g)
  | .opt p => .opt (p.mapAct g)
  | .not p => .not (p.mapAct g)
  | .discard p => .discard (p.mapAct g)
  | .lexeme p => .lexeme (p.mapAct g)
  | .bindDst p => .bindDst (p.mapAct g)
  | .construct tys p => .construct tys (p.mapAct g)
  | .action a p => .action (g a) (p.mapAct g)
  | .except op neg => .except (op.mapAct g) (neg.mapAct g)
  | .list op sep => .list (op.mapAct g) (sep.mapAct g)
  | .withSkipper p => .withSkipper (p.mapAct g)
  | .recur id sk => .recur id (sk.mapAct g)
  | .atomic p => .atomic (p.mapAct g)
  | .clean p => .clean (p.mapAct g)
  | .skip s p => .skip (s.mapAct g) (p.mapAct g)
  | .char s => .char s
  | .charSymbol m => .charSymbol m
  | .strLit s => .strLit s
  | .symbol r => .symbol r
  | .int b mn mx => .int b mn mx
  | .uint b mn mx => .uint b mn mx
  | .eoi => .eoi
  | .pass => .pass
  | .fail => .fail
/-- `Prog.mapAct` on every element of a list. -/
def Prog.mapActs (g : Act → Act) : List Prog → List Prog
  | [] => []
  | p :: ps => p.mapAct g :: Prog.mapActs g ps
end

theorem Prog.mapActs_eq (g : Act → Act) (ps : List Prog) :
    Prog.mapActs g ps = ps.map (Prog.mapAct g) := by
  induction ps with
  | nil => rfl
  | cons p ps ih => simp [Prog.mapActs, ih]

theorem Prog.mapActs_get (g : Act → Act) (ps : List Prog) (i : Nat) :
    (Prog.mapActs g ps)[i]? = ps[i]?.map (Prog.mapAct g) := by
  rw [Prog.mapActs_eq, List.getElem?_map]

/-- Forget buffers. -/
def PState.erase : PState → PState
  | .unit => .unit
  | .strLit k => .strLit k
  | .symbol n v => .symbol n v
  | .uint n => .uint n
  | .int n l g => .int n l g
  | .seq i c => .seq i c.erase
  | .alt i c => .alt i c.erase
  | .rep n c => .rep n c.erase
  | .wrap c => .wrap c.erase
  | .buffered _ c => .buffered .nil c.erase
  | .skip d s c => .skip d s.erase c.erase
  | .except b c => .except b c.erase
  | .list b c => .list b c.erase
  | .recurNone => .recurNone
  | .recurSome c => .recurSome c.erase

/-- Forget buffers in the state of a step. -/
def Step.erase : Step → Step
  | .ret r st => .ret r st.erase
  | .cont st => .cont st.erase

/-- `Er g f x y`: `y` does to the data what `x` does, unless `x` does not compile. -/
inductive Er (g : Act → Act) {α : Type} (f : α → α) : Cmd α → Cmd α → Prop
  | pure (a) : Er g f (.pure a) (.pure (f a))
  | fault (e) : Er g f (.fault e) (.fault e)
  | noCompile (y) : Er g f (.fault .noCompile) y
  | stuck (y) : Er g f (.fault .stuck) y
  | isEmpty {k k'} : (∀ b, Er g f (k b) (k' b)) → Er g f (.isEmpty k) (.isEmpty k')
  | isFinal {k k'} : (∀ b, Er g f (k b) (k' b)) → Er g f (.isFinal k) (.isFinal k')
  | next {k k'} : (∀ b, Er g f (k b) (k' b)) → Er g f (.next k) (.next k')
  | advance {k k'} : Er g f k k' → Er g f (.advance k) (.advance k')
  | prepare {k k'} : Er g f k k' → Er g f (.prepare k) (.prepare k')
  | commit {k k'} : Er g f k k' → Er g f (.commit k) (.commit k')
  | cancel {k k'} : Er g f k k' → Er g f (.cancel k) (.cancel k')
  | mem {o o' k k'} : Er g f k k' → Er g f (.mem o k) (.mem o' k')
  | alloc {t t' k k'} : (∀ r, Er g f (k r) (k' .nil)) → Er g f (.alloc t k) (.alloc t' k')
  | call {p d b st k k'} : (∀ r s, Er g f (k r s) (k' r s.erase)) →
      Er g f (.call p d b st k) (.call (p.mapAct g) .nil .nil st.erase k')

theorem Er.bind {g : Act → Act} {α β : Type} {f : α → α} {h : β → β} {x y : Cmd α}
    {k k' : α → Cmd β} (hx : Er g f x y) (hk : ∀ a, Er g h (k a) (k' (f a))) :
    Er g h (x.bind k) (y.bind k') := by
  induction hx with
  | pure a => exact hk a
  | fault e => exact .fault e
  | noCompile y => exact .noCompile _
  | stuck y => exact .stuck _
  | isEmpty _ ih => exact .isEmpty ih
  | isFinal _ ih => exact .isFinal ih
  | next _ ih => exact .next ih
  | advance _ ih => exact .advance ih
  | prepare _ ih => exact .prepare ih
  | commit _ ih => exact .commit ih
  | cancel _ ih => exact .cancel ih
  | mem _ ih => exact .mem ih
  | alloc _ ih => exact .alloc ih
  | call _ ih => exact .call ih

theorem mk_er (g : Act → Act) (p : Prog) (dst bnd : Ref) :
    Er g PState.erase (mk p dst bnd) (mk (p.mapAct g) .nil .nil) := by
  fun_induction mk p dst bnd
  case case11 s ss p ps dst bnd d hd ih =>
    simp only [Prog.mapAct, Prog.mapActs, mk, seqDst]
    exact ih.bind fun _ => .pure _
  case case12 => exact .noCompile _
  case case29 s p dst bnd ih1 ih2 =>
    simp only [Prog.mapAct, mk]
    exact ih1.bind fun _ => ih2.bind fun _ => .pure _
  all_goals first
    | exact .noCompile _
    | exact .pure _
    | exact .mem (.pure _)
    | (rename_i ih; simp only [Prog.mapAct, Prog.mapActs, mk]; exact ih.bind fun _ => .pure _)
    | (rename_i ih; simp only [Prog.mapAct, Prog.mapActs, mk]
       exact ih.bind fun _ => .prepare (.pure _))
    | (rename_i ih; simp only [Prog.mapAct, Prog.mapActs, mk]
       exact .alloc fun r => (ih r).bind fun _ => .pure _)


section
variable {g : Act → Act} (hg : ∀ a, (g a).void = a.void)
include hg

mutual
theorem Pat.dstBehavior_mapAct : ∀ p : Pat, (p.mapAct g).dstBehavior = p.dstBehavior
  | .rep _ _ p | .opt p | .lexeme p | .bindDst p | .except p _ | .list p _ | .withSkipper p _ => by
    simp [Pat.mapAct, Pat.dstBehavior, Pat.dstBehavior_mapAct p]
  | .action a p => by simp [Pat.mapAct, Pat.dstBehavior, hg]
  | .seq _ | .alt _ | .not _ | .discard _ | .construct _ _ | .char _ | .charSymbol _ | .strLit _
  | .symbol _ | .int .. | .uint .. | .eoi | .pass | .fail | .recur .. => by
    simp [Pat.mapAct, Pat.dstBehavior]
end

theorem Pat.ATOMIC_mapAct : ∀ p : Pat, (p.mapAct g).ATOMIC = p.ATOMIC
  | .withSkipper p _ => by simp [Pat.mapAct, Pat.ATOMIC, Pat.ATOMIC_mapAct p]
  | .rep _ _ _ | .opt _ | .lexeme _ | .bindDst _ | .except _ _ | .list _ _ | .action _ _
  | .seq _ | .alt _ | .not _ | .discard _ | .construct _ _ | .char _ | .charSymbol _ | .strLit _
  | .symbol _ | .int .. | .uint .. | .eoi | .pass | .fail | .recur .. => by
    simp [Pat.mapAct, Pat.ATOMIC]

theorem Pat.FAILS_CLEANLY_mapAct : ∀ p : Pat, (p.mapAct g).FAILS_CLEANLY = p.FAILS_CLEANLY
  | .withSkipper p _ => by simp [Pat.mapAct, Pat.FAILS_CLEANLY, Pat.FAILS_CLEANLY_mapAct p]
  | .rep _ _ _ | .opt _ | .lexeme _ | .bindDst _ | .except _ _ | .list _ _ | .action _ _
  | .seq _ | .alt _ | .not _ | .discard _ | .construct _ _ | .char _ | .charSymbol _ | .strLit _
  | .symbol _ | .int .. | .uint .. | .eoi | .pass | .fail | .recur .. => by
    simp [Pat.mapAct, Pat.FAILS_CLEANLY]

theorem tupleSlots_mapAct (ps : List Pat) : ∀ n,
    tupleSlots n (Pat.mapActs g ps) = tupleSlots n ps := by
  induction ps with
  | nil => intro n; rfl
  | cons p ps ih =>
    intro n
    simp only [Pat.mapActs, tupleSlots, Pat.dstBehavior_mapAct hg p, ih]

omit hg in
theorem Prog.isFail_mapAct (p : Prog) : (p.mapAct g).isFail = p.isFail := by
  cases p <;> simp [Prog.mapAct, Prog.isFail]

omit hg in
theorem adapt_mapAct (sk : Prog) (a c : Bool) (raw : Prog) :
    (adapt sk a c raw).mapAct g = adapt (sk.mapAct g) a c (raw.mapAct g) := by
  unfold adapt
  rw [Prog.isFail_mapAct]
  cases a <;> cases c <;> cases sk.isFail <;> simp [Prog.mapAct]

omit hg in
theorem skipper_mapAct (r : Req) (sk : Prog) : (r.skipper sk).mapAct g = r.skipper (sk.mapAct g) := by
  unfold Req.skipper
  split <;> simp [Prog.mapAct]

mutual
theorem elabP_mapAct : ∀ (p : Pat) (sk : Prog) (r : Req),
    elabP (sk.mapAct g) r (p.mapAct g) = (elabP sk r p).mapAct g
  | .seq ps, sk, r => by
    have h := elabPs_mapAct ps
    simp [Pat.mapAct, elabP, adapt_mapAct, skipper_mapAct, Prog.mapAct, tupleSlots_mapAct hg,
      Req.needsAtomic, Req.needsClean, Pat.ATOMIC, Pat.FAILS_CLEANLY, h]
  | .alt ps, sk, r => by
    have h := elabPs_mapAct ps
    simp [Pat.mapAct, elabP, adapt_mapAct, skipper_mapAct, Prog.mapAct,
      Req.needsAtomic, Req.needsClean, Req.lower, Pat.ATOMIC, Pat.FAILS_CLEANLY, h]
  | .rep _ _ p, sk, r | .opt p, sk, r | .not p, sk, r | .discard p, sk, r | .bindDst p, sk, r
  | .construct _ p, sk, r | .action _ p, sk, r => by
    have h := elabP_mapAct p
    simp [Pat.mapAct, elabP, adapt_mapAct, skipper_mapAct, Prog.mapAct,
      Req.needsAtomic, Req.needsClean, Req.lower, Pat.ATOMIC, Pat.FAILS_CLEANLY, h]
  | .lexeme p, sk, r => by
    have h := elabP_mapAct p .fail
    simp only [Prog.mapAct] at h
    simp [Pat.mapAct, elabP, adapt_mapAct, skipper_mapAct, Prog.mapAct,
      Req.needsAtomic, Req.needsClean, Req.lower, Pat.ATOMIC, Pat.FAILS_CLEANLY, h]
  | .except op neg, sk, r => by
    have h := elabP_mapAct op
    have h' := elabP_mapAct neg
    simp [Pat.mapAct, elabP, adapt_mapAct, skipper_mapAct, Prog.mapAct,
      Req.needsAtomic, Req.needsClean, Req.lower, Pat.ATOMIC, Pat.FAILS_CLEANLY, h, h']
  | .list op neg, sk, r => by
    have h := elabP_mapAct op
    have h' := elabP_mapAct neg
    simp [Pat.mapAct, elabP, adapt_mapAct, skipper_mapAct, Prog.mapAct,
      Req.needsAtomic, Req.needsClean, Req.lower, Pat.ATOMIC, Pat.FAILS_CLEANLY, h, h']
  | .withSkipper p s, sk, r => by
    have h := elabP_mapAct p
    have h' := elabP_mapAct s .fail
    simp only [Prog.mapAct] at h'
    simp [Pat.mapAct, elabP, adapt_mapAct, skipper_mapAct, Prog.mapAct,
      Req.needsAtomic, Req.needsClean, Req.lower, Pat.ATOMIC, Pat.FAILS_CLEANLY, h, h',
      Pat.ATOMIC_mapAct hg, Pat.FAILS_CLEANLY_mapAct hg]
  | .recur _ _, sk, r | .char _, sk, r | .charSymbol _, sk, r | .strLit _, sk, r
  | .symbol _, sk, r | .int .., sk, r | .uint .., sk, r | .eoi, sk, r | .pass, sk, r
  | .fail, sk, r => by
    simp [Pat.mapAct, elabP, adapt_mapAct, skipper_mapAct, Prog.mapAct]
theorem elabPs_mapAct : ∀ (ps : List Pat) (sk : Prog) (r : Req),
    elabPs (sk.mapAct g) r (Pat.mapActs g ps) = Prog.mapActs g (elabPs sk r ps)
  | [], _, _ => rfl
  | p :: ps, sk, r => by
    simp [Pat.mapActs, elabPs, Prog.mapActs, elabP_mapAct p, elabPs_mapAct ps]
end

omit hg in
theorem guarded_er {st A A' B B'} (hA : Er g Step.erase A A')
    (hB : ∀ c, Er g Step.erase (B c) (B' c)) :
    Er g Step.erase (guarded st A B) (guarded st.erase A' B') := by
  unfold guarded
  refine .isEmpty fun b => ?_
  cases b
  · exact .next hB
  · refine .isFinal fun b => ?_
    cases b
    · exact .pure _
    · exact hA

omit hg in
theorem mk_cont_er {p : Prog} {dst bnd : Ref} {f : PState → PState} {f' : PState → PState}
    (h : ∀ c, (f c).erase = f' c.erase) :
    Er g Step.erase ((mk p dst bnd).bind fun c => contS (f c))
      ((mk (p.mapAct g) .nil .nil).bind fun c => contS (f' c)) :=
  (mk_er g p dst bnd).bind fun c => by rw [← h]; exact .pure (Step.cont (f c))

omit hg in
theorem ret_er {r : Res} {st st' : PState} (h : st.erase = st') :
    Er g Step.erase (retS r st) (retS r st') := by
  subst h; exact .pure (Step.ret r st)

omit hg in
theorem cont_er {st st' : PState} (h : st.erase = st') :
    Er g Step.erase (contS st) (contS st') := by
  subst h; exact .pure (Step.cont st)

omit hg in
theorem negIf_er {neg dst k k'} (h : Er g Step.erase k k') :
    Er g Step.erase (negIf neg dst k) (negIf neg .nil k') := by
  unfold negIf; split
  · exact .mem h
  · exact h

theorem body_er (env : Env) (p : Prog) (dst bnd : Ref) (st : PState) :
    Er g Step.erase (body env p dst bnd st)
      (body (env.mapAct g) (p.mapAct g) .nil .nil st.erase) := by
  have call1 : ∀ {p d b st} {f f' : PState → PState}, (∀ c, (f c).erase = f' c.erase) →
      Er g Step.erase (.call p d b st fun r c' => retS r (f c'))
        (.call (p.mapAct g) .nil .nil st.erase fun r c' => retS r (f' c')) :=
    fun h => .call fun r s => ret_er (h s)
  fun_cases body env p dst bnd st
  all_goals try exact .stuck _
  case case1 s =>
    refine guarded_er (ret_er rfl) fun c => ?_
    split
    · exact .mem (.advance (ret_er rfl))
    · exact ret_er rfl
  case case2 m =>
    refine guarded_er (ret_er rfl) fun c => ?_
    split
    · exact ret_er rfl
    · exact .mem (ret_er rfl)
  case case3 h => simp only [Prog.mapAct, PState.erase, body, h]; exact ret_er rfl
  case case4 h =>
    simp only [Prog.mapAct, PState.erase, body, h]
    refine guarded_er (ret_er rfl) fun c => ?_
    split
    · exact .advance (cont_er rfl)
    · exact ret_er rfl
  case case5 n v _ _ =>
    have hstop : Er g Step.erase
        (match v with
          | some x => .mem (.assign dst x) (.commit (retS .SUCCESS (.symbol n v)))
          | none => retS .FAILURE (.symbol n v))
        (match v with
          | some x => .mem (.assign .nil x) (.commit (retS .SUCCESS (.symbol n v)))
          | none => retS .FAILURE (.symbol n v)) := by
      cases v
      · exact ret_er rfl
      · exact .mem (.commit (ret_er rfl))
    simp only [Prog.mapAct, PState.erase, body]
    refine guarded_er (st := .symbol n v) hstop fun c => ?_
    split
    · exact hstop
    · refine .advance ?_
      split
      · exact cont_er rfl
      · split
        · refine .cancel ?_
          split
          · exact .mem (ret_er rfl)
          · exact .prepare (cont_er rfl)
        · split
          · exact .mem (ret_er rfl)
          · exact .prepare (cont_er rfl)
  case case6 =>
    refine guarded_er (ret_er rfl) fun c => ?_
    split
    · refine .mem (.advance ?_)
      split
      · exact ret_er rfl
      · exact cont_er rfl
    · exact ret_er rfl
  case case7 =>
    refine guarded_er (negIf_er (ret_er rfl)) fun c => ?_
    split
    · exact .advance (cont_er rfl)
    · split
      · exact .advance (cont_er rfl)
      · split
        · refine .mem (.advance ?_)
          split
          · exact negIf_er (ret_er rfl)
          · exact cont_er rfl
        · exact negIf_er (ret_er rfl)
  case case8 => exact guarded_er (ret_er rfl) fun c => ret_er rfl
  case case9 => exact ret_er rfl
  case case10 => exact ret_er rfl
  case case11 => exact .noCompile _
  case case12 slots ps i c p s hp hs d hd =>
    simp only [Prog.mapAct, PState.erase, body, Prog.mapActs_get, hp, hs, Option.map_some, seqDst]
    refine .call fun r c' => ?_
    cases r with
    | SUCCESS =>
      simp only
      cases hp' : ps[i + 1]? with
      | none => exact ret_er rfl
      | some p' =>
        cases hs' : slots[i + 1]? with
        | none => exact ret_er rfl
        | some s' =>
          simp only [Option.map_some]
          split
          · exact .noCompile _
          · exact mk_cont_er fun _ => rfl
    | FAILURE => exact ret_er rfl
    | PARTIAL => exact ret_er rfl
  case case14 ps i c p hp =>
    simp only [Prog.mapAct, PState.erase, body, Prog.mapActs_get, hp, Option.map_some]
    refine .call fun r c' => ?_
    cases r with
    | FAILURE =>
      simp only
      cases hp' : ps[i + 1]? with
      | none => exact ret_er rfl
      | some p' => exact mk_cont_er fun _ => rfl
    | SUCCESS => exact ret_er rfl
    | PARTIAL => exact ret_er rfl
  case case16 =>
    refine .call fun r c' => ?_
    cases r with
    | FAILURE => exact ret_er rfl
    | PARTIAL => exact ret_er rfl
    | SUCCESS =>
      simp only
      split
      · exact ret_er rfl
      · exact mk_cont_er fun _ => rfl
  case case17 =>
    refine .call fun r c' => ?_
    cases r
    · exact ret_er rfl
    · exact .commit (ret_er rfl)
    · exact ret_er rfl
  case case18 =>
    refine .call fun r c' => ?_
    cases r
    · exact .commit (ret_er rfl)
    · exact .commit (ret_er rfl)
    · exact ret_er rfl
  case case19 => exact call1 fun _ => rfl
  case case20 => exact call1 fun _ => rfl
  case case21 => exact call1 fun _ => rfl
  case case22 =>
    refine .call fun r c' => ?_
    cases r
    · exact .mem (ret_er rfl)
    · exact ret_er rfl
    · exact ret_er rfl
  case case23 =>
    refine .call fun r c' => ?_
    cases r
    · exact .mem (ret_er rfl)
    · exact ret_er rfl
    · exact ret_er rfl
  case case24 =>
    refine .call fun r c' => ?_
    cases r
    · exact ret_er rfl
    · exact mk_cont_er fun _ => rfl
    · exact ret_er rfl
  case case25 => exact call1 fun _ => rfl
  case case26 =>
    refine .call fun r c' => ?_
    cases r
    · exact .cancel (.prepare (mk_cont_er fun _ => rfl))
    · exact .commit (ret_er rfl)
    · exact ret_er rfl
  case case27 =>
    refine .call fun r c' => ?_
    cases r
    · exact mk_cont_er fun _ => rfl
    · exact .commit (ret_er rfl)
    · exact ret_er rfl
  case case28 => exact call1 fun _ => rfl
  case case29 h =>
    simp only [Prog.mapAct, PState.erase, body, Env.mapAct, h, Option.map_none]
    exact .fault _
  case case30 h =>
    simp only [Prog.mapAct, PState.erase, body, Env.mapAct, h, Option.map_some, elabP_mapAct hg]
    exact mk_cont_er fun _ => rfl
  case case31 h =>
    simp only [Prog.mapAct, PState.erase, body, Env.mapAct, h, Option.map_none]
    exact .fault _
  case case32 h =>
    simp only [Prog.mapAct, PState.erase, body, Env.mapAct, h, Option.map_some, elabP_mapAct hg]
    exact call1 fun _ => rfl
  case case33 =>
    refine .call fun r c' => ?_
    cases r
    · exact .mem (ret_er rfl)
    · exact ret_er rfl
    · exact ret_er rfl
  case case34 =>
    refine .call fun r c' => ?_
    cases r
    · exact .cancel (ret_er rfl)
    · exact .commit (ret_er rfl)
    · exact ret_er rfl
  case case35 =>
    refine .call fun r c' => ?_
    cases r
    · exact mk_cont_er fun _ => rfl
    · exact cont_er rfl
    · exact ret_er rfl
  case case36 => exact call1 fun _ => rfl

end

/-- The ghost run does to the data what the real one does, unless the real one meets an error of
its destinations. -/
inductive ErOut {σ : Type} {α : Type} (f : α → α) : Out σ Mem α → Out σ Unit α → Prop
  | ok (a w) : ErOut f (.ok (a, w)) (.ok (f a, ⟨w.ds, ()⟩))
  | same (e) : ErOut f (.error e) (.error e)
  | mem {e} (y) : e.ofMem = true ∨ e = .stuck → ErOut f (.error e) y

/-- Erasure of the outcome of `consume`. -/
def eraseRes (x : Res × PState) : Res × PState := (x.1, x.2.erase)

section
variable {σ : Type} [DataSource σ] {g : Act → Act}

theorem exec_er {call : Prog → Ref → Ref → PState → World σ Mem → Out σ Mem (Res × PState)}
    {call' : Prog → Ref → Ref → PState → World σ Unit → Out σ Unit (Res × PState)}
    (hcall : ∀ p d b st w, ErOut eraseRes (call p d b st w)
      (call' (p.mapAct g) .nil .nil st.erase ⟨w.ds, ()⟩))
    {α : Type} {f : α → α} {x y : Cmd α} (h : Er g f x y) (w : World σ Mem) :
    ErOut f (exec call x w) (exec call' y ⟨w.ds, ()⟩) := by
  induction h generalizing w with
  | pure a => exact .ok a w
  | fault e => exact .same e
  | noCompile y => exact .mem _ (.inl rfl)
  | stuck y => exact .mem _ (.inr rfl)
  | isEmpty _ ih => exact ih _ w
  | isFinal _ ih => exact ih _ w
  | next _ ih =>
    simp only [exec]
    cases DataSource.next w.ds with
    | none => exact .same _
    | some c => exact ih c w
  | advance _ ih =>
    simp only [exec]
    cases DataSource.advance w.ds with
    | none => exact .same _
    | some ds => exact ih ⟨ds, w.mem⟩
  | prepare _ ih => exact ih ⟨DataSource.prepare w.ds, w.mem⟩
  | commit _ ih =>
    simp only [exec]
    cases DataSource.commit w.ds with
    | none => exact .same _
    | some ds => exact ih ⟨ds, w.mem⟩
  | cancel _ ih =>
    simp only [exec]
    cases DataSource.cancel w.ds with
    | none => exact .same _
    | some ds => exact ih ⟨ds, w.mem⟩
  | @mem o o' k k' _ ih =>
    simp only [exec]
    have h2 : Store.op o' () = .ok () := rfl
    rw [h2]
    cases h : Store.op o w.mem with
    | error e => exact .mem _ (.inl (mem_ofMem h))
    | ok m => exact ih ⟨w.ds, m⟩
  | @alloc t t' k k' _ ih =>
    simp only [exec]
    exact ih _ ⟨w.ds, (Store.alloc t w.mem).2⟩
  | @call p d b st k k' _ ih =>
    simp only [exec]
    have := hcall p d b st w
    generalize call p d b st w = x at this ⊢
    generalize call' (p.mapAct g) .nil .nil st.erase ⟨w.ds, ()⟩ = y at this ⊢
    cases this with
    | ok a w' => obtain ⟨r, s⟩ := a; exact ih r s w'
    | same e => exact .same e
    | mem y h => exact .mem _ h

theorem run_er (hg : ∀ a, (g a).void = a.void) (env : Env) (n : Nat) :
    ∀ p d b st (w : World σ Mem), ErOut eraseRes (run env n p d b st w)
      (run (env.mapAct g) n (p.mapAct g) .nil .nil st.erase ⟨w.ds, ()⟩) := by
  induction n with
  | zero => intro p d b st w; exact .same _
  | succ n ih =>
    intro p d b st w
    rw [run_succ_andThen, run_succ_andThen]
    have := exec_er ih (body_er hg env p d b st) w
    generalize exec (run env n) (body env p d b st) w = x at this ⊢
    generalize exec (run (env.mapAct g) n)
      (body (env.mapAct g) (p.mapAct g) .nil .nil st.erase) ⟨w.ds, ()⟩ = y at this ⊢
    cases this with
    | ok a w' =>
      cases a with
      | ret r st' => exact .ok (r, st') w'
      | cont st' => exact ih _ _ _ _ _
    | same e => exact .same e
    | mem y h => exact .mem _ h

theorem construct_er (p : Prog) (d b : Ref) (w : World σ Mem) :
    ErOut PState.erase (construct p d b w)
      (construct (p.mapAct g) .nil .nil (⟨w.ds, ()⟩ : World σ Unit)) :=
  exec_er (g := g) (fun _ _ _ _ _ => .same _) (mk_er g p d b) w

end

end Abu

namespace Abu

/-- What `parse` recognises, seen by the ghost machine: result and unread text. -/
def GhostParses (env : Env) (p : Prog) (t : List Ch) (r : Res) (rest : List Ch) : Prop :=
  ∃ st w n st' w', construct p .nil .nil (⟨Cursor.whole t, ()⟩ : World Cursor Unit) = .ok (st, w) ∧
    run env n p .nil .nil st w = .ok ((r, st'), w') ∧ rest = w'.ds.text.drop w'.ds.pos

theorem topParser_mapAct {g : Act → Act} (hg : ∀ a, (g a).void = a.void) (p : Pat) :
    topParser (p.mapAct g) = (topParser p).mapAct g :=
  elabP_mapAct hg p .fail DefaultReqs

theorem Parses.ghost {g : Act → Act} (hg : ∀ a, (g a).void = a.void) {env p dst m t r m' rest}
    (h : Parses env p dst m t (.ok (r, m', rest))) :
    GhostParses (env.mapAct g) (topParser (p.mapAct g)) t r rest := by
  rw [parses_iff_cursor] at h
  unfold CursorParses at h
  have hcon := construct_er (g := g) (topParser p) dst dst (⟨Cursor.whole t, m⟩ : World Cursor Mem)
  cases hc : Abu.construct (topParser p) dst dst (⟨Cursor.whole t, m⟩ : World Cursor Mem) with
  | error e => rw [hc] at h; cases h
  | ok y =>
    obtain ⟨st, w⟩ := y
    rw [hc] at h hcon
    rw [← topParser_mapAct hg] at hcon
    generalize hg2 : Abu.construct (topParser (p.mapAct g)) .nil .nil
      (⟨Cursor.whole t, ()⟩ : World Cursor Unit) = y at hcon
    cases hcon
    obtain ⟨o, ⟨_, n, hn⟩, he⟩ := h
    have hrun := run_er hg env n (topParser p) dst dst st w
    rw [hn, ← topParser_mapAct hg] at hrun
    generalize hr2 : run (env.mapAct g) n (topParser (p.mapAct g)) .nil .nil st.erase
      ⟨w.ds, ()⟩ = z at hrun
    generalize hv : (Except.ok (r, m', rest) : Verdict) = v at he
    cases he with
    | error => cases hv
    | @ok r1 st1 w1 rest1 _ hrd =>
      cases hrun with
      | ok a w2 =>
        rw [List.append_nil] at hv
        cases hv
        exact ⟨_, _, n, _, _, hg2, hr2, hrd.unique w1.ds.reads_drop⟩

theorem GhostParses.real {g : Act → Act} (hg : ∀ a, (g a).void = a.void) {env p t r rest}
    (h : GhostParses (env.mapAct g) (topParser (p.mapAct g)) t r rest) (dst : Ref) (m : Mem) :
    (∃ m', Parses env p dst m t (.ok (r, m', rest))) ∨
    ∃ e, e.ofMem = true ∧ Parses env p dst m t (.error e) := by
  obtain ⟨st, w, n, st', w', h1, h2, h3⟩ := h
  have hcon := construct_er (g := g) (topParser p) dst dst (⟨Cursor.whole t, m⟩ : World Cursor Mem)
  rw [← topParser_mapAct hg, h1] at hcon
  have hmk := mk_owns (call := fun _ _ _ _ _ => .error .stuck) mem_foreignOps env (topParser p)
    dst dst (⟨Cursor.whole t, m⟩ : World Cursor Mem)
  change Post _ _ (construct _ _ _ _) at hmk
  simp only [parses_iff_cursor]
  unfold CursorParses
  generalize hc : construct (topParser p) dst dst (⟨Cursor.whole t, m⟩ : World Cursor Mem) = y
    at hcon hmk ⊢
  cases hcon with
  | mem y h =>
    rcases h with h | rfl
    · exact .inr ⟨_, h, rfl⟩
    · exact absurd rfl hmk.2
  | ok st0 w0 =>
    obtain ⟨k, ho, hs, _⟩ := hmk
    have hrun := run_er hg env n (topParser p) dst dst st0 w0
    rw [← topParser_mapAct hg, h2] at hrun
    have hkeep := run_keeps mem_foreignOps env n _ dst dst st0 w0 k 0 ho (by rw [hs]; simp)
    generalize hr : run env n (topParser p) dst dst st0 w0 = z at hrun hkeep
    generalize hx : (Except.ok ((r, st'), w') : Out Cursor Unit (Res × PState)) = x at hrun
    cases hrun with
    | ok a w1 =>
      simp only [Except.ok.injEq, Prod.mk.injEq] at hx
      obtain ⟨hx1, hx2⟩ := hx
      obtain ⟨ra, sa⟩ := a
      simp only [eraseRes, Prod.mk.injEq] at hx1
      refine .inl ⟨w1.mem, _, ⟨by simp, n, hr⟩, ?_⟩
      have := EndsIn.ok (r := ra) (st := sa) (w := w1) [] w1.ds.reads_drop
      rw [List.append_nil] at this
      rw [h3, hx2, hx1.1]
      exact this
    | same e => cases hx
    | @mem e y h =>
      rcases h with h | rfl
      · refine .inr ⟨e, h, _, ⟨?_, n, hr⟩, .error _ _⟩
        rintro heq
        cases heq
        cases h
      · exact absurd rfl hkeep.2

theorem GhostParses.unique {env p t r rest r' rest'} (h : GhostParses env p t r rest)
    (h' : GhostParses env p t r' rest') : r = r' ∧ rest = rest' := by
  obtain ⟨st, w, n, st1, w1, h1, h2, h3⟩ := h
  obtain ⟨st', w', n', st1', w1', h1', h2', h3'⟩ := h'
  rw [h1] at h1'
  cases h1'
  have e1 : Evals env p .nil .nil st w (.ok ((r, st1), w1)) := ⟨by simp, n, h2⟩
  have e2 : Evals env p .nil .nil st w (.ok ((r', st1'), w1')) := ⟨by simp, n', h2'⟩
  cases e1.unique e2
  exact ⟨rfl, h3.trans h3'.symm⟩

end Abu
