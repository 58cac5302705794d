import Verif.Spec.Objects
import Verif.Proofs.Region
/-
What actions of a parser may heed of the calls before, and which calls they add.
-/
namespace Abu

mutual
/-- All actions in the parser are so. -/
def Prog.Acts (A : Act → Prop) : Prog → Prop
  | .seq _ ps => Prog.ActsAll A ps
  | .alt ps => Prog.ActsAll A ps
  | .rep _ _ p => p.Acts A
  | .opt p => p.Acts A
  | .not p => p.Acts A
  | .discard p => p.Acts A
  | .lexeme p => p.Acts A
  | .bindDst p => p.Acts A
  | .construct _ p => p.Acts A
  | .action a p => A a ∧ p.Acts A
  | .except op neg => op.Acts A ∧ neg.Acts A
  | .list op sep => op.Acts A ∧ sep.Acts A
  | .withSkipper p => p.Acts A
  | .recur _ sk => sk.Acts A
  | .atomic p => p.Acts A
  | .clean p => p.Acts A
  | .skip s p => s.Acts A ∧ p.Acts A
  | _ => True
/-- For all of a list. -/
def Prog.ActsAll (A : Act → Prop) : List Prog → Prop
  | [] => True
  | p :: ps => p.Acts A ∧ Prog.ActsAll A ps
end

theorem Prog.ActsAll.get {A} {ps : List Prog} {i : Nat} {p : Prog} (h : Prog.ActsAll A ps)
    (hp : ps[i]? = some p) : p.Acts A := by
  induction ps generalizing i with
  | nil => cases hp
  | cons q ps ih =>
    cases i with
    | zero => cases hp; exact h.1
    | succ i => exact ih h.2 hp

section
variable {A : Act → Prop}

theorem adapt_acts {sk raw : Prog} {a c} (hsk : sk.Acts A) (h : raw.Acts A) :
    (adapt sk a c raw).Acts A := by
  unfold adapt
  cases a <;> cases c <;> cases sk.isFail <;> simp [Prog.Acts, h, hsk]

theorem skipper_acts {sk : Prog} {r : Req} (h : sk.Acts A) : (r.skipper sk).Acts A := by
  unfold Req.skipper
  split
  · trivial
  · exact h

mutual
theorem elab_acts : ∀ (p : Pat) {sk r}, p.Acts A → sk.Acts A → (elabP sk r p).Acts A
  | .seq ps, sk, r, h, hs => adapt_acts (skipper_acts hs) (elabs_acts ps h hs)
  | .alt ps, sk, r, h, hs => adapt_acts (skipper_acts hs) (elabs_acts ps h hs)
  | .rep _ _ p, sk, r, h, hs => adapt_acts (skipper_acts hs) (elab_acts p h hs)
  | .opt p, sk, r, h, hs => adapt_acts (skipper_acts hs) (elab_acts p h hs)
  | .not p, sk, r, h, hs => adapt_acts (skipper_acts hs) (elab_acts p h hs)
  | .discard p, sk, r, h, hs => adapt_acts (skipper_acts hs) (elab_acts p h hs)
  | .lexeme p, sk, r, h, hs => adapt_acts (skipper_acts hs) (elab_acts p h trivial)
  | .bindDst p, sk, r, h, hs => adapt_acts (skipper_acts hs) (elab_acts p h hs)
  | .construct _ p, sk, r, h, hs => adapt_acts (skipper_acts hs) (elab_acts p h hs)
  | .action a p, sk, r, h, hs => adapt_acts (skipper_acts hs) ⟨h.1, elab_acts p h.2 hs⟩
  | .except op neg, sk, r, h, hs =>
    adapt_acts (skipper_acts hs) ⟨elab_acts op h.1 hs, elab_acts neg h.2 hs⟩
  | .list op sep, sk, r, h, hs =>
    adapt_acts (skipper_acts hs) ⟨elab_acts op h.1 hs, elab_acts sep h.2 hs⟩
  | .withSkipper p s, sk, r, h, hs =>
    adapt_acts (skipper_acts hs) (elab_acts p h.1 (elab_acts s h.2 trivial))
  | .recur _ _, sk, r, h, hs => adapt_acts (skipper_acts hs) hs
  | .char _, sk, r, h, hs => adapt_acts (skipper_acts hs) trivial
  | .charSymbol _, sk, r, h, hs => adapt_acts (skipper_acts hs) trivial
  | .strLit _, sk, r, h, hs => adapt_acts (skipper_acts hs) trivial
  | .symbol _, sk, r, h, hs => adapt_acts (skipper_acts hs) trivial
  | .int .., sk, r, h, hs => adapt_acts (skipper_acts hs) trivial
  | .uint .., sk, r, h, hs => adapt_acts (skipper_acts hs) trivial
  | .eoi, sk, r, h, hs => adapt_acts (skipper_acts hs) trivial
  | .pass, sk, r, h, hs => adapt_acts (skipper_acts hs) trivial
  | .fail, sk, r, h, hs => adapt_acts (skipper_acts hs) trivial
theorem elabs_acts : ∀ (ps : List Pat) {sk r}, Pat.ActsAll A ps → sk.Acts A →
    Prog.ActsAll A (elabPs sk r ps)
  | [], _, _, _, _ => trivial
  | p :: ps, sk, r, h, hs => ⟨elab_acts p h.1 hs, elabs_acts ps h.2 hs⟩
end

/-- The actions of the patterns used through `Recur` are so, whatever the skipper. -/
def Env.ActsP (A : Act → Prop) (env : Env) : Prop :=
  ∀ id q sk, env id = some q → sk.Acts A → (elabP sk RecurChildReqs q).Acts A

theorem Decl.Acts.env {D : Decl} (h : D.Acts A) : D.env.ActsP A :=
  fun _ _ _ h1 h2 => elab_acts _ (h.2 _ _ h1) h2

theorem Decl.Acts.top {D : Decl} (h : D.Acts A) : (topParser D.pat).Acts A :=
  elab_acts _ h.1 trivial

/-- An operation that calls no action or one that is so. -/
def MemOp.Acts (A : Act → Prop) : MemOp → Prop
  | .act a _ _ _ => A a
  | _ => True

/-- The command only calls actions that are so. -/
inductive Acting (A : Act → Prop) {α : Type} : Cmd α → Prop
  | pure (a) : Acting A (.pure a)
  | fault (e) : Acting A (.fault e)
  | isEmpty {k} : (∀ b, Acting A (k b)) → Acting A (.isEmpty k)
  | isFinal {k} : (∀ b, Acting A (k b)) → Acting A (.isFinal k)
  | next {k} : (∀ b, Acting A (k b)) → Acting A (.next k)
  | advance {k} : Acting A k → Acting A (.advance k)
  | prepare {k} : Acting A k → Acting A (.prepare k)
  | commit {k} : Acting A k → Acting A (.commit k)
  | cancel {k} : Acting A k → Acting A (.cancel k)
  | mem {o k} : o.Acts A → Acting A k → Acting A (.mem o k)
  | alloc {t k} : (∀ r, Acting A (k r)) → Acting A (.alloc t k)
  | call {p d b st k} : p.Acts A → (∀ r s, Acting A (k r s)) → Acting A (.call p d b st k)

theorem Acting.bind {α β : Type} {x : Cmd α} {k : α → Cmd β} (hx : Acting A x)
    (hk : ∀ a, Acting A (k a)) : Acting A (x.bind k) := by
  induction hx with
  | pure a => exact hk _
  | fault e => exact .fault e
  | isEmpty _ ih => exact .isEmpty ih
  | isFinal _ ih => exact .isFinal ih
  | next _ ih => exact .next ih
  | advance _ ih => exact .advance ih
  | prepare _ ih => exact .prepare ih
  | commit _ ih => exact .commit ih
  | cancel _ ih => exact .cancel ih
  | mem h _ ih => exact .mem h ih
  | alloc _ ih => exact .alloc ih
  | call h1 _ ih => exact .call h1 ih

theorem mk_acting (p : Prog) (dst bnd : Ref) : Acting A (mk p dst bnd) := by
  fun_induction mk p dst bnd
  all_goals first
    | exact .fault _
    | exact .pure _
    | exact .mem trivial (.pure _)
    | (rename_i ih; exact ih.bind fun _ => .pure _)
    | (rename_i ih; exact ih.bind fun _ => .prepare (.pure _))
    | (rename_i ih; exact .alloc fun r => (ih r).bind fun _ => .pure _)
    | (rename_i ih1 ih2; exact ih1.bind fun _ => ih2.bind fun _ => .pure _)

theorem guarded_acting {st} {X : Cmd Step} {B : Ch → Cmd Step} (hA : Acting A X)
    (hB : ∀ c, Acting A (B c)) : Acting A (guarded st X B) := by
  refine .isEmpty fun e => ?_
  split
  · refine .isFinal fun f => ?_
    split
    · exact hA
    · exact .pure _
  · exact .next hB

theorem body_acting {env : Env} (he : env.ActsP A) (p : Prog) (dst bnd : Ref) (st : PState)
    (hp : p.Acts A) : Acting A (body env p dst bnd st) := by
  have hmk : ∀ {q d b} {f : PState → PState},
      Acting A ((mk q d b).bind fun c => contS (f c)) := (mk_acting _ _ _).bind fun _ => .pure _
  have hneg : ∀ {neg dst} {k : Cmd Step}, Acting A k → Acting A (negIf neg dst k) := by
    intro neg dst k hk
    unfold negIf
    split
    · exact .mem trivial hk
    · exact hk
  unfold body
  split
  all_goals first
    | exact .pure _
    | exact .fault _
    | skip
  -- char
  · refine guarded_acting (.pure _) fun c => ?_
    split
    · exact .mem trivial (.advance (.pure _))
    · exact .pure _
  -- charSymbol
  · refine guarded_acting (.pure _) fun c => ?_
    split
    · exact .pure _
    · exact .mem trivial (.pure _)
  -- strLit
  · split
    · exact .pure _
    · refine guarded_acting (.pure _) fun c => ?_
      split
      · exact .advance (.pure _)
      · exact .pure _
  -- symbol
  · rename_i n v
    have hhit : ∀ {n' x v}, Acting A
        (if (Node.child n').isEmpty then .mem (.assign dst x) (retS .SUCCESS (.symbol n' v))
          else .prepare (contS (.symbol n' (some x)))) := by
      intro n' x v
      split
      · exact .mem trivial (.pure _)
      · exact .prepare (.pure _)
    cases v with
    | none =>
      refine guarded_acting (.pure _) fun c => ?_
      split
      · exact .pure _
      · refine .advance ?_
        rename_i n' _
        cases n'.val with
        | none => exact .pure _
        | some x => exact hhit
    | some y =>
      refine guarded_acting (.mem trivial (.commit (.pure _))) fun c => ?_
      split
      · exact .mem trivial (.commit (.pure _))
      · refine .advance ?_
        rename_i n' _
        cases n'.val with
        | none => exact .pure _
        | some x => exact .cancel hhit
  -- uint
  · refine guarded_acting (.pure _) fun c => ?_
    split
    · refine .mem trivial (.advance ?_)
      split <;> exact .pure _
    · exact .pure _
  -- int
  · refine guarded_acting (hneg (.pure _)) fun c => ?_
    split
    · exact .advance (.pure _)
    · split
      · exact .advance (.pure _)
      · split
        · refine .mem trivial (.advance ?_)
          split
          · exact hneg (.pure _)
          · exact .pure _
        · exact hneg (.pure _)
  -- eoi
  · exact guarded_acting (.pure _) fun c => .pure _
  -- seq
  · split
    · rename_i hp' hs'
      split
      · exact .fault _
      · refine .call (Prog.ActsAll.get hp hp') fun r c' => ?_
        split
        · split
          · split
            · exact .fault _
            · exact hmk
          · exact .pure _
        · exact .pure _
    · exact .fault _
  -- alt
  · split
    · rename_i hp'
      refine .call (Prog.ActsAll.get hp hp') fun r c' => ?_
      split
      · split
        · exact hmk
        · exact .pure _
      · exact .pure _
    · exact .fault _
  -- rep
  · refine .call hp fun r c' => ?_
    split
    · exact .pure _
    · exact .pure _
    · split
      · exact .pure _
      · exact hmk
  -- opt
  · refine .call hp fun r c' => ?_
    split
    · exact .pure _
    · exact .commit (.pure _)
    · exact .pure _
  -- not
  · refine .call hp fun r c' => ?_
    split
    · exact .commit (.pure _)
    · exact .commit (.pure _)
    · exact .pure _
  -- discard, lexeme, bindDst
  · exact .call hp fun r c' => .pure _
  · exact .call hp fun r c' => .pure _
  · exact .call hp fun r c' => .pure _
  -- construct
  · refine .call hp fun r c' => ?_
    split
    · exact .mem trivial (.pure _)
    · exact .pure _
  -- action
  · refine .call hp.2 fun r c' => ?_
    split
    · exact .mem hp.1 (.pure _)
    · exact .pure _
  -- except
  · refine .call hp.2 fun r c' => ?_
    split
    · exact .pure _
    · exact .pure _
    · exact hmk
  · exact .call hp.1 fun r c' => .pure _
  -- list
  · refine .call hp.1 fun r c' => ?_
    split
    · exact .cancel (.prepare hmk)
    · exact .commit (.pure _)
    · exact .pure _
  · refine .call hp.2 fun r c' => ?_
    split
    · exact hmk
    · exact .commit (.pure _)
    · exact .pure _
  -- withSkipper
  · exact .call hp fun r c' => .pure _
  -- recur
  · split
    · exact .fault _
    · exact hmk
  · split
    · exact .fault _
    · rename_i q hq
      exact .call (he _ _ _ hq hp) fun r c' => .pure _
  -- atomic
  · refine .call hp fun r c' => ?_
    split
    · exact .mem trivial (.pure _)
    · exact .pure _
  -- clean
  · refine .call hp fun r c' => ?_
    split
    · exact .cancel (.pure _)
    · exact .commit (.pure _)
    · exact .pure _
  -- skip
  · refine .call hp.1 fun r c' => ?_
    split
    · exact (mk_acting _ _ _).bind fun _ => .pure _
    · exact .pure _
    · exact .pure _
  · exact .call hp.2 fun r c' => .pure _

end

end Abu
