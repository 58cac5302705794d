import Verif.Proofs.Exec
/-
Every iteration of every `consume` has one of three shapes: it does not look at the data; it
is a leaf that looks at one character; it calls one child.
-/
namespace Abu

/-- Commands that neither read the data nor call children; their results satisfy `P`. -/
inductive Plain {α : Type} (P : α → Prop) : Cmd α → Prop
  | pure {a} : P a → Plain P (.pure a)
  | fault (e) : Plain P (.fault e)
  | prepare {k} : Plain P k → Plain P (.prepare k)
  | commit {k} : Plain P k → Plain P (.commit k)
  | cancel {k} : Plain P k → Plain P (.cancel k)
  | mem (o) {k} : Plain P k → Plain P (.mem o k)
  | alloc (t) {k} : (∀ r, Plain P (k r)) → Plain P (.alloc t k)

theorem Plain.bind {α β : Type} {P : α → Prop} {Q : β → Prop} {c : Cmd α} {f : α → Cmd β}
    (h : Plain P c) (hf : ∀ a, P a → Plain Q (f a)) : Plain Q (c.bind f) := by
  induction h with
  | pure ha => exact hf _ ha
  | fault e => exact .fault e
  | prepare _ ih => exact .prepare ih
  | commit _ ih => exact .commit ih
  | cancel _ ih => exact .cancel ih
  | mem o _ ih => exact .mem o ih
  | alloc t _ ih => exact .alloc t ih

theorem mk_plain (p : Prog) : ∀ dst bnd, Plain (fun _ => True) (mk p dst bnd) := by
  intro dst bnd
  fun_induction mk p dst bnd
  all_goals first
    | exact .pure trivial
    | exact .fault _
    | exact .mem _ (.pure trivial)
    | (rename_i ih; exact ih.bind fun _ _ => .pure trivial)
    | (rename_i ih; exact ih.bind fun _ _ => .prepare (.pure trivial))
    | (rename_i ih; exact .alloc _ fun r => (ih r).bind fun _ _ => .pure trivial)
    | (rename_i ih1 ih2; exact ih1.bind fun _ _ => ih2.bind fun _ _ => .pure trivial)

/-- The iteration does not return `PARTIAL`. -/
def NoPartial : Step → Prop
  | .ret r _ => r ≠ .PARTIAL
  | .cont _ => True

/-- Plain except for at most one `advance`. -/
inductive PlainAdv : Cmd Step → Prop
  | plain {c} : Plain NoPartial c → PlainAdv c
  | mem (o) {k} : PlainAdv k → PlainAdv (.mem o k)
  | advance {k} : Plain NoPartial k → PlainAdv (.advance k)

/-- The possible shapes of an iteration. -/
inductive Shape (env : Env) (p : Prog) (dst bnd : Ref) (st : PState) : Prop
  | plain : Plain NoPartial (body env p dst bnd st) → Shape env p dst bnd st
  | leaf (A : Cmd Step) (B : Ch → Cmd Step) : body env p dst bnd st = guarded st A B →
      Plain NoPartial A → (∀ c, PlainAdv (B c)) → Shape env p dst bnd st
  | child (cp : Prog) (cd cb : Ref) (cs : PState) (rebuild : PState → PState)
      (k : Res → PState → Cmd Step) : st = rebuild cs →
      (∀ c, body env p dst bnd (rebuild c) = .call cp cd cb c k) →
      (∀ c, k .PARTIAL c = retS .PARTIAL (rebuild c)) →
      (∀ r c, r ≠ .PARTIAL → Plain NoPartial (k r c)) → Shape env p dst bnd st

theorem Plain.ret {r : Res} {st} (h : r ≠ .PARTIAL) : Plain NoPartial (retS r st) := .pure h
theorem Plain.cont {st} : Plain NoPartial (contS st) := .pure trivial

theorem mk_cont (p dst bnd) (f : PState → PState) :
    Plain NoPartial ((mk p dst bnd).bind fun c => contS (f c)) :=
  (mk_plain p dst bnd).bind fun _ _ => .cont

theorem enough_ne (n m : Nat) : enough n m ≠ .PARTIAL := by
  unfold enough; split <;> simp

theorem negIf_plain {neg dst k} (h : Plain NoPartial k) : Plain NoPartial (negIf neg dst k) := by
  unfold negIf; split
  · exact .mem _ h
  · exact h

theorem shape (env : Env) (p dst bnd st) : Shape env p dst bnd st := by
  cases p with
  | char s =>
    cases st <;> first | exact .plain (.fault _) | skip
    refine .leaf _ _ rfl (.ret (by simp)) fun c => ?_
    split
    · exact .mem _ (.advance (.ret (by simp)))
    · exact .plain (.ret (by simp))
  | charSymbol m =>
    cases st <;> first | exact .plain (.fault _) | skip
    refine .leaf _ _ rfl (.ret (by simp)) fun c => ?_
    split
    · exact .plain (.ret (by simp))
    · exact .mem _ (.plain (.ret (by simp)))
  | strLit s =>
    cases st <;> first | exact .plain (.fault _) | skip
    rename_i k
    cases hk : s[k]? with
    | none => refine .plain ?_; simp only [body, hk]; exact .ret (by simp)
    | some e =>
      refine .leaf (retS .FAILURE (.strLit k)) _ (by simp only [body, hk]; rfl) (.ret (by simp))
        fun c => ?_
      split
      · exact .advance .cont
      · exact .plain (.ret (by simp))
  | symbol r =>
    cases st <;> first | exact .plain (.fault _) | skip
    rename_i n v
    have hstop : Plain NoPartial (match v with
      | some x => Cmd.mem (.assign dst x) (.commit (retS .SUCCESS (.symbol n v)))
      | none => retS .FAILURE (.symbol n v)) := by
      split
      · exact .mem _ (.commit (.ret (by simp)))
      · exact .ret (by simp)
    refine .leaf _ _ rfl hstop fun c => ?_
    split
    · exact .plain hstop
    · refine .advance ?_
      split
      · exact .cont
      · split <;> dsimp only <;> split
        · exact .cancel (.mem _ (.ret (by simp)))
        · exact .mem _ (.ret (by simp))
        · exact .cancel (.prepare .cont)
        · exact .prepare .cont
  | uint b mn mx =>
    cases st <;> first | exact .plain (.fault _) | skip
    rename_i n
    refine .leaf _ _ rfl (.ret (enough_ne _ _)) fun c => ?_
    split
    · refine .mem _ (.advance ?_)
      split
      · exact .ret (by simp)
      · exact .cont
    · exact .plain (.ret (enough_ne _ _))
  | int b mn mx =>
    cases st <;> first | exact .plain (.fault _) | skip
    rename_i n look neg
    refine .leaf _ _ rfl (negIf_plain (.ret (enough_ne _ _))) fun c => ?_
    split
    · exact .advance .cont
    · split
      · exact .advance .cont
      · split
        · refine .mem _ (.advance ?_)
          split
          · exact negIf_plain (.ret (by simp))
          · exact .cont
        · exact .plain (negIf_plain (.ret (enough_ne _ _)))
  | eoi =>
    cases st <;> first | exact .plain (.fault _) | skip
    exact .leaf _ _ rfl (.ret (by simp)) fun c => .plain (.ret (by simp))
  | pass =>
    cases st <;> first | exact .plain (.fault _) | skip
    exact .plain (.ret (by simp))
  | fail =>
    cases st <;> first | exact .plain (.fault _) | skip
    exact .plain (.ret (by simp))
  | seq slots ps =>
    cases st <;> first | exact .plain (.fault _) | skip
    rename_i i c
    cases hp : ps[i]? with
    | none => refine .plain ?_; simp only [body, hp]; exact .fault _
    | some p =>
      cases hs : slots[i]? with
      | none => refine .plain ?_; simp only [body, hp, hs]; exact .fault _
      | some s =>
        cases hd : seqDst dst s with
        | none => refine .plain ?_; simp only [body, hp, hs, hd]; exact .fault _
        | some d =>
          refine .child p d bnd c (.seq i) _ rfl
            (fun c => by simp only [body, hp, hs, hd]; rfl) (fun c => rfl) ?_
          intro r c' hr
          cases r with
          | PARTIAL => exact absurd rfl hr
          | FAILURE => exact .ret (by simp)
          | SUCCESS =>
            simp only
            split
            · split
              · exact .fault _
              · exact mk_cont _ _ _ _
            · exact .ret (by simp)
  | alt ps =>
    cases st <;> first | exact .plain (.fault _) | skip
    rename_i i c
    cases hp : ps[i]? with
    | none => refine .plain ?_; simp only [body, hp]; exact .fault _
    | some p =>
      refine .child p dst bnd c (.alt i) _ rfl (fun c => by simp only [body, hp]; rfl)
        (fun c => rfl) ?_
      intro r c' hr
      cases r with
      | PARTIAL => exact absurd rfl hr
      | SUCCESS => exact .ret (by simp)
      | FAILURE =>
        simp only
        split
        · exact mk_cont _ _ _ _
        · exact .ret (by simp)
  | rep mn mx p =>
    cases st <;> first | exact .plain (.fault _) | skip
    rename_i n c
    refine .child p dst bnd c (.rep n) _ rfl (fun c => rfl) (fun c => rfl) ?_
    intro r c' hr
    cases r with
    | PARTIAL => exact absurd rfl hr
    | FAILURE => exact .ret (enough_ne _ _)
    | SUCCESS =>
      simp only
      split
      · exact .ret (by simp)
      · exact mk_cont _ _ _ _
  | opt p =>
    cases st <;> first | exact .plain (.fault _) | skip
    rename_i c
    refine .child p dst bnd c .wrap _ rfl (fun c => rfl) (fun c => rfl) ?_
    intro r c' hr
    cases r with
    | PARTIAL => exact absurd rfl hr
    | FAILURE => exact .commit (.ret (by simp))
    | SUCCESS => exact .ret (by simp)
  | not p =>
    cases st <;> first | exact .plain (.fault _) | skip
    rename_i c
    refine .child p dst bnd c .wrap _ rfl (fun c => rfl) (fun c => rfl) ?_
    intro r c' hr
    cases r with
    | PARTIAL => exact absurd rfl hr
    | FAILURE => exact .commit (.ret (by simp))
    | SUCCESS => exact .commit (.ret (by simp))
  | discard p =>
    cases st <;> first | exact .plain (.fault _) | skip
    exact .child p .nil bnd _ .wrap _ rfl (fun c => rfl) (fun c => rfl) fun r c hr => .ret hr
  | lexeme p =>
    cases st <;> first | exact .plain (.fault _) | skip
    exact .child p dst bnd _ .wrap _ rfl (fun c => rfl) (fun c => rfl) fun r c hr => .ret hr
  | bindDst p =>
    cases st <;> first | exact .plain (.fault _) | skip
    exact .child p dst dst _ .wrap _ rfl (fun c => rfl) (fun c => rfl) fun r c hr => .ret hr
  | construct tys p =>
    cases st <;> first | exact .plain (.fault _) | skip
    rename_i buf c
    refine .child p buf bnd c (.buffered buf) _ rfl (fun c => rfl) (fun c => rfl) ?_
    intro r c' hr
    cases r with
    | PARTIAL => exact absurd rfl hr
    | FAILURE => exact .ret (by simp)
    | SUCCESS => exact .mem _ (.ret (by simp))
  | action a p =>
    cases st <;> first | exact .plain (.fault _) | skip
    rename_i buf c
    refine .child p buf bnd c (.buffered buf) _ rfl (fun c => rfl) (fun c => rfl) ?_
    intro r c' hr
    cases r with
    | PARTIAL => exact absurd rfl hr
    | FAILURE => exact .ret (by simp)
    | SUCCESS => exact .mem _ (.ret (by simp))
  | except op neg =>
    cases st <;> first | exact .plain (.fault _) | skip
    rename_i b c
    cases b with
    | false =>
      refine .child neg .nil bnd c (.except false) _ rfl (fun c => rfl) (fun c => rfl) ?_
      intro r c' hr
      cases r with
      | PARTIAL => exact absurd rfl hr
      | FAILURE => exact mk_cont _ _ _ _
      | SUCCESS => exact .ret (by simp)
    | true =>
      exact .child op dst bnd c (.except true) _ rfl (fun c => rfl) (fun c => rfl)
        fun r c hr => .ret hr
  | list op sep =>
    cases st <;> first | exact .plain (.fault _) | skip
    rename_i b c
    cases b with
    | false =>
      refine .child op dst bnd c (.list false) _ rfl (fun c => rfl) (fun c => rfl) ?_
      intro r c' hr
      cases r with
      | PARTIAL => exact absurd rfl hr
      | FAILURE => exact .commit (.ret (by simp))
      | SUCCESS => exact .cancel (.prepare (mk_cont _ _ _ _))
    | true =>
      refine .child sep .nil bnd c (.list true) _ rfl (fun c => rfl) (fun c => rfl) ?_
      intro r c' hr
      cases r with
      | PARTIAL => exact absurd rfl hr
      | FAILURE => exact .commit (.ret (by simp))
      | SUCCESS => exact mk_cont _ _ _ _
  | withSkipper p =>
    cases st <;> first | exact .plain (.fault _) | skip
    exact .child p dst bnd _ .wrap _ rfl (fun c => rfl) (fun c => rfl) fun r c hr => .ret hr
  | recur id sk =>
    cases st <;> first | exact .plain (.fault _) | skip
    · cases hq : env id with
      | none => refine .plain ?_; simp only [body, hq]; exact .fault _
      | some q => refine .plain ?_; simp only [body, hq]; exact mk_cont _ _ _ _
    · rename_i c
      cases hq : env id with
      | none => refine .plain ?_; simp only [body, hq]; exact .fault _
      | some q =>
        refine .child (elabP sk RecurChildReqs q) dst bnd c .recurSome
          (fun r c' => retS r (.recurSome c')) rfl (fun c => ?_) (fun c => rfl)
          fun r c hr => .ret hr
        simp only [body, hq]
  | atomic p =>
    cases st <;> first | exact .plain (.fault _) | skip
    rename_i buf c
    refine .child p buf bnd c (.buffered buf) _ rfl (fun c => rfl) (fun c => rfl) ?_
    intro r c' hr
    cases r with
    | PARTIAL => exact absurd rfl hr
    | FAILURE => exact .ret (by simp)
    | SUCCESS => exact .mem _ (.ret (by simp))
  | clean p =>
    cases st <;> first | exact .plain (.fault _) | skip
    rename_i c
    refine .child p dst bnd c .wrap _ rfl (fun c => rfl) (fun c => rfl) ?_
    intro r c' hr
    cases r with
    | PARTIAL => exact absurd rfl hr
    | FAILURE => exact .commit (.ret (by simp))
    | SUCCESS => exact .cancel (.ret (by simp))
  | skip s p =>
    cases st <;> first | exact .plain (.fault _) | skip
    rename_i b sc c
    cases b with
    | false =>
      refine .child s .nil .nil sc (fun sc => .skip false sc c) _ rfl (fun c => rfl)
        (fun c => rfl) ?_
      intro r c' hr
      cases r with
      | PARTIAL => exact absurd rfl hr
      | FAILURE => exact .cont
      | SUCCESS => exact mk_cont _ _ _ _
    | true =>
      exact .child p dst bnd c (fun c => .skip true sc c) _ rfl (fun c => rfl) (fun c => rfl)
        fun r c hr => .ret hr

end Abu
