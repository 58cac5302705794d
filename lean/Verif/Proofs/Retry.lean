import Verif.Spec.Retry
import Verif.Proofs.Exec
import Verif.Proofs.Shape
/-
Parser objects used again after an exception.
-/
namespace Abu

/-- Commands without calls of children and actions. -/
def Cmd.calm {α : Type} : Cmd α → Prop
  | .pure _ => True
  | .fault _ => True
  | .isEmpty k => ∀ b, (k b).calm
  | .isFinal k => ∀ b, (k b).calm
  | .next k => ∀ c, (k c).calm
  | .advance k => k.calm
  | .prepare k => k.calm
  | .commit k => k.calm
  | .cancel k => k.calm
  | .mem o k => (∀ a l d b, o ≠ .act a l d b) ∧ k.calm
  | .alloc _ k => ∀ r, (k r).calm
  | .call .. => False

theorem Cmd.calm_bind {α β : Type} (x : Cmd α) (f : α → Cmd β) (hx : x.calm) (hf : ∀ a, (f a).calm) :
    (x.bind f).calm := by
  induction x with
  | pure a => exact hf a
  | fault e => exact hx
  | isEmpty k ih => exact fun b => ih b (hx b)
  | isFinal k ih => exact fun b => ih b (hx b)
  | next k ih => exact fun b => ih b (hx b)
  | advance k ih => exact ih hx
  | prepare k ih => exact ih hx
  | commit k ih => exact ih hx
  | cancel k ih => exact ih hx
  | mem o k ih => exact ⟨hx.1, ih hx.2⟩
  | alloc t k ih => exact fun r => ih r (hx r)
  | call => exact hx.elim

theorem calm_mk (p : Prog) (dst bnd : Ref) : (mk p dst bnd).calm := by
  fun_induction mk p dst bnd
  case case29 s p dst bnd ih1 ih2 =>
    exact Cmd.calm_bind _ _ ih1 fun _ => Cmd.calm_bind _ _ ih2 fun _ => trivial
  all_goals first
    | exact trivial
    | (rename_i ih; exact Cmd.calm_bind _ _ ih fun _ => trivial)
    | (rename_i ih; exact fun r => Cmd.calm_bind _ _ (ih r) fun _ => trivial)
    | exact ⟨fun _ _ _ _ h => (by cases h), trivial⟩

theorem calm_guarded {st : PState} {e : Cmd Step} {f : Ch → Cmd Step} (he : e.calm)
    (hf : ∀ c, (f c).calm) : (guarded st e f).calm := by
  intro b
  show Cmd.calm (ite _ _ _)
  split
  · intro b
    show Cmd.calm (ite _ _ _)
    split
    · exact he
    · exact trivial
  · exact hf

theorem calm_cont {q d b} {f : PState → PState} : ((mk q d b).bind fun c => contS (f c)).calm :=
  Cmd.calm_bind _ _ (calm_mk q d b) fun _ => trivial

theorem calm_neg {b d} {k : Cmd Step} (h : k.calm) : (negIf b d k).calm := by
  unfold negIf; split
  · exact ⟨nofun, h⟩
  · exact h

section
variable {σ : Type} [DataSource σ]

theorem throwsOut_none {M T} {m : Mem} {o} (h : ∀ a l d b, o ≠ .act a l d b) :
    m.throwsOut M T o = none := by
  cases o with
  | act a l d b => exact absurd rfl (h a l d b)
  | _ => rfl

theorem throws_none' {T} {m : Mem} {o} (h : ∀ a l d b, o ≠ .act a l d b) :
    m.throws T o = none := by
  cases o with
  | act a l d b => exact absurd rfl (h a l d b)
  | _ => rfl

/-- The outcome of a command that throws nothing. -/
def liftR {α : Type} : Out σ Mem α → OutR σ α
  | .ok x => .ok x
  | .error e => .error (.err e)

/-- A call that the machine does not make. -/
def noCall : Prog → Ref → Ref → PState → World σ Mem → Out σ Mem (Res × PState) :=
  fun _ _ _ _ _ => .error .stuck

theorem execR_calm {M T st f} {x : Cmd Step} (hx : x.calm) (w : World σ Mem) :
    execR M T st f x w = liftR (exec noCall x w) := by
  induction x generalizing w with
  | pure a => rfl
  | fault e => rfl
  | isEmpty k ih => exact ih _ (hx _) w
  | isFinal k ih => exact ih _ (hx _) w
  | next k ih =>
    simp only [execR, exec]
    cases DataSource.next w.ds with
    | none => rfl
    | some c => exact ih _ (hx _) w
  | advance k ih =>
    simp only [execR, exec]
    cases DataSource.advance w.ds with
    | none => rfl
    | some c => exact ih hx _
  | prepare k ih => exact ih hx _
  | commit k ih =>
    simp only [execR, exec]
    cases DataSource.commit w.ds with
    | none => rfl
    | some c => exact ih hx _
  | cancel k ih =>
    simp only [execR, exec]
    cases DataSource.cancel w.ds with
    | none => rfl
    | some c => exact ih hx _
  | mem o k ih =>
    simp only [execR, exec, throwsOut_none hx.1, Store.op]
    cases w.mem.run o with
    | error e => rfl
    | ok m => exact ih hx.2 _
  | alloc t k ih => exact ih _ (hx _) _
  | call => exact hx.elim

theorem execP_calm {T n f} {x : Cmd Step} (hx : x.calm) (w : World σ Mem) :
    execP T (n + 1) f x w = exec noCall x w := by
  induction x generalizing w with
  | pure a => rfl
  | fault e => rfl
  | isEmpty k ih => exact ih _ (hx _) w
  | isFinal k ih => exact ih _ (hx _) w
  | next k ih =>
    simp only [execP, exec]
    cases DataSource.next w.ds with
    | none => rfl
    | some c => exact ih _ (hx _) w
  | advance k ih =>
    simp only [execP, exec]
    cases DataSource.advance w.ds with
    | none => rfl
    | some c => exact ih hx _
  | prepare k ih => exact ih hx _
  | commit k ih =>
    simp only [execP, exec]
    cases DataSource.commit w.ds with
    | none => rfl
    | some c => exact ih hx _
  | cancel k ih =>
    simp only [execP, exec]
    cases DataSource.cancel w.ds with
    | none => rfl
    | some c => exact ih hx _
  | mem o k ih =>
    simp only [execP, exec, Mem.persist, throws_none' hx.1, Store.op]
    cases w.mem.run o with
    | error e => rfl
    | ok m => exact ih hx.2 _
  | alloc t k ih => exact ih _ (hx _) _
  | call => exact hx.elim

end

/-! ### The shape of an iteration -/

/-- What the parser object does when its child has returned. -/
inductive After (p p' : Prog) (d dst bnd : Ref) (st : PState) (k : Res → PState → Cmd Step) : Prop
  | calm : (∀ r c, (k r c).calm) → After p p' d dst bnd st k
  | act {a} : p = .action a p' → (∀ r c, r ≠ .SUCCESS → (k r c).calm) →
      (∀ c, k .SUCCESS c = .mem (.act a d dst bnd) (retS .SUCCESS (st.put c))) →
      After p p' d dst bnd st k

theorem PState.put_put (st c c' : PState) : (st.put c).put c' = st.put c' := by
  cases st <;> first | rfl | (rename_i b _ _; cases b <;> rfl)

/-- The definitions of the `Recur`s are retriable. -/
def Env.retriable' (env : Env) : Prop :=
  ∀ id q sk, env id = some q → sk.retriable = true → (elabP sk RecurChildReqs q).retriable = true

/-- One iteration: nothing that throws, or a call of a child and something that throws at most at
the end. -/
inductive RShape (env : Env) (p : Prog) (dst bnd : Ref) (st : PState) : Prop
  | calm : (body env p dst bnd st).calm → RShape env p dst bnd st
  | call (p' d b c k) : (env.retriable' → p.retriable = true → p'.retriable = true) →
      (∀ c1, body env p dst bnd (st.put c1) = .call p' d b c1 k) →
      st.put c = st → After p p' d dst bnd st k → RShape env p dst bnd st

theorem retriables_get {ps : List Prog} {i : Nat} {p} (h : Prog.retriables ps = true)
    (hi : ps[i]? = some p) : p.retriable = true := by
  induction ps generalizing i with
  | nil => cases hi
  | cons q ps ih =>
    simp only [Prog.retriables, Bool.and_eq_true] at h
    cases i with
    | zero => cases hi; exact h.1
    | succ i => exact ih h.2 hi

theorem rshape (env : Env) (p : Prog) (dst bnd : Ref) (st : PState) : RShape env p dst bnd st := by
  have hcalm : ∀ {st'}, (body env p dst bnd st').calm → RShape env p dst bnd st' := fun h => .calm h
  cases p with
  | char s =>
    cases st <;> refine .calm ?_ <;> simp only [body] <;> first
      | exact trivial
      | (refine calm_guarded trivial fun c => ?_
         split
         · exact ⟨nofun, trivial⟩
         · exact trivial)
  | charSymbol s =>
    cases st <;> refine .calm ?_ <;> simp only [body] <;> first
      | exact trivial
      | (refine calm_guarded trivial fun c => ?_
         split
         · exact trivial
         · exact ⟨nofun, trivial⟩)
  | strLit s =>
    cases st <;> refine .calm ?_ <;> simp only [body] <;> try exact trivial
    split
    · exact trivial
    · refine calm_guarded trivial fun c => ?_
      split <;> exact trivial
  | symbol s =>
    cases st <;> refine .calm ?_ <;> simp only [body] <;> try exact trivial
    rename_i n v
    have hs : (match v with
      | some x => Cmd.mem (.assign dst x) (.commit (retS .SUCCESS (.symbol n v)))
      | none => retS .FAILURE (.symbol n v)).calm := by
      split
      · exact ⟨nofun, trivial⟩
      · exact trivial
    refine calm_guarded hs fun c => ?_
    split
    · exact hs
    · show Cmd.calm _
      split
      · exact trivial
      · split
        · show Cmd.calm (ite _ _ _)
          split
          · exact ⟨nofun, trivial⟩
          · exact trivial
        · split
          · exact ⟨nofun, trivial⟩
          · exact trivial
  | uint b mn mx =>
    cases st <;> refine .calm ?_ <;> simp only [body] <;> try exact trivial
    refine calm_guarded trivial fun c => ?_
    split
    · refine ⟨nofun, ?_⟩
      show Cmd.calm (ite _ _ _)
      split <;> exact trivial
    · exact trivial
  | int b mn mx =>
    cases st <;> refine .calm ?_ <;> simp only [body] <;> try exact trivial
    refine calm_guarded (calm_neg trivial) fun c => ?_
    split
    · exact trivial
    · split
      · exact trivial
      · split
        · refine ⟨nofun, ?_⟩
          show Cmd.calm (ite _ _ _)
          split
          · exact calm_neg trivial
          · exact trivial
        · exact calm_neg trivial
  | eoi =>
    cases st <;> refine .calm ?_ <;> simp only [body] <;> first
      | exact trivial
      | exact calm_guarded trivial fun c => trivial
  | pass => cases st <;> refine .calm ?_ <;> simp only [body] <;> first | exact trivial | exact trivial
  | fail => cases st <;> refine .calm ?_ <;> simp only [body] <;> first | exact trivial | exact trivial
  | seq slots ps =>
    cases st <;> try exact .calm (by simp only [body]; exact trivial)
    rename_i i c
    cases hp : ps[i]? with
    | none => exact .calm (by simp only [body, hp]; exact trivial)
    | some p =>
      cases hs : slots[i]? with
      | none => exact .calm (by simp only [body, hp, hs]; exact trivial)
      | some s =>
        cases hd : seqDst dst s with
        | none => exact .calm (by simp only [body, hp, hs, hd]; exact trivial)
        | some d =>
          refine .call p d bnd c _ (fun _ h => retriables_get h hp)
            (fun c1 => by simp only [PState.put, body, hp, hs, hd]; rfl) rfl (.calm fun r c' => ?_)
          split
          · split
            · split
              · exact trivial
              · exact calm_cont
            · exact trivial
          · exact trivial
  | alt ps =>
    cases st <;> try exact .calm (by simp only [body]; exact trivial)
    rename_i i c
    cases hp : ps[i]? with
    | none => exact .calm (by simp only [body, hp]; exact trivial)
    | some p =>
      refine .call p dst bnd c _ (fun _ h => retriables_get h hp)
        (fun c1 => by simp only [PState.put, body, hp]; rfl) rfl (.calm fun r c' => ?_)
      split
      · split
        · exact calm_cont
        · exact trivial
      · exact trivial
  | rep mn mx p =>
    cases st <;> try exact .calm (by simp only [body]; exact trivial)
    refine .call p dst bnd _ _ (fun _ h => h) (fun c1 => by simp only [PState.put, body]; rfl) rfl
      (.calm fun r c' => ?_)
    split
    · exact trivial
    · exact trivial
    · split
      · exact trivial
      · exact calm_cont
  | opt p =>
    cases st <;> try exact .calm (by simp only [body]; exact trivial)
    refine .call p dst bnd _ _ (fun _ h => h) (fun c1 => by simp only [PState.put, body]; rfl) rfl
      (.calm fun r c' => ?_)
    split <;> exact trivial
  | not p =>
    cases st <;> try exact .calm (by simp only [body]; exact trivial)
    refine .call p dst bnd _ _ (fun _ h => h) (fun c1 => by simp only [PState.put, body]; rfl) rfl
      (.calm fun r c' => ?_)
    split <;> exact trivial
  | discard p =>
    cases st <;> try exact .calm (by simp only [body]; exact trivial)
    exact .call p .nil bnd _ _ (fun _ h => h) (fun c1 => by simp only [PState.put, body]; rfl) rfl
      (.calm fun r c' => by exact trivial)
  | lexeme p =>
    cases st <;> try exact .calm (by simp only [body]; exact trivial)
    exact .call p dst bnd _ _ (fun _ h => h) (fun c1 => by simp only [PState.put, body]; rfl) rfl
      (.calm fun r c' => by exact trivial)
  | bindDst p =>
    cases st <;> try exact .calm (by simp only [body]; exact trivial)
    exact .call p dst dst _ _ (fun _ h => h) (fun c1 => by simp only [PState.put, body]; rfl) rfl
      (.calm fun r c' => by exact trivial)
  | withSkipper p =>
    cases st <;> try exact .calm (by simp only [body]; exact trivial)
    exact .call p dst bnd _ _ (fun _ h => h) (fun c1 => by simp only [PState.put, body]; rfl) rfl
      (.calm fun r c' => by exact trivial)
  | construct tys p =>
    cases st <;> try exact .calm (by simp only [body]; exact trivial)
    rename_i buf c
    refine .call p buf bnd _ _ (fun _ h => h) (fun c1 => by simp only [PState.put, body]; rfl) rfl
      (.calm fun r c' => ?_)
    split
    · exact ⟨nofun, trivial⟩
    · exact trivial
  | atomic p =>
    cases st <;> try exact .calm (by simp only [body]; exact trivial)
    rename_i buf c
    refine .call p buf bnd _ _ (fun _ h => h) (fun c1 => by simp only [PState.put, body]; rfl) rfl
      (.calm fun r c' => ?_)
    split
    · exact ⟨nofun, trivial⟩
    · exact trivial
  | clean p =>
    cases st <;> try exact .calm (by simp only [body]; exact trivial)
    refine .call p dst bnd _ _ (fun _ h => h) (fun c1 => by simp only [PState.put, body]; rfl) rfl
      (.calm fun r c' => ?_)
    split <;> exact trivial
  | action a p =>
    cases st <;> try exact .calm (by simp only [body]; exact trivial)
    rename_i land c
    refine .call p land bnd _ _ (fun _ h => ?_) (fun c1 => by simp only [PState.put, body]; rfl) rfl
      (.act rfl (fun r c' hr => ?_) (fun c' => rfl))
    · simp only [Prog.retriable, Bool.and_eq_true] at h; exact h.2
    · cases r
      · exact absurd rfl hr
      · exact trivial
      · exact trivial
  | except op neg =>
    cases st <;> try exact .calm (by simp only [body]; exact trivial)
    rename_i inOp c
    cases inOp
    · refine .call neg .nil bnd _ _ (fun _ h => ?_) (fun c1 => by simp only [PState.put, body]; rfl) rfl
        (.calm fun r c' => ?_)
      · simp only [Prog.retriable, Bool.and_eq_true] at h; exact h.2
      · split
        · exact trivial
        · exact trivial
        · exact calm_cont
    · refine .call op dst bnd _ _ (fun _ h => ?_) (fun c1 => by simp only [PState.put, body]; rfl) rfl
        (.calm fun r c' => by exact trivial)
      simp only [Prog.retriable, Bool.and_eq_true] at h; exact h.1
  | list op sep =>
    cases st <;> try exact .calm (by simp only [body]; exact trivial)
    rename_i inSep c
    cases inSep
    · refine .call op dst bnd _ _ (fun _ h => ?_) (fun c1 => by simp only [PState.put, body]; rfl) rfl
        (.calm fun r c' => ?_)
      · simp only [Prog.retriable, Bool.and_eq_true] at h; exact h.1
      · split
        · exact calm_cont (f := fun c => .list true c)
        · exact trivial
        · exact trivial
    · refine .call sep .nil bnd _ _ (fun _ h => ?_) (fun c1 => by simp only [PState.put, body]; rfl) rfl
        (.calm fun r c' => ?_)
      · simp only [Prog.retriable, Bool.and_eq_true] at h; exact h.2
      · split
        · exact calm_cont (f := fun c => .list false c)
        · exact trivial
        · exact trivial
  | recur id sk =>
    cases st <;> try exact .calm (by simp only [body]; exact trivial)
    · refine .calm ?_
      simp only [body]
      split
      · exact trivial
      · exact calm_cont
    · cases hq : env id with
      | none => exact .calm (by simp only [body, hq]; exact trivial)
      | some q =>
        exact .call _ dst bnd _ _ (fun he h => he id q sk hq h)
          (fun c1 => by simp only [PState.put, body, hq]; rfl) rfl (.calm fun r c' => by exact trivial)
  | skip s p =>
    cases st <;> try exact .calm (by simp only [body]; exact trivial)
    rename_i done sc c
    cases done
    · refine .call s .nil .nil _ _ (fun _ h => ?_) (fun c1 => by simp only [PState.put, body]; rfl) rfl
        (.calm fun r c' => ?_)
      · simp only [Prog.retriable, Bool.and_eq_true] at h; exact h.1
      · split
        · exact calm_cont (f := fun x => .skip false x c)
        · exact trivial
        · exact trivial
    · refine .call p dst bnd _ _ (fun _ h => ?_) (fun c1 => by simp only [PState.put, body]; rfl) rfl
        (.calm fun r c' => by exact trivial)
      simp only [Prog.retriable, Bool.and_eq_true] at h; exact h.2


/-! ### More steps change nothing -/

theorem persist_mono {T n n'} {m : Mem} {o r} (h : m.persist T n o = r) (hr : r ≠ .error .fuel)
    (hn : n ≤ n') : m.persist T n' o = r := by
  induction n generalizing n' m with
  | zero => exact absurd h.symm hr
  | succ n ih =>
    cases n' with
    | zero => omega
    | succ n' =>
      simp only [Mem.persist] at h ⊢
      cases ht : m.throws T o with
      | none => rw [ht] at h; exact h
      | some x =>
        rw [ht] at h
        cases x with
        | error e => exact h
        | ok m1 => exact ih h (by omega)

section
variable {σ : Type} [DataSource σ]

theorem execP_mono {T n n'} (hn : n ≤ n')
    {f g : Prog → Ref → Ref → PState → World σ Mem → Out σ Mem (Res × PState)}
    (hf : ∀ p d b st w, f p d b st w ≠ .error .fuel → g p d b st w = f p d b st w)
    {α : Type} (x : Cmd α) (w : World σ Mem) (h : execP T n f x w ≠ .error .fuel) :
    execP T n' g x w = execP T n f x w := by
  induction x generalizing w with
  | pure a => rfl
  | fault e => rfl
  | isEmpty k ih => exact ih _ w h
  | isFinal k ih => exact ih _ w h
  | next k ih =>
    simp only [execP] at h ⊢
    cases hc : DataSource.next w.ds with
    | none => rfl
    | some c => rw [hc] at h; exact ih _ w h
  | advance k ih =>
    simp only [execP] at h ⊢
    cases hc : DataSource.advance w.ds with
    | none => rfl
    | some c => rw [hc] at h; exact ih _ h
  | prepare k ih => exact ih _ h
  | commit k ih =>
    simp only [execP] at h ⊢
    cases hc : DataSource.commit w.ds with
    | none => rfl
    | some c => rw [hc] at h; exact ih _ h
  | cancel k ih =>
    simp only [execP] at h ⊢
    cases hc : DataSource.cancel w.ds with
    | none => rfl
    | some c => rw [hc] at h; exact ih _ h
  | mem o k ih =>
    simp only [execP] at h ⊢
    cases hc : w.mem.persist T n o with
    | error e =>
      rw [hc] at h
      rw [persist_mono hc (fun he => h (by cases he; rfl)) hn]
    | ok m => rw [hc] at h; rw [persist_mono hc (by simp) hn]; exact ih _ h
  | alloc t k ih => exact ih _ _ h
  | call p d b st k ih =>
    simp only [execP] at h ⊢
    have := hf p d b st w
    cases hc : f p d b st w with
    | error e =>
      rw [hc] at h this
      rw [this (fun he => h (by cases he; rfl))]
    | ok y => obtain ⟨⟨r, st'⟩, w'⟩ := y; rw [hc] at h this; rw [this (by simp)]; exact ih _ _ _ h

theorem persisting_mono (T env) {n n'} (hn : n ≤ n') (p dst bnd st) (w : World σ Mem)
    (h : persisting T env n p dst bnd st w ≠ .error .fuel) :
    persisting T env n' p dst bnd st w = persisting T env n p dst bnd st w := by
  induction n generalizing n' p dst bnd st w with
  | zero => exact absurd rfl h
  | succ n ih =>
    cases n' with
    | zero => omega
    | succ n' =>
      have hm := execP_mono (T := T) (n := n + 1) (n' := n' + 1) hn
        (f := persisting T env n) (g := persisting T env n')
        (fun p d b st w h => ih (by omega) p d b st w h) (body env p dst bnd st) w
      simp only [persisting] at h ⊢
      cases hx : execP T (n + 1) (persisting T env n) (body env p dst bnd st) w with
      | error e =>
        rw [hx] at h hm
        rw [hm (fun he => h (by cases he; rfl))]
      | ok y =>
        rw [hx] at h hm
        rw [hm (by simp)]
        obtain ⟨s, w'⟩ := y
        cases s with
        | ret r st' => rfl
        | cont st' => exact ih (by omega) _ _ _ _ _ h

theorem execR_mono {M T st}
    {f g : Prog → Ref → Ref → PState → World σ Mem → OutR σ (Res × PState)}
    (hf : ∀ p d b st w, f p d b st w ≠ .error (.err .fuel) → g p d b st w = f p d b st w)
    (x : Cmd Step) (w : World σ Mem) (h : execR M T st f x w ≠ .error (.err .fuel)) :
    execR M T st g x w = execR M T st f x w := by
  induction x generalizing w with
  | pure a => rfl
  | fault e => rfl
  | isEmpty k ih => exact ih _ w h
  | isFinal k ih => exact ih _ w h
  | next k ih =>
    simp only [execR] at h ⊢
    cases hc : DataSource.next w.ds with
    | none => rfl
    | some c => rw [hc] at h; exact ih _ w h
  | advance k ih =>
    simp only [execR] at h ⊢
    cases hc : DataSource.advance w.ds with
    | none => rfl
    | some c => rw [hc] at h; exact ih _ h
  | prepare k ih => exact ih _ h
  | commit k ih =>
    simp only [execR] at h ⊢
    cases hc : DataSource.commit w.ds with
    | none => rfl
    | some c => rw [hc] at h; exact ih _ h
  | cancel k ih =>
    simp only [execR] at h ⊢
    cases hc : DataSource.cancel w.ds with
    | none => rfl
    | some c => rw [hc] at h; exact ih _ h
  | mem o k ih =>
    simp only [execR] at h ⊢
    cases hc : w.mem.throwsOut M T o with
    | some x => cases x <;> rfl
    | none =>
      rw [hc] at h
      cases hr : w.mem.run o with
      | error e => rfl
      | ok m => rw [hr] at h; exact ih _ h
  | alloc t k ih => exact ih _ _ h
  | call p d b s k ih =>
    simp only [execR] at h ⊢
    have := hf p d b s w
    cases hc : f p d b s w with
    | error e =>
      rw [hc] at h this
      cases e with
      | err e => rw [this (fun he => h (by cases he; rfl))]
      | thrown s1 w1 => rw [this (by simp)]
    | ok y => obtain ⟨⟨r, st'⟩, w'⟩ := y; rw [hc] at h this; rw [this (by simp)]; exact ih _ _ _ h

theorem runR_mono (M T env) {n n'} (hn : n ≤ n') (p dst bnd st) (w : World σ Mem)
    (h : runR M T env n p dst bnd st w ≠ .error (.err .fuel)) :
    runR M T env n' p dst bnd st w = runR M T env n p dst bnd st w := by
  induction n generalizing n' p dst bnd st w with
  | zero => exact absurd rfl h
  | succ n ih =>
    cases n' with
    | zero => omega
    | succ n' =>
      have hm := execR_mono (M := M) (T := T) (st := st)
        (f := runR M T env n) (g := runR M T env n')
        (fun p d b st w h => ih (by omega) p d b st w h) (body env p dst bnd st) w
      simp only [runR] at h ⊢
      cases hx : execR M T st (runR M T env n) (body env p dst bnd st) w with
      | error e =>
        rw [hx] at h hm
        rw [hm (fun he => h (by cases he; rfl))]
      | ok y =>
        rw [hx] at h hm
        rw [hm (by simp)]
        obtain ⟨s, w'⟩ := y
        cases s with
        | ret r st' => rfl
        | cont st' => exact ih (by omega) _ _ _ _ _ h

theorem retried_mono (M T env) {n n' k k'} (hn : n ≤ n') (hk : k ≤ k') (p dst bnd st) (w : World σ Mem)
    (h : retried M T env n k p dst bnd st w ≠ .error .fuel) :
    retried M T env n' k' p dst bnd st w = retried M T env n k p dst bnd st w := by
  induction k generalizing k' st w with
  | zero => exact absurd rfl h
  | succ k ih =>
    cases k' with
    | zero => omega
    | succ k' =>
      have hm := runR_mono M T env hn p dst bnd st w
      simp only [retried] at h ⊢
      cases hx : runR M T env n p dst bnd st w with
      | ok x => rw [hx] at hm; rw [hm (by simp)]
      | error e =>
        rw [hx] at h hm
        cases e with
        | err e => rw [hm (fun he => h (by cases he; rfl))]
        | thrown s1 w1 => rw [hm (by simp)]; exact ih (by omega) _ _ h

/-! ### Calling `consume` until no exception leaves it -/

/-- The same without bounds. -/
inductive Again (M : Moved) (T : Throwing) (env : Env) (p : Prog) (dst bnd : Ref) :
    PState → World σ Mem → Out σ Mem (Res × PState) → Prop
  | ok {n st w x} : runR M T env n p dst bnd st w = .ok x → Again M T env p dst bnd st w (.ok x)
  | err {n st w e} : runR M T env n p dst bnd st w = .error (.err e) → e ≠ .fuel →
      Again M T env p dst bnd st w (.error e)
  | more {n st w st' w' o} : runR M T env n p dst bnd st w = .error (.thrown st' w') →
      Again M T env p dst bnd st' w' o → Again M T env p dst bnd st w o

theorem again_iff {M T env p dst bnd st} {w : World σ Mem} {o} :
    EvalsBy (retrying M T env) p dst bnd st w o ↔ Again M T env p dst bnd st w o := by
  constructor
  · rintro ⟨ho, n, h⟩
    unfold retrying at h
    have : ∀ k st (w : World σ Mem), retried M T env n k p dst bnd st w = o →
        Again M T env p dst bnd st w o := by
      intro k
      induction k with
      | zero => intro st w h; exact absurd h.symm ho
      | succ k ih =>
        intro st w h
        simp only [retried] at h
        cases hx : runR M T env n p dst bnd st w with
        | ok x => rw [hx] at h; subst h; exact .ok hx
        | error e =>
          rw [hx] at h
          cases e with
          | err e => subst h; exact .err hx (fun he => ho (by rw [he]))
          | thrown s1 w1 => exact .more hx (ih _ _ h)
    exact this n st w h
  · intro h
    suffices ∃ n k, retried M T env n k p dst bnd st w = o ∧ o ≠ .error .fuel by
      obtain ⟨n, k, h, ho⟩ := this
      refine ⟨ho, max n k, ?_⟩
      subst h
      exact retried_mono M T env (Nat.le_max_left n k) (Nat.le_max_right n k) _ _ _ _ _ ho
    induction h with
    | @ok n _ _ x h => exact ⟨n, 1, by simp [retried, h], by simp⟩
    | @err n _ _ e h he => exact ⟨n, 1, by simp [retried, h], by simp [he]⟩
    | @more n st w st' w' o h _ ih =>
      obtain ⟨n', k, h', ho⟩ := ih
      refine ⟨max n n', k + 1, ?_, ho⟩
      simp only [retried]
      rw [runR_mono M T env (Nat.le_max_left n n') _ _ _ _ _ (by rw [h]; simp), h]
      subst h'
      exact retried_mono M T env (Nat.le_max_right n n') (Nat.le_refl k) _ _ _ _ _ ho

/-! ### Parser objects that settle -/

/-- Called again, the parser object returns `r` and changes nothing. -/
def Idle (M : Moved) (T : Throwing) (env : Env) (p : Prog) (dst bnd : Ref) (r : Res) (st : PState)
    (ds : σ) : Prop :=
  ∃ N, ∀ n, N ≤ n → ∀ m : Mem, runR M T env n p dst bnd st ⟨ds, m⟩ = .ok ((r, st), ⟨ds, m⟩)

theorem execR_call_ok {M T st} {f : Prog → Ref → Ref → PState → World σ Mem → OutR σ (Res × PState)}
    {p d b s k} {w : World σ Mem} {x} (h : execR M T st f (.call p d b s k) w = .ok x) :
    ∃ r s' w1, f p d b s w = .ok ((r, s'), w1) ∧ execR M T st f (k r s') w1 = .ok x := by
  simp only [execR] at h
  cases hc : f p d b s w with
  | error e => rw [hc] at h; cases e <;> cases h
  | ok y => obtain ⟨⟨r, s'⟩, w1⟩ := y; rw [hc] at h; exact ⟨r, s', w1, rfl, h⟩

/-- The result of an iteration. -/
theorem runR_succ_ok {M T env n p dst bnd st} {w : World σ Mem} {r st' w'}
    (h : runR M T env (n + 1) p dst bnd st w = .ok ((r, st'), w')) :
    execR M T st (runR M T env n) (body env p dst bnd st) w = .ok (.ret r st', w') ∨
      ∃ st1 w1, execR M T st (runR M T env n) (body env p dst bnd st) w = .ok (.cont st1, w1) ∧
        runR M T env n p dst bnd st1 w1 = .ok ((r, st'), w') := by
  simp only [runR] at h
  cases hx : execR M T st (runR M T env n) (body env p dst bnd st) w with
  | error e => rw [hx] at h; cases h
  | ok y =>
    rw [hx] at h
    obtain ⟨s, w1⟩ := y
    cases s with
    | ret r1 st1 => simp only [Except.ok.injEq, Prod.mk.injEq] at h; obtain ⟨⟨rfl, rfl⟩, rfl⟩ := h; exact .inl rfl
    | cont st1 => exact .inr ⟨st1, w1, rfl, h⟩

theorem Idle.step {M T env p dst bnd r st} {ds : σ}
    (h : ∃ N, ∀ n, N ≤ n → ∀ m : Mem,
      execR M T st (runR M T env n) (body env p dst bnd st) ⟨ds, m⟩ = .ok (.ret r st, ⟨ds, m⟩)) :
    Idle M T env p dst bnd r st ds := by
  obtain ⟨N, h⟩ := h
  refine ⟨N + 1, fun n hn m => ?_⟩
  cases n with
  | zero => omega
  | succ n => simp only [runR, h n (by omega) m]

/-- From the child. -/
theorem Idle.parent {M T env p dst bnd r st p' d b c k} {ds : σ} {r'}
    (hb : body env p dst bnd st = .call p' d b c k) (hk : k r' c = retS r st)
    (h : Idle M T env p' d b r' c ds) : Idle M T env p dst bnd r st ds := by
  obtain ⟨N, h⟩ := h
  exact .step ⟨N, fun n hn m => by rw [hb]; simp only [execR, h n hn m, hk]⟩

/-- `SUCCESS` or `FAILURE`. -/
def Res.ofBool (ok : Bool) : Res := if ok then .SUCCESS else .FAILURE

theorem allSettle_get {ok} {ps : List Prog} {i : Nat} {p} (h : Prog.allSettle ok ps = true)
    (hi : ps[i]? = some p) : p.settles ok = true := by
  induction ps generalizing i with
  | nil => cases hi
  | cons q ps ih =>
    simp only [Prog.allSettle, Bool.and_eq_true] at h
    cases i with
    | zero => cases hi; exact h.1
    | succ i => exact ih h.2 hi

theorem lastSettles_get {ok} {ps : List Prog} {i : Nat} {p} (h : Prog.lastSettles ok ps = true)
    (hi : ps[i]? = some p) (hl : ps[i + 1]? = none) : p.settles ok = true := by
  induction ps generalizing i with
  | nil => cases hi
  | cons q ps ih =>
    cases ps with
    | nil =>
      cases i with
      | zero => cases hi; exact h
      | succ i => cases hi
    | cons q' ps =>
      cases i with
      | zero => cases hl
      | succ i => exact ih h hi hl

/-- A leaf parser at the end of the text, or at a character. -/
theorem execR_guarded {M T st f st0} {e : Cmd Step} {g : Ch → Cmd Step} {w : World σ Mem} {x}
    (h : execR M T st f (guarded st0 e g) w = .ok x) :
    (DataSource.empty w.ds = true ∧ DataSource.final w.ds = true ∧ execR M T st f e w = .ok x) ∨
    (DataSource.empty w.ds = true ∧ DataSource.final w.ds = false ∧ x = (.ret .PARTIAL st0, w)) ∨
    (∃ c, DataSource.empty w.ds = false ∧ DataSource.next w.ds = some c ∧
      execR M T st f (g c) w = .ok x) := by
  unfold guarded at h
  simp only [execR] at h
  split at h
  · rename_i he
    simp only [execR] at h
    split at h
    · rename_i hf; exact .inl ⟨he, hf, h⟩
    · rename_i hf; cases h; exact .inr (.inl ⟨he, by simpa using hf, rfl⟩)
  · rename_i he
    simp only [execR] at h
    cases hn : DataSource.next w.ds with
    | none => rw [hn] at h; cases h
    | some c => rw [hn] at h; exact .inr (.inr ⟨c, by simpa using he, rfl, h⟩)

theorem Idle.leaf {M T env p dst bnd r st e} {g : Ch → Cmd Step} {ds : σ}
    (hb : body env p dst bnd st = guarded st e g)
    (h : (DataSource.empty ds = true ∧ DataSource.final ds = true ∧ e = retS r st) ∨
      (∃ c, DataSource.empty ds = false ∧ DataSource.next ds = some c ∧ g c = retS r st)) :
    Idle M T env p dst bnd r st ds := by
  refine .step ⟨0, fun n _ m => ?_⟩
  rw [hb]
  unfold guarded
  rcases h with ⟨h1, h2, h3⟩ | ⟨c, h1, h2, h3⟩
  · simp only [execR, h1, h2, h3, if_true]
  · simp only [execR, h1, h2, h3, Bool.false_eq_true, if_false]

theorem execR_ret {M T st f r st'} {w : World σ Mem} {x}
    (h : execR M T st f (retS r st') w = .ok x) : x = (.ret r st', w) := by
  simp only [execR, Except.ok.injEq] at h; exact h.symm

/-- How an iteration may end. -/
def Cmd.Post (Q : Step → Prop) : Cmd Step → Prop
  | .pure a => Q a
  | .fault _ => True
  | .isEmpty k => ∀ b, (k b).Post Q
  | .isFinal k => ∀ b, (k b).Post Q
  | .next k => ∀ c, (k c).Post Q
  | .advance k => k.Post Q
  | .prepare k => k.Post Q
  | .commit k => k.Post Q
  | .cancel k => k.Post Q
  | .mem _ k => k.Post Q
  | .alloc _ k => ∀ r, (k r).Post Q
  | .call _ _ _ _ k => ∀ r c, (k r c).Post Q

theorem execR_post {M T st f Q} {x : Cmd Step} (hx : x.Post Q) {w : World σ Mem} {s w'}
    (h : execR M T st f x w = .ok (s, w')) : Q s := by
  induction x generalizing w with
  | pure a => cases h; exact hx
  | fault e => cases h
  | isEmpty k ih => exact ih _ (hx _) h
  | isFinal k ih => exact ih _ (hx _) h
  | next k ih =>
    simp only [execR] at h
    cases hc : DataSource.next w.ds with
    | none => rw [hc] at h; cases h
    | some c => rw [hc] at h; exact ih _ (hx _) h
  | advance k ih =>
    simp only [execR] at h
    cases hc : DataSource.advance w.ds with
    | none => rw [hc] at h; cases h
    | some c => rw [hc] at h; exact ih hx h
  | prepare k ih => exact ih hx h
  | commit k ih =>
    simp only [execR] at h
    cases hc : DataSource.commit w.ds with
    | none => rw [hc] at h; cases h
    | some c => rw [hc] at h; exact ih hx h
  | cancel k ih =>
    simp only [execR] at h
    cases hc : DataSource.cancel w.ds with
    | none => rw [hc] at h; cases h
    | some c => rw [hc] at h; exact ih hx h
  | mem o k ih =>
    simp only [execR] at h
    cases hc : w.mem.throwsOut M T o with
    | some x => rw [hc] at h; cases x <;> cases h
    | none =>
      rw [hc] at h
      cases hr : w.mem.run o with
      | error e => rw [hr] at h; cases h
      | ok m => rw [hr] at h; exact ih hx h
  | alloc t k ih => exact ih _ (hx _) h
  | call p d b s1 k ih =>
    obtain ⟨r, s', w1, _, h⟩ := execR_call_ok h
    exact ih _ _ (hx _ _) h

theorem post_bind_r {α : Type} {Q} (x : Cmd α) (f : α → Cmd Step) (hf : ∀ a, (f a).Post Q) :
    (x.bind f).Post Q := by
  induction x with
  | pure a => exact hf a
  | fault e => trivial
  | isEmpty k ih => exact fun b => ih b
  | isFinal k ih => exact fun b => ih b
  | next k ih => exact fun b => ih b
  | advance k ih => exact ih
  | prepare k ih => exact ih
  | commit k ih => exact ih
  | cancel k ih => exact ih
  | mem o k ih => exact ih
  | alloc t k ih => exact fun r => ih r
  | call p d b s k ih => exact fun r c => ih r c

/-- The iteration does not end `consume` with `r`. -/
def NotRet (r : Res) (s : Step) : Prop := ∀ st, s ≠ .ret r st

theorem notRet {M T st f r} {x : Cmd Step} (hx : x.Post (NotRet r)) {w : World σ Mem} {st' w'}
    (h : execR M T st f x w = .ok (.ret r st', w')) : False := execR_post hx h st' rfl

theorem notRet_cont {q d b r} {f : PState → PState} :
    ((mk q d b).bind fun c => contS (f c)).Post (NotRet r) :=
  post_bind_r _ _ fun _ _ h => by cases h

theorem settles_idle {M T env ok} (n) (p : Prog) (hp : p.settles ok = true) (dst bnd st) (w : World σ Mem)
    (st' w') (h : runR M T env n p dst bnd st w = .ok ((Res.ofBool ok, st'), w')) :
    Idle M T env p dst bnd (Res.ofBool ok) st' w'.ds := by
  induction n generalizing p ok dst bnd st w st' w' with
  | zero => cases h
  | succ n ih =>
    rcases runR_succ_ok h with h1 | ⟨st1, w1, _, h2⟩
    rotate_left
    · exact ih p hp _ _ _ _ _ _ h2
    clear h
    have h := h1
    clear h1
    have hstuck : body env p dst bnd st = .fault .stuck →
        Idle M T env p dst bnd (Res.ofBool ok) st' w'.ds := by
      intro hb
      rw [hb] at h
      cases h
    have hret : ∀ {x : Cmd Step} {r st1} {w1 : World σ Mem},
        execR M T st (runR M T env n) (retS r st1) w1 = .ok (.ret (Res.ofBool ok) st', w') →
        r = Res.ofBool ok ∧ st1 = st' ∧ w1 = w' := by
      intro x r st1 w1 h
      have := execR_ret h
      simp only [Prod.mk.injEq, Step.ret.injEq] at this
      obtain ⟨⟨h1, h2⟩, h3⟩ := this
      exact ⟨h1.symm, h2.symm, h3.symm⟩
    -- leaf parsers
    have hleaf : ∀ {e} {g : Ch → Cmd Step}, body env p dst bnd st = guarded st e g →
        (e.Post (NotRet (Res.ofBool ok)) ∨ ∃ r, e = retS r st) →
        (∀ c, (g c).Post (NotRet (Res.ofBool ok)) ∨ ∃ r, g c = retS r st) →
        Idle M T env p dst bnd (Res.ofBool ok) st' w'.ds := by
      intro e g hb he hg
      rw [hb] at h
      rcases execR_guarded h with ⟨h1, h2, h3⟩ | ⟨h1, h2, h3⟩ | ⟨c, h1, h2, h3⟩
      · rcases he with he | ⟨r, he⟩
        · exact (notRet he h3).elim
        · rw [he] at h3
          obtain ⟨hr, rfl, rfl⟩ := hret (x := e) h3
          exact .leaf hb (.inl ⟨h1, h2, by rw [he, hr]⟩)
      · cases ok <;> cases h3
      · rcases hg c with he | ⟨r, he⟩
        · exact (notRet he h3).elim
        · rw [he] at h3
          obtain ⟨hr, rfl, rfl⟩ := hret (x := e) h3
          exact .leaf hb (.inr ⟨c, h1, h2, by rw [he, hr]⟩)
    -- parsers with a child
    have hchild : ∀ (p' : Prog) (d b : Ref) (c : PState) (k : Res → PState → Cmd Step),
        body env p dst bnd st = .call p' d b c k →
        (∀ c1, body env p dst bnd (st.put c1) = .call p' d b c1 k) →
        (∀ r c1, (k r c1).Post (NotRet (Res.ofBool ok)) ∨
          ∃ ok', r = Res.ofBool ok' ∧ p'.settles ok' = true ∧ ∃ r', k r c1 = retS r' (st.put c1)) →
        Idle M T env p dst bnd (Res.ofBool ok) st' w'.ds := by
      intro p' d b c k hb hb' hk
      rw [hb] at h
      obtain ⟨r, c', w1, h1, h2⟩ := execR_call_ok h
      rcases hk r c' with hk | ⟨ok', rfl, hp', r', hk⟩
      · exact (notRet hk h2).elim
      · rw [hk] at h2
        obtain ⟨hr, rfl, rfl⟩ := hret (x := .fault .stuck) h2
        exact (ih p' hp' _ _ _ _ _ _ h1).parent (hb' c') (by rw [hk, hr])
    have hpass : ∀ (p' : Prog) (r : Res) (c1 : PState), p'.settles ok = true →
        (retS r (st.put c1)).Post (NotRet (Res.ofBool ok)) ∨
          ∃ ok', r = Res.ofBool ok' ∧ p'.settles ok' = true ∧
            ∃ r', retS r (st.put c1) = retS r' (st.put c1) := by
      intro p' r c1 hp'
      by_cases hr : r = Res.ofBool ok
      · exact .inr ⟨ok, hr, hp', r, rfl⟩
      · exact .inl fun s hs => hr (by cases hs; rfl)
    have hpart : ∀ s, NotRet (Res.ofBool ok) (.ret .PARTIAL s) := by
      intro s st h; cases ok <;> cases h
    cases p with
    | strLit s =>
      cases st <;> try exact hstuck rfl
      rename_i k
      cases hk : s[k]? with
      | none =>
        simp only [body, hk] at h
        obtain ⟨hr, rfl, rfl⟩ := hret (x := .fault .stuck) h
        exact .step ⟨0, fun n _ m => by simp only [body, hk, execR, hr]⟩
      | some e =>
        refine hleaf (by simp only [body, hk]; rfl) (.inr ⟨_, rfl⟩) fun c => ?_
        split
        · exact .inl nofun
        · exact .inr ⟨_, rfl⟩
    | eoi =>
      cases st <;> try exact hstuck rfl
      exact hleaf rfl (.inr ⟨_, rfl⟩) fun c => .inr ⟨_, rfl⟩
    | pass =>
      cases st <;> try exact hstuck rfl
      obtain ⟨hr, rfl, rfl⟩ := hret (x := .fault .stuck) h
      exact .step ⟨0, fun n _ m => by simp only [body, execR, hr]⟩
    | fail =>
      cases st <;> try exact hstuck rfl
      obtain ⟨hr, rfl, rfl⟩ := hret (x := .fault .stuck) h
      exact .step ⟨0, fun n _ m => by simp only [body, execR, hr]⟩
    | char s =>
      cases ok with
      | true => cases hp
      | false =>
      cases st <;> try exact hstuck rfl
      refine hleaf rfl (.inr ⟨_, rfl⟩) fun c => ?_
      split
      · exact .inl nofun
      · exact .inr ⟨_, rfl⟩
    | charSymbol s =>
      cases ok with
      | true => cases hp
      | false =>
      cases st <;> try exact hstuck rfl
      refine hleaf rfl (.inr ⟨_, rfl⟩) fun c => ?_
      split
      · exact .inr ⟨_, rfl⟩
      · exact .inl nofun
    | uint b mn mx =>
      cases st <;> try exact hstuck rfl
      rename_i k
      refine hleaf rfl (.inr ⟨_, rfl⟩) fun c => ?_
      split
      · left
        show Cmd.Post _ (ite _ _ _)
        split
        · rename_i hmx
          cases ok with
          | false => exact nofun
          | true =>
            simp only [Prog.settles, Bool.not_true, Bool.false_or, beq_iff_eq] at hp
            omega
        · exact nofun
      · exact .inr ⟨_, rfl⟩
    | symbol s =>
      cases ok with
      | true => cases hp
      | false =>
      cases st <;> try exact hstuck rfl
      rename_i nd v
      have hgo : ∀ n' : Node, Cmd.Post (NotRet (Res.ofBool false)) (.advance
          (match n'.val with
          | none => contS (.symbol n' v)
          | some x =>
            let hit : Cmd Step :=
              if n'.child.isEmpty then .mem (.assign dst x) (retS .SUCCESS (.symbol n' v))
              else .prepare (contS (.symbol n' (some x)))
            if v.isSome then .cancel hit else hit)) := by
        intro n'
        show Cmd.Post _ _
        split
        · exact nofun
        · show Cmd.Post _ (ite _ _ _)
          split
          · show Cmd.Post _ (ite _ _ _)
            split <;> exact nofun
          · split <;> exact nofun
      cases v with
      | none =>
        refine hleaf rfl (.inr ⟨_, rfl⟩) fun c => ?_
        cases hf : nd.child.find c with
        | none => exact .inr ⟨_, rfl⟩
        | some n' => exact .inl (hgo n')
      | some x =>
        refine hleaf rfl (.inl nofun) fun c => ?_
        cases hf : nd.child.find c with
        | none => exact .inl nofun
        | some n' => exact .inl (hgo n')
    | discard p =>
      cases st <;> try exact hstuck rfl
      exact hchild p .nil bnd _ _ rfl (fun _ => rfl) fun r c1 => hpass p r c1 hp
    | lexeme p =>
      cases st <;> try exact hstuck rfl
      exact hchild p dst bnd _ _ rfl (fun _ => rfl) fun r c1 => hpass p r c1 hp
    | bindDst p =>
      cases st <;> try exact hstuck rfl
      exact hchild p dst dst _ _ rfl (fun _ => rfl) fun r c1 => hpass p r c1 hp
    | withSkipper p =>
      cases st <;> try exact hstuck rfl
      exact hchild p dst bnd _ _ rfl (fun _ => rfl) fun r c1 => hpass p r c1 hp
    | skip s p =>
      cases st <;> try exact hstuck rfl
      rename_i done sc c
      cases done with
      | true => exact hchild p dst bnd _ _ rfl (fun _ => rfl) fun r c1 => hpass p r c1 hp
      | false =>
        refine hchild s .nil .nil _ _ rfl (fun _ => rfl) fun r c1 => .inl ?_
        cases r with
        | SUCCESS => exact notRet_cont (f := fun x => .skip false x c)
        | FAILURE => exact nofun
        | PARTIAL => exact hpart _
    | seq slots ps =>
      simp only [Prog.settles, Bool.and_eq_true, beq_iff_eq] at hp
      obtain ⟨hlen, hp⟩ := hp
      cases st <;> try exact hstuck rfl
      rename_i i c
      cases hpi : ps[i]? with
      | none => exact hstuck (by simp only [body, hpi])
      | some p =>
        cases hs : slots[i]? with
        | none => exact hstuck (by simp only [body, hpi, hs])
        | some s =>
          cases hd : seqDst dst s with
          | none => simp only [body, hpi, hs, hd] at h; cases h
          | some d =>
            refine hchild p d bnd c _ (by simp only [body, hpi, hs, hd]; rfl)
              (fun c1 => by simp only [PState.put, body, hpi, hs, hd]) fun r c1 => ?_
            cases r with
            | PARTIAL => exact .inl (hpart _)
            | FAILURE =>
              cases ok with
              | true => exact .inl nofun
              | false => exact .inr ⟨false, rfl, allSettle_get hp hpi, _, rfl⟩
            | SUCCESS =>
              cases hpn : ps[i + 1]? with
              | some p1 =>
                left
                have hlt := (List.getElem?_eq_some_iff.1 hpn).1
                rw [List.getElem?_eq_getElem (show i + 1 < slots.length by omega)]
                dsimp only
                split
                · trivial
                · exact notRet_cont
              | none =>
                cases ok with
                | false => exact .inl nofun
                | true => exact .inr ⟨true, rfl, lastSettles_get hp hpi hpn, _, rfl⟩
    | alt ps =>
      cases st <;> try exact hstuck rfl
      rename_i i c
      cases hpi : ps[i]? with
      | none => exact hstuck (by simp only [body, hpi])
      | some p =>
        refine hchild p dst bnd c _ (by simp only [body, hpi]; rfl)
          (fun c1 => by simp only [PState.put, body, hpi]) fun r c1 => ?_
        cases r with
        | PARTIAL => exact .inl (hpart _)
        | SUCCESS =>
          cases ok with
          | false => exact .inl nofun
          | true => exact .inr ⟨true, rfl, allSettle_get hp hpi, _, rfl⟩
        | FAILURE =>
          cases hpn : ps[i + 1]? with
          | some p1 => exact .inl notRet_cont
          | none =>
            cases ok with
            | true => exact .inl nofun
            | false => exact .inr ⟨false, rfl, lastSettles_get hp hpi hpn, _, rfl⟩
    | rep mn mx p =>
      simp only [Prog.settles, Bool.and_eq_true, Bool.or_eq_true, Bool.not_eq_true', beq_iff_eq] at hp
      cases st <;> try exact hstuck rfl
      refine hchild p dst bnd _ _ rfl (fun _ => rfl) fun r c1 => ?_
      cases r with
      | PARTIAL => exact .inl (hpart _)
      | FAILURE => exact .inr ⟨false, rfl, hp.2, _, rfl⟩
      | SUCCESS =>
        left
        show Cmd.Post _ (ite _ _ _)
        split
        · rename_i hm
          rcases hp.1 with rfl | h0
          · exact nofun
          · exact absurd h0 hm.1
        · exact notRet_cont
    | except op neg =>
      cases st <;> try exact hstuck rfl
      rename_i inOp c
      cases inOp with
      | true =>
        refine hchild op dst bnd _ _ rfl (fun _ => rfl) fun r c1 => hpass op r c1 ?_
        cases ok with
        | true => exact hp
        | false => simp only [Prog.settles, Bool.false_eq_true, if_false, Bool.and_eq_true] at hp; exact hp.1
      | false =>
        refine hchild neg .nil bnd _ _ rfl (fun _ => rfl) fun r c1 => ?_
        cases r with
        | PARTIAL => exact .inl (hpart _)
        | FAILURE => exact .inl notRet_cont
        | SUCCESS =>
          cases ok with
          | true => exact .inl nofun
          | false =>
            simp only [Prog.settles, Bool.false_eq_true, if_false, Bool.and_eq_true] at hp
            exact .inr ⟨true, rfl, hp.2, _, rfl⟩
    | action a p =>
      simp only [Prog.settles, Bool.and_eq_true, Bool.not_eq_true'] at hp
      cases st <;> try exact hstuck rfl
      obtain ⟨rfl, hp⟩ := hp
      refine hchild p _ bnd _ _ rfl (fun _ => rfl) fun r c1 => ?_
      cases r with
      | PARTIAL => exact .inl (hpart _)
      | FAILURE => exact .inr ⟨false, rfl, hp, _, rfl⟩
      | SUCCESS => exact .inl nofun
    | construct a p =>
      simp only [Prog.settles, Bool.and_eq_true, Bool.not_eq_true'] at hp
      cases st <;> try exact hstuck rfl
      obtain ⟨rfl, hp⟩ := hp
      refine hchild p _ bnd _ _ rfl (fun _ => rfl) fun r c1 => ?_
      cases r with
      | PARTIAL => exact .inl (hpart _)
      | FAILURE => exact .inr ⟨false, rfl, hp, _, rfl⟩
      | SUCCESS => exact .inl nofun
    | atomic p =>
      simp only [Prog.settles, Bool.and_eq_true, Bool.not_eq_true'] at hp
      cases st <;> try exact hstuck rfl
      obtain ⟨rfl, hp⟩ := hp
      refine hchild p _ bnd _ _ rfl (fun _ => rfl) fun r c1 => ?_
      cases r with
      | PARTIAL => exact .inl (hpart _)
      | FAILURE => exact .inr ⟨false, rfl, hp, _, rfl⟩
      | SUCCESS => exact .inl nofun
    | int => cases hp
    | opt => cases hp
    | not => cases hp
    | list => cases hp
    | recur => cases hp
    | clean => cases hp

end
end Abu
