import Verif.Proofs.Location
/-
The same parser working on other destinations: parsers treat their destinations as black boxes,
so that what happens in one memory can be transported to another one.
-/
namespace Abu

/-- Where the objects of one memory are in another one. -/
abbrev Place := Nat → Nat × List Nat

/-- The same reference in the other memory. -/
def Ref.move (φ : Place) : Ref → Ref
  | .nil => .nil
  | .at o p t => .at (φ o).1 ((φ o).2 ++ p) t

/-- The same operation; the bound destination only matters to actions that use it. -/
inductive OpR (φ : Place) : MemOp → MemOp → Prop
  | zero (d) : OpR φ (.zero d) (.zero (d.move φ))
  | mulAdd (b c d) : OpR φ (.mulAdd b c d) (.mulAdd b c (d.move φ))
  | neg (d) : OpR φ (.neg d) (.neg (d.move φ))
  | assign (d v) : OpR φ (.assign d v) (.assign (d.move φ) v)
  | move (d b) : OpR φ (.move d b) (.move (d.move φ) (b.move φ))
  | construct (d b) : OpR φ (.construct d b) (.construct (d.move φ) (b.move φ))
  | act {a l d b b'} : (a.param = true → b' = b.move φ) →
      OpR φ (.act a l d b) (.act a (l.move φ) (d.move φ) b')

/-- The same parser object. -/
def PState.move (φ : Place) : PState → PState
  | .seq i c => .seq i (c.move φ)
  | .alt i c => .alt i (c.move φ)
  | .rep n c => .rep n (c.move φ)
  | .wrap c => .wrap (c.move φ)
  | .buffered b c => .buffered (b.move φ) (c.move φ)
  | .skip d s c => .skip d (s.move φ) (c.move φ)
  | .except b c => .except b (c.move φ)
  | .list b c => .list b (c.move φ)
  | .recurSome c => .recurSome (c.move φ)
  | .unit => .unit
  | .strLit k => .strLit k
  | .symbol n v => .symbol n v
  | .uint n => .uint n
  | .int n l s => .int n l s
  | .recurNone => .recurNone

/-- The same step. -/
def Step.move (φ : Place) : Step → Step
  | .ret r st => .ret r (st.move φ)
  | .cont st => .cont (st.move φ)

/-- The same command; `C`: what is required of the programs and bound destinations of calls. -/
inductive CmdR (φ : Place) (C : Prog → Ref → Ref → Prop) {α : Type} (f : α → α) :
    Cmd α → Cmd α → Prop
  | pure (a) : CmdR φ C f (.pure a) (.pure (f a))
  | fault (e) : CmdR φ C f (.fault e) (.fault e)
  | isEmpty {k k'} : (∀ b, CmdR φ C f (k b) (k' b)) → CmdR φ C f (.isEmpty k) (.isEmpty k')
  | isFinal {k k'} : (∀ b, CmdR φ C f (k b) (k' b)) → CmdR φ C f (.isFinal k) (.isFinal k')
  | next {k k'} : (∀ b, CmdR φ C f (k b) (k' b)) → CmdR φ C f (.next k) (.next k')
  | advance {k k'} : CmdR φ C f k k' → CmdR φ C f (.advance k) (.advance k')
  | prepare {k k'} : CmdR φ C f k k' → CmdR φ C f (.prepare k) (.prepare k')
  | commit {k k'} : CmdR φ C f k k' → CmdR φ C f (.commit k) (.commit k')
  | cancel {k k'} : CmdR φ C f k k' → CmdR φ C f (.cancel k) (.cancel k')
  | mem {o o' k k'} : OpR φ o o' → CmdR φ C f k k' → CmdR φ C f (.mem o k) (.mem o' k')
  | alloc {t k k'} : (∀ r, CmdR φ C f (k r) (k' (r.move φ))) → CmdR φ C f (.alloc t k) (.alloc t k')
  | call {p b b' st k k'} (d) : C p b b' → (∀ r s, CmdR φ C f (k r s) (k' r (s.move φ))) →
      CmdR φ C f (.call p d b st k) (.call p (d.move φ) b' (st.move φ) k')

theorem CmdR.bind {φ C} {α β : Type} {f : α → α} {g : β → β} {x x' : Cmd α} {k k' : α → Cmd β}
    (hx : CmdR φ C f x x') (hk : ∀ a, CmdR φ C g (k a) (k' (f a))) :
    CmdR φ C g (x.bind k) (x'.bind k') := by
  induction hx with
  | pure a => exact hk a
  | fault e => exact .fault e
  | isEmpty _ ih => exact .isEmpty ih
  | isFinal _ ih => exact .isFinal ih
  | next _ ih => exact .next ih
  | advance _ ih => exact .advance ih
  | prepare _ ih => exact .prepare ih
  | commit _ ih => exact .commit ih
  | cancel _ ih => exact .cancel ih
  | mem h _ ih => exact .mem h ih
  | alloc _ ih => exact .alloc ih
  | call d h1 _ ih => exact .call d h1 ih

theorem move_valueType (φ : Place) (d : Ref) : (d.move φ).valueType = d.valueType := by
  cases d with
  | nil => rfl
  | «at» o p t => cases t <;> rfl

theorem wrapDst_move (φ : Place) (o p t) :
    (wrapDst o p t).move φ = wrapDst (φ o).1 ((φ o).2 ++ p) t := by
  cases t <;> rfl

theorem seqDst_move (φ : Place) (d : Ref) (s : Option Nat) :
    seqDst (d.move φ) s = (seqDst d s).map (Ref.move φ) := by
  cases d with
  | nil => cases s <;> rfl
  | «at» o p t =>
    cases s with
    | none => rfl
    | some k =>
      cases t with
      | tup ts =>
        simp only [Ref.move, seqDst]
        cases ts[k]? with
        | none => rfl
        | some t =>
          simp only [Option.map_some]
          rw [wrapDst_move, List.append_assoc]
      | _ => rfl

theorem mk_move {φ C} (p : Prog) (dst bnd bnd' : Ref) :
    CmdR φ C (PState.move φ) (mk p dst bnd) (mk p (dst.move φ) bnd') := by
  fun_induction mk p dst bnd generalizing bnd'
  case case11 s ss p ps dst bnd d h ih =>
    simp only [mk, seqDst_move, h, Option.map_some]
    exact (ih bnd').bind fun a => .pure _
  case case10 s ss p ps dst bnd h =>
    simp only [mk, seqDst_move, h, Option.map_none]
    exact .fault _
  case case29 s p dst bnd ih1 ih2 =>
    simp only [mk]
    exact (ih1 .nil).bind fun a => (ih2 bnd').bind fun b => .pure _
  all_goals simp only [mk, move_valueType]
  all_goals first
    | exact .fault _
    | exact .pure _
    | exact .mem (.zero _) (.pure _)
    | (rename_i ih; exact (ih bnd').bind fun a => .pure _)
    | (rename_i dst _ ih; exact (ih (Ref.move φ dst)).bind fun a => .pure _)
    | (rename_i ih; exact (ih bnd').bind fun a => .prepare (.pure _))
    | (rename_i ih; exact .alloc fun r => (ih r bnd').bind fun a => .pure _)

/-- The bound destinations correspond, or are never used. -/
def BndR (env : Env) (φ : Place) (p : Prog) (b b' : Ref) : Prop :=
  b' = b.move φ ∨ (p.quiet = true ∧ env.quietP)

theorem BndR.sub {env φ p q b b'} (h : BndR env φ p b b') (hq : p.quiet = true → q.quiet = true) :
    BndR env φ q b b' := h.imp id fun h => ⟨hq h.1, h.2⟩

theorem guarded_move {φ C st A A'} {B B' : Ch → Cmd Step} (hA : CmdR φ C (Step.move φ) A A')
    (hB : ∀ c, CmdR φ C (Step.move φ) (B c) (B' c)) :
    CmdR φ C (Step.move φ) (guarded st A B) (guarded (st.move φ) A' B') := by
  refine .isEmpty fun e => ?_
  cases e
  · exact .next hB
  · refine .isFinal fun f => ?_
    cases f
    · exact .pure (Step.ret .PARTIAL st)
    · exact hA

theorem body_move {env φ} (p : Prog) (dst bnd bnd' : Ref) (st : PState)
    (hb : BndR env φ p bnd bnd') :
    CmdR φ (BndR env φ) (Step.move φ) (body env p dst bnd st)
      (body env p (dst.move φ) bnd' (st.move φ)) := by
  have hmk : ∀ {q d b b'} {f f' : PState → Step}, (∀ c, (f c).move φ = f' (c.move φ)) →
      CmdR φ (BndR env φ) (Step.move φ) ((mk q d b).bind fun c => .pure (f c))
        ((mk q (d.move φ) b').bind fun c => .pure (f' c)) :=
    fun {q d b b' f f'} h => (mk_move q d b b').bind fun a => by
      rw [← h]; exact .pure _
  have hret : ∀ r s, CmdR φ (BndR env φ) (Step.move φ) (retS r s) (retS r (s.move φ)) :=
    fun r s => .pure (Step.ret r s)
  have hcont : ∀ s, CmdR φ (BndR env φ) (Step.move φ) (contS s) (contS (s.move φ)) :=
    fun s => .pure (Step.cont s)
  unfold body
  split
  -- char
  · refine guarded_move (hret _ .unit) fun c => ?_
    split
    · exact .mem (.assign _ _) (.advance (hret _ .unit))
    · exact hret _ .unit
  -- charSymbol
  · refine guarded_move (hret _ .unit) fun c => ?_
    split
    · exact hret _ .unit
    · exact .mem (.assign _ _) (hret _ .unit)
  -- strLit
  · rename_i k
    simp only [PState.move]
    split
    · exact hret _ (.strLit k)
    · refine guarded_move (st := .strLit k) (hret _ (.strLit k)) fun c => ?_
      split
      · exact .advance (hcont (.strLit _))
      · exact hret _ (.strLit k)
  -- symbol
  · rename_i n v
    have hhit : ∀ {n' x v}, CmdR φ (BndR env φ) (Step.move φ)
        (if (Node.child n').isEmpty then .mem (.assign dst x) (retS .SUCCESS (.symbol n' v))
          else .prepare (contS (.symbol n' (some x))))
        (if (Node.child n').isEmpty then
          .mem (.assign (dst.move φ) x) (retS .SUCCESS (.symbol n' v))
          else .prepare (contS (.symbol n' (some x)))) := by
      intro n' x v
      split
      · exact .mem (.assign _ _) (hret _ (.symbol _ _))
      · exact .prepare (hcont (.symbol _ _))
    cases v with
    | none =>
      refine guarded_move (st := .symbol n none) (hret _ (.symbol _ _)) fun c => ?_
      cases n.child.find c with
      | none => exact hret _ (.symbol _ _)
      | some n' =>
        refine .advance ?_
        cases n'.val with
        | none => exact hcont (.symbol _ _)
        | some x => exact hhit
    | some y =>
      refine guarded_move (st := .symbol n (some y))
        (.mem (.assign _ _) (.commit (hret _ (.symbol _ _)))) fun c => ?_
      cases n.child.find c with
      | none => exact .mem (.assign _ _) (.commit (hret _ (.symbol _ _)))
      | some n' =>
        refine .advance ?_
        cases n'.val with
        | none => exact hcont (.symbol _ _)
        | some x => exact .cancel hhit
  -- uint
  · rename_i n
    refine guarded_move (st := .uint n) (hret _ (.uint _)) fun c => ?_
    split
    · refine .mem (.mulAdd _ _ _) (.advance ?_)
      split
      · exact hret _ (.uint _)
      · exact hcont (.uint _)
    · exact hret _ (.uint _)
  -- int
  · rename_i b mn mx n look neg
    have hneg : ∀ {neg r n l s}, CmdR φ (BndR env φ) (Step.move φ)
        (negIf neg dst (retS r (.int n l s))) (negIf neg (dst.move φ) (retS r (.int n l s))) := by
      intro neg r n l s
      unfold negIf
      split
      · exact .mem (.neg _) (hret _ (.int _ _ _))
      · exact hret _ (.int _ _ _)
    refine guarded_move (st := .int n look neg) hneg fun c => ?_
    split
    · exact .advance (hcont (.int _ _ _))
    · split
      · exact .advance (hcont (.int _ _ _))
      · split
        · refine .mem (.mulAdd _ _ _) (.advance ?_)
          split
          · exact hneg
          · exact hcont (.int _ _ _)
        · exact hneg
  -- eoi
  · exact guarded_move (st := .unit) (hret _ .unit) fun c => hret _ .unit
  · exact hret _ .unit
  · exact hret _ .unit
  -- seq
  · rename_i slots ps i c
    simp only [PState.move]
    split
    · rename_i p s hp hs
      rw [seqDst_move]
      cases hd : seqDst dst s with
      | none => exact .fault _
      | some d =>
        refine .call d (hb.sub fun h => Prog.quiets_get h hp) fun r c' => ?_
        cases r with
        | SUCCESS =>
          simp only
          cases ps[i + 1]? with
          | none => exact hret _ (.seq _ _)
          | some p' =>
            cases slots[i + 1]? with
            | none => exact hret _ (.seq _ _)
            | some s' =>
              simp only [seqDst_move]
              cases hd' : seqDst dst s' with
              | none => exact .fault _
              | some d' => exact hmk fun c => rfl
        | FAILURE => exact hret _ (.seq _ _)
        | PARTIAL => exact hret _ (.seq _ _)
    · exact .fault _
  -- alt
  · rename_i ps i c
    simp only [PState.move]
    split
    · rename_i p hp
      refine .call dst (hb.sub fun h => Prog.quiets_get h hp) fun r c' => ?_
      cases r with
      | FAILURE =>
        simp only
        cases ps[i + 1]? with
        | none => exact hret _ (.alt _ _)
        | some p' => exact hmk fun c => rfl
      | SUCCESS => exact hret _ (.alt _ _)
      | PARTIAL => exact hret _ (.alt _ _)
    · exact .fault _
  -- rep
  · rename_i mn mx p n c
    refine .call dst (hb.sub id) fun r c' => ?_
    cases r with
    | FAILURE => exact hret _ (.rep _ _)
    | PARTIAL => exact hret _ (.rep _ _)
    | SUCCESS =>
      simp only
      split
      · exact hret _ (.rep _ _)
      · exact hmk fun c => rfl
  -- opt
  · refine .call dst (hb.sub id) fun r c' => ?_
    cases r with
    | SUCCESS => exact hret _ (.wrap _)
    | FAILURE => exact .commit (hret _ (.wrap _))
    | PARTIAL => exact hret _ (.wrap _)
  -- not
  · refine .call dst (hb.sub id) fun r c' => ?_
    cases r with
    | SUCCESS => exact .commit (hret _ (.wrap _))
    | FAILURE => exact .commit (hret _ (.wrap _))
    | PARTIAL => exact hret _ (.wrap _)
  -- discard, lexeme, bindDst
  · exact .call .nil (hb.sub id) fun r c' => hret _ (.wrap _)
  · exact .call dst (hb.sub id) fun r c' => hret _ (.wrap _)
  · exact .call dst (.inl rfl) fun r c' => hret _ (.wrap _)
  -- construct
  · rename_i buf c
    refine .call buf (hb.sub id) fun r c' => ?_
    cases r with
    | SUCCESS => exact .mem (.construct _ _) (hret _ (.buffered _ _))
    | FAILURE => exact hret _ (.buffered _ _)
    | PARTIAL => exact hret _ (.buffered _ _)
  -- action
  · rename_i a p land c
    refine .call land (hb.sub fun h => by simp only [Prog.quiet, Bool.and_eq_true] at h; exact h.2)
      fun r c' => ?_
    cases r with
    | SUCCESS =>
      refine .mem (.act fun hp => ?_) (hret _ (.buffered _ _))
      rcases hb with hb | hb
      · exact hb
      · simp [Prog.quiet, hp] at hb
    | FAILURE => exact hret _ (.buffered _ _)
    | PARTIAL => exact hret _ (.buffered _ _)
  -- except
  · refine .call .nil (hb.sub fun h => by simp only [Prog.quiet, Bool.and_eq_true] at h; exact h.2)
      fun r c' => ?_
    cases r with
    | PARTIAL => exact hret _ (.except _ _)
    | SUCCESS => exact hret _ (.except _ _)
    | FAILURE => exact hmk fun c => rfl
  · exact .call dst (hb.sub fun h => by simp only [Prog.quiet, Bool.and_eq_true] at h; exact h.1)
      fun r c' => hret _ (.except _ _)
  -- list
  · refine .call dst (hb.sub fun h => by simp only [Prog.quiet, Bool.and_eq_true] at h; exact h.1)
      fun r c' => ?_
    cases r with
    | SUCCESS => exact .cancel (.prepare (hmk fun c => rfl))
    | FAILURE => exact .commit (hret _ (.list _ _))
    | PARTIAL => exact hret _ (.list _ _)
  · refine .call .nil (hb.sub fun h => by simp only [Prog.quiet, Bool.and_eq_true] at h; exact h.2)
      fun r c' => ?_
    cases r with
    | SUCCESS => exact hmk fun c => rfl
    | FAILURE => exact .commit (hret _ (.list _ _))
    | PARTIAL => exact hret _ (.list _ _)
  -- withSkipper
  · exact .call dst (hb.sub id) fun r c' => hret _ (.wrap _)
  -- recur
  · simp only [PState.move]
    split
    · exact .fault _
    · exact hmk fun c => rfl
  · simp only [PState.move]
    split
    · exact .fault _
    · rename_i q hq
      refine .call dst ?_ fun r c' => hret _ (.recurSome _)
      exact hb.imp id fun h => ⟨h.2 _ _ _ hq h.1, h.2⟩
  -- atomic
  · rename_i buf c
    refine .call buf (hb.sub id) fun r c' => ?_
    cases r with
    | SUCCESS => exact .mem (.move _ _) (hret _ (.buffered _ _))
    | FAILURE => exact hret _ (.buffered _ _)
    | PARTIAL => exact hret _ (.buffered _ _)
  -- clean
  · refine .call dst (hb.sub id) fun r c' => ?_
    cases r with
    | SUCCESS => exact .cancel (hret _ (.wrap _))
    | FAILURE => exact .commit (hret _ (.wrap _))
    | PARTIAL => exact hret _ (.wrap _)
  -- skip
  · refine .call .nil (.inl rfl) fun r c' => ?_
    cases r with
    | SUCCESS => exact hmk fun c => rfl
    | FAILURE => exact hcont (.skip _ _ _)
    | PARTIAL => exact hret _ (.skip _ _ _)
  · exact .call dst (hb.sub fun h => by simp only [Prog.quiet, Bool.and_eq_true] at h; exact h.2)
      fun r c' => hret _ (.skip _ _ _)
  -- impossible states
  · cases st with
    | except x c => cases x <;> cases p <;> first | exact .fault _ | (exfalso; simp_all; done)
    | list x c => cases x <;> cases p <;> first | exact .fault _ | (exfalso; simp_all; done)
    | skip x s c =>
      cases x <;> cases p <;> first
        | exact .fault _
        | (exfalso; simp_all; rename_i h; exact h _ _ _ _ rfl rfl rfl rfl)
    | int n l s =>
      cases p <;> first
        | exact .fault _
        | (cases l <;> cases s <;> exfalso <;> simp_all <;> rename_i h <;>
            exact h _ _ _ _ rfl rfl rfl rfl)
    | _ =>
      cases p <;> first
        | exact .fault _
        | (exfalso; simp_all; done)
        | (exfalso; simp_all; rename_i h; exact h _ _ rfl rfl)
        | (exfalso; simp_all; rename_i h; exact h _ _ _ rfl rfl rfl)
        | (exfalso; simp_all; rename_i h; exact h _ _ _ _ rfl rfl rfl rfl)
        | (exfalso; simp_all; rename_i h; exact h _ _ _ _ _ rfl rfl rfl rfl rfl)
        | (exfalso; simp_all; rename_i h; exact h _ _ _ _ _ _ rfl rfl rfl rfl rfl rfl)

/-! ### Memories -/

/-- The first `k` objects of one memory are at disjoint places among the first `k'` objects of the
other one; later objects are created in step. -/
structure Place.Ok (φ : Place) (k k' : Nat) : Prop where
  new : ∀ o, k ≤ o → φ o = (o - k + k', [])
  old : ∀ o, o < k → (φ o).1 < k'
  disjoint : ∀ o o', o ≠ o' → (φ o).1 ≠ (φ o').1 ∨ Diverge (φ o).2 (φ o').2

/-- The objects of `m` are where `φ` says in `m'`, and the same actions have been called. -/
structure MemR (φ : Place) (k k' : Nat) (m m' : Mem) : Prop where
  len : m'.objs.length + k = m.objs.length + k'
  le : k ≤ m.objs.length
  val : ∀ (o : Nat) (v : Val), m.objs[o]? = some v → m'.look (φ o).1 (φ o).2 = .ok v
  log : m'.log = m.log

theorem Diverge.append {p q : List Nat} (h : Diverge p q) (r : List Nat) : Diverge (p ++ r) q := by
  induction h with
  | here h => exact .here h
  | there _ ih => exact .there ih

/-- Updating deep inside is updating the part. -/
theorem update_append {f : Val → Except Err Val} {q p : List Nat} {V v : Val} (h : Val.get q V = .ok v) :
    (∀ e, Val.update f p v = .error e → Val.update f (q ++ p) V = .error e) ∧
    (∀ v', Val.update f p v = .ok v' →
      ∃ V', Val.update f (q ++ p) V = .ok V' ∧ Val.get q V' = .ok v') := by
  induction q generalizing V with
  | nil =>
    simp only [Val.get, Except.ok.injEq] at h
    subst h
    exact ⟨fun e h => h, fun v' h => ⟨v', h, rfl⟩⟩
  | cons i q ih =>
    cases V with
    | tup vs =>
      simp only [Val.get] at h
      split at h
      · cases h
      · rename_i x hx
        obtain ⟨h1, h2⟩ := ih h
        simp only [List.cons_append, Val.update, hx]
        refine ⟨fun e he => by rw [h1 e he], fun v' hv => ?_⟩
        obtain ⟨V', h3, h4⟩ := h2 v' hv
        refine ⟨.tup (vs.set i V'), by rw [h3], ?_⟩
        have hlt := (List.getElem?_eq_some_iff.1 hx).1
        simp only [Val.get, List.getElem?_set_self hlt, h4]
    | _ => cases h

theorem get_append {q p : List Nat} {V v : Val} (h : Val.get q V = .ok v) :
    Val.get (q ++ p) V = Val.get p v := by
  induction q generalizing V with
  | nil => simp only [Val.get, Except.ok.injEq] at h; subst h; rfl
  | cons i q ih =>
    cases V with
    | tup vs =>
      simp only [Val.get] at h
      split at h
      · cases h
      · rename_i x hx
        simp only [List.cons_append, Val.get, hx]
        exact ih h
    | _ => cases h

/-- Results of operations on corresponding memories. -/
inductive OpOut (φ : Place) (k k' : Nat) : Except Err Mem → Except Err Mem → Prop
  | error (e) : OpOut φ k k' (.error e) (.error e)
  | ok {m m'} : MemR φ k k' m m' → OpOut φ k k' (.ok m) (.ok m')

section
variable {φ : Place} {k k' : Nat}

theorem MemR.none {m m'} (hφ : φ.Ok k k') (h : MemR φ k k' m m') {o : Nat}
    (ho : m.objs[o]? = none) : m'.objs[(φ o).1]? = none := by
  rw [List.getElem?_eq_none_iff] at ho ⊢
  have := h.len
  have := h.le
  rw [hφ.new o (by omega)]
  simp only
  omega

theorem modify_move {m m'} (hφ : φ.Ok k k') (h : MemR φ k k' m m') (o p f) :
    OpOut φ k k' (m.modify o p f) (m'.modify (φ o).1 ((φ o).2 ++ p) f) := by
  unfold Mem.modify
  cases ho : m.objs[o]? with
  | none => rw [h.none hφ ho]; exact .error _
  | some v =>
    have hv := h.val o v ho
    simp only [Mem.look, Mem.read] at hv
    cases ho' : m'.objs[(φ o).1]? with
    | none => rw [ho'] at hv; cases hv
    | some V =>
      rw [ho'] at hv
      obtain ⟨h1, h2⟩ := update_append (f := f) (p := p) hv
      simp only
      cases hu : Val.update f p v with
      | error e => rw [h1 e hu]; exact .error _
      | ok v' =>
        obtain ⟨V', h3, h4⟩ := h2 v' hu
        rw [h3]
        have hlt := (List.getElem?_eq_some_iff.1 ho).1
        have hlt' := (List.getElem?_eq_some_iff.1 ho').1
        refine .ok ⟨by simpa using h.len, by simpa using h.le, fun o2 v2 hv2 => ?_, h.log⟩
        simp only [Mem.look, Mem.read]
        by_cases hoo : o = o2
        · subst hoo
          rw [List.getElem?_set_self hlt] at hv2
          cases hv2
          rw [List.getElem?_set_self hlt']
          exact h4
        · rw [List.getElem?_set_ne hoo] at hv2
          have hold := h.val o2 v2 hv2
          simp only [Mem.look, Mem.read] at hold
          by_cases hpp : (φ o).1 = (φ o2).1
          · rcases hφ.disjoint o o2 hoo with hd | hd
            · exact absurd hpp hd
            · rw [← hpp, List.getElem?_set_self hlt']
              rw [← hpp, ho'] at hold
              simp only at hold ⊢
              rw [update_get (hd.append p) h3, hold]
          · rw [List.getElem?_set_ne hpp]
            exact hold

theorem read_move {m m'} (hφ : φ.Ok k k') (h : MemR φ k k' m m') (r : Ref) :
    m'.read (r.move φ) = m.read r := by
  cases r with
  | nil => rfl
  | «at» o p t =>
    simp only [Ref.move, Mem.read]
    cases ho : m.objs[o]? with
    | none => rw [h.none hφ ho]
    | some v =>
      have hv := h.val o v ho
      simp only [Mem.look, Mem.read] at hv
      cases ho' : m'.objs[(φ o).1]? with
      | none => rw [ho'] at hv; cases hv
      | some V =>
        rw [ho'] at hv
        exact get_append hv

theorem assign_move {m m'} (hφ : φ.Ok k k') (h : MemR φ k k' m m') (r : Ref) (v : Val) :
    OpOut φ k k' (m.assign r v) (m'.assign (r.move φ) v) := by
  cases r with
  | nil => exact .ok h
  | «at» o p t =>
    cases t with
    | coll t =>
      simp only [Ref.move, Mem.assign]
      cases t.convert v with
      | error e => exact .error _
      | ok e => exact modify_move hφ h _ _ _
    | nil => exact modify_move hφ h _ _ _
    | num k =>
      simp only [Ref.move, Mem.assign]
      cases (Ty.num k).convert v with
      | error e => exact .error _
      | ok e => exact modify_move hφ h _ _ _
    | tup ts =>
      simp only [Ref.move, Mem.assign]
      cases (Ty.tup ts).convert v with
      | error e => exact .error _
      | ok e => exact modify_move hφ h _ _ _
    | user n =>
      simp only [Ref.move, Mem.assign]
      cases (Ty.user n).convert v with
      | error e => exact .error _
      | ok e => exact modify_move hφ h _ _ _

theorem onNum_move {m m'} (hφ : φ.Ok k k') (h : MemR φ k k' m m') (r : Ref) (f) :
    OpOut φ k k' (m.onNum r f) (m'.onNum (r.move φ) f) := by
  cases r with
  | nil => exact .ok h
  | «at» o p t =>
    cases t with
    | num k => exact modify_move hφ h _ _ _
    | _ => exact .error _

/-- The write of an action to the bound destination. -/
def Mem.actWrite (m : Mem) (param : Bool) (b : Ref) (v : Val) : Except Err Mem :=
  match param, b with
  | true, .at obj path _ => m.modify obj path (fun old => old.overwrite v)
  | _, _ => .ok m

/-- An action called with the value `v`; `bv`: value of the bound destination. -/
def Mem.actWith (m : Mem) (a : Act) (d b : Ref) (v : Val) (bv : Except Err Val) : Except Err Mem :=
  match bv with
  | .error e => .error e
  | .ok bv =>
    match ({ m with log := m.log ++ [⟨a.id, v⟩] } : Mem).actWrite a.param b (a.fn m.log v bv).2 with
    | .error e => .error e
    | .ok m2 => if a.void then .ok m2 else m2.assign d (a.fn m.log v bv).1

theorem act_eq (m : Mem) (a : Act) (l d b : Ref) :
    m.act a l d b =
      match m.read l with
      | .error e => .error e
      | .ok .indet => .error .ubUninit
      | .ok v => m.actWith a d b v (if a.param then m.read b else .ok .nil) := by
  unfold Mem.act
  cases m.read l with
  | error e => rfl
  | ok v => cases v <;> rfl

theorem actWrite_move {m m'} (hφ : φ.Ok k k') (h : MemR φ k k' m m') {param b b'} (v : Val)
    (hb : param = true → b' = Ref.move φ b) :
    OpOut φ k k' (m.actWrite param b v) (m'.actWrite param b' v) := by
  cases param with
  | false => exact .ok h
  | true =>
    rw [hb rfl]
    cases b with
    | nil => exact .ok h
    | «at» o p t => exact modify_move hφ h _ _ _

theorem actWith_move {m m'} (hφ : φ.Ok k k') (h : MemR φ k k' m m') {a d b b'} (v bv)
    (hb : a.param = true → b' = b.move φ) :
    OpOut φ k k' (m.actWith a d b v bv) (m'.actWith a (d.move φ) b' v bv) := by
  cases bv with
  | error e => exact .error _
  | ok bv =>
    have h1 : MemR φ k k' { m with log := m.log ++ [⟨a.id, v⟩] }
        { m' with log := m'.log ++ [⟨a.id, v⟩] } :=
      ⟨h.len, h.le, h.val, by simp only [h.log]⟩
    simp only [Mem.actWith]
    have h2 := actWrite_move hφ h1 (a.fn m.log v bv).2 hb
    rw [show a.fn m'.log v bv = a.fn m.log v bv by rw [h.log]]
    generalize Mem.actWrite { m with log := m.log ++ [⟨a.id, v⟩] } a.param b (a.fn m.log v bv).2 = x
      at *
    generalize Mem.actWrite { m' with log := m'.log ++ [⟨a.id, v⟩] } a.param b'
      (a.fn m.log v bv).2 = y at *
    cases h2 with
    | error e => exact .error _
    | ok h3 =>
      simp only
      split
      · exact .ok h3
      · exact assign_move hφ h3 _ _

theorem act_move {m m'} (hφ : φ.Ok k k') (h : MemR φ k k' m m') {a l d b b'}
    (hb : a.param = true → b' = b.move φ) :
    OpOut φ k k' (m.act a l d b) (m'.act a (l.move φ) (d.move φ) b') := by
  rw [act_eq, act_eq, read_move hφ h]
  have hrd : (if a.param = true then m'.read b' else .ok .nil) =
      (if a.param = true then m.read b else .ok .nil) := by
    split
    · rename_i hp; rw [hb hp, read_move hφ h]
    · rfl
  rw [hrd]
  cases m.read l with
  | error e => exact .error _
  | ok v =>
    cases v with
    | indet => exact .error _
    | _ => exact actWith_move hφ h _ _ hb

theorem run_move {m m'} (hφ : φ.Ok k k') (h : MemR φ k k' m m') {o o'} (ho : OpR φ o o') :
    OpOut φ k k' (m.run o) (m'.run o') := by
  cases ho with
  | zero d => exact onNum_move hφ h _ _
  | mulAdd b c d =>
    simp only [Mem.run, Mem.mulAdd]
    have h1 : OpOut φ k k' (m.mul b d) (m'.mul b (d.move φ)) := onNum_move hφ h _ _
    generalize m.mul b d = x at *
    generalize m'.mul b (d.move φ) = y at *
    cases h1 with
    | error e => exact .error _
    | ok h1 => exact onNum_move hφ h1 _ _
  | neg d => exact onNum_move hφ h _ _
  | assign d v => exact assign_move hφ h _ _
  | move d b =>
    simp only [Mem.run, Mem.assignFrom, read_move hφ h]
    cases m.read b with
    | error e => exact .error _
    | ok v =>
      cases v with
      | indet => exact .error _
      | _ => exact assign_move hφ h _ _
  | construct d b =>
    simp only [Mem.run, Mem.construct, read_move hφ h]
    cases m.read b with
    | error e => exact .error _
    | ok v =>
      cases v with
      | tup args =>
        cases d with
        | nil =>
          simp only [Ref.move]
          cases Ty.nil.makeFrom args with
          | error e => exact .error _
          | ok _ => exact .ok h
        | «at» o p t =>
          simp only [Ref.move]
          cases t.makeFrom args with
          | error e => exact .error _
          | ok v => exact assign_move hφ h (.at o p t) _
      | _ => exact .error _
  | act hb => exact act_move hφ h hb

theorem alloc_move {m m'} (hφ : φ.Ok k k') (h : MemR φ k k' m m') (t : Ty) :
    (m'.alloc t).1 = (m.alloc t).1.move φ ∧ MemR φ k k' (m.alloc t).2 (m'.alloc t).2 := by
  have key : ∀ t : Ty, φ.Ok k k' →
      Ref.at m'.objs.length [] t = (Ref.at m.objs.length [] t).move φ ∧
      MemR φ k k' { m with objs := m.objs ++ [t.defaultInit] }
        { m' with objs := m'.objs ++ [t.defaultInit] } := by
    intro t hφ
    have hl := h.len
    have hle := h.le
    have hnew := hφ.new m.objs.length hle
    constructor
    · simp only [Ref.move, hnew, List.append_nil]
      congr 1
      omega
    · refine ⟨by simp only [List.length_append, List.length_singleton]; omega,
        by simp only [List.length_append, List.length_singleton]; omega, ?_, h.log⟩
      intro o v hv
      simp only [Mem.look, Mem.read]
      rcases Nat.lt_or_ge o m.objs.length with hlt | hge
      · rw [List.getElem?_append_left hlt] at hv
        have := h.val o v hv
        have hlt' := look_lt this
        simp only [Mem.look, Mem.read] at this
        rwa [List.getElem?_append_left hlt']
      · have ho : o = m.objs.length := by
          have := (List.getElem?_eq_some_iff.1 hv).1
          simp only [List.length_append, List.length_singleton] at this
          omega
        subst ho
        rw [List.getElem?_append_right (Nat.le_refl _), Nat.sub_self] at hv
        cases hv
        have hm : m.objs.length - k + k' = m'.objs.length := by omega
        rw [hnew, hm, List.getElem?_append_right (Nat.le_refl _), Nat.sub_self]
        rfl
  unfold Mem.alloc
  cases t with
  | nil => exact ⟨rfl, h⟩
  | _ => exact key _ hφ

/-! ### Runs -/

/-- Outcomes in corresponding memories. -/
inductive MoveOut {σ α : Type} (φ : Place) (k k' : Nat) (f : α → α) :
    Out σ Mem α → Out σ Mem α → Prop
  | error (e) : MoveOut φ k k' f (.error e) (.error e)
  | ok (a) (ds) {m m'} : MemR φ k k' m m' → MoveOut φ k k' f (.ok (a, ⟨ds, m⟩)) (.ok (f a, ⟨ds, m'⟩))

variable {σ : Type} [DataSource σ]

theorem exec_move {C} (hφ : φ.Ok k k')
    {f g : Prog → Ref → Ref → PState → World σ Mem → Out σ Mem (Res × PState)}
    (hc : ∀ p d b b' st ds m m', C p b b' → MemR φ k k' m m' →
      MoveOut φ k k' (fun x => (x.1, x.2.move φ)) (f p d b st ⟨ds, m⟩)
        (g p (d.move φ) b' (st.move φ) ⟨ds, m'⟩))
    {α : Type} {F : α → α} {x x' : Cmd α} (hx : CmdR φ C F x x') {ds m m'}
    (h : MemR φ k k' m m') : MoveOut φ k k' F (exec f x ⟨ds, m⟩) (exec g x' ⟨ds, m'⟩) := by
  induction hx generalizing ds m m' with
  | pure a => exact .ok _ _ h
  | fault e => exact .error _
  | isEmpty _ ih => exact ih _ h
  | isFinal _ ih => exact ih _ h
  | next _ ih =>
    simp only [exec]
    cases DataSource.next ds with
    | none => exact .error _
    | some c => exact ih _ h
  | advance _ ih =>
    simp only [exec]
    cases DataSource.advance ds with
    | none => exact .error _
    | some c => exact ih h
  | prepare _ ih => exact ih h
  | commit _ ih =>
    simp only [exec]
    cases DataSource.commit ds with
    | none => exact .error _
    | some c => exact ih h
  | cancel _ ih =>
    simp only [exec]
    cases DataSource.cancel ds with
    | none => exact .error _
    | some c => exact ih h
  | mem ho _ ih =>
    simp only [exec]
    have h1 := run_move hφ h ho
    change OpOut φ k k' (Store.op _ m) (Store.op _ m') at h1
    generalize Store.op _ m = x at *
    generalize Store.op _ m' = y at *
    cases h1 with
    | error e => exact .error _
    | ok h1 => exact ih h1
  | @alloc t k1 k2 _ ih =>
    obtain ⟨h1, h2⟩ := alloc_move hφ h t
    have := ih (m.alloc t).1 (ds := ds) h2
    rw [← h1] at this
    exact this
  | @call p b b' st k1 k2 d h1 _ ih =>
    simp only [exec]
    have h2 := hc p d b b' st ds m m' h1 h
    generalize f p d b st (⟨ds, m⟩ : World σ Mem) = x at *
    generalize g p (d.move φ) b' (st.move φ) (⟨ds, m'⟩ : World σ Mem) = y at *
    cases h2 with
    | error e => exact .error _
    | ok a ds h3 => exact ih _ _ h3

theorem construct_move (hφ : φ.Ok k k') (p dst bnd bnd') {ds : σ} {m m'} (h : MemR φ k k' m m') :
    MoveOut φ k k' (PState.move φ) (construct p dst bnd ⟨ds, m⟩)
      (construct p (dst.move φ) bnd' ⟨ds, m'⟩) :=
  exec_move (C := fun _ _ _ => True) hφ (fun _ _ _ _ _ _ _ _ _ _ => .error _)
    (mk_move p dst bnd bnd') h

theorem consume_move (hφ : φ.Ok k k') {env : Env} (n : Nat) (p dst bnd bnd' st) {ds : σ} {m m'}
    (hb : BndR env φ p bnd bnd') (h : MemR φ k k' m m') :
    MoveOut φ k k' (fun x => (x.1, x.2.move φ)) (run env n p dst bnd st ⟨ds, m⟩)
      (run env n p (dst.move φ) bnd' (st.move φ) ⟨ds, m'⟩) := by
  induction n generalizing p dst bnd bnd' st ds m m' with
  | zero => exact .error _
  | succ n ih =>
    have he := exec_move hφ (fun p d b b' st ds m m' h1 h2 => ih p d b b' st h1 h2)
      (body_move p dst bnd bnd' st hb) (ds := ds) h
    rw [run_succ_eq, run_succ_eq]
    generalize exec (run env n) (body env p dst bnd st) ⟨ds, m⟩ = x at *
    generalize exec (run env n) (body env p (dst.move φ) bnd' (st.move φ)) ⟨ds, m'⟩ = y at *
    cases he with
    | error e => exact .error _
    | ok a ds h1 =>
      cases a with
      | ret r st' => exact .ok (r, st') ds h1
      | cont st' => exact ih _ _ _ _ _ hb h1

end

end Abu
