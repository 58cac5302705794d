import Verif.Proofs.Shape
/-
Which references the commands of a parser use.
-/
namespace Abu

/-- A set of references closed under tuple elements. -/
structure Region (S : Ref → Prop) : Prop where
  nil : S .nil
  slot : ∀ {o p ts k t}, S (.at o p (.tup ts)) → ts[k]? = some t → S (wrapDst o (p ++ [k]) t)

/-- All references the operation uses are in `S`. -/
def MemOp.In (S : Ref → Prop) : MemOp → Prop
  | .zero d => S d
  | .mulAdd _ _ d => S d
  | .neg d => S d
  | .assign d _ => S d
  | .move d b => S d ∧ S b
  | .construct d b => S d ∧ S b
  | .act a l d b => S l ∧ (a.void = false → S d) ∧ (a.param = true → S b)

/-- All buffers of the parser object are in `S`. -/
def PState.In (S : Ref → Prop) : PState → Prop
  | .seq _ c => c.In S
  | .alt _ c => c.In S
  | .rep _ c => c.In S
  | .wrap c => c.In S
  | .buffered b c => S b ∧ c.In S
  | .skip _ s c => s.In S ∧ c.In S
  | .except _ c => c.In S
  | .list _ c => c.In S
  | .recurSome c => c.In S
  | _ => True

/-- The command uses references in `S` only; `C`: what is required of the program and the
destinations of calls. -/
inductive Uses (S : Ref → Prop) (C : Prog → Ref → Ref → Prop) {α : Type} (Q : α → Prop) : Cmd α → Prop
  | pure {a} : Q a → Uses S C Q (.pure a)
  | fault (e) : Uses S C Q (.fault e)
  | isEmpty {k} : (∀ b, Uses S C Q (k b)) → Uses S C Q (.isEmpty k)
  | isFinal {k} : (∀ b, Uses S C Q (k b)) → Uses S C Q (.isFinal k)
  | next {k} : (∀ b, Uses S C Q (k b)) → Uses S C Q (.next k)
  | advance {k} : Uses S C Q k → Uses S C Q (.advance k)
  | prepare {k} : Uses S C Q k → Uses S C Q (.prepare k)
  | commit {k} : Uses S C Q k → Uses S C Q (.commit k)
  | cancel {k} : Uses S C Q k → Uses S C Q (.cancel k)
  | mem {o k} : o.In S → Uses S C Q k → Uses S C Q (.mem o k)
  | alloc {t k} : (∀ r, S r → Uses S C Q (k r)) → Uses S C Q (.alloc t k)
  | call {p d b st k} : C p d b → st.In S → (∀ r s, s.In S → Uses S C Q (k r s)) →
      Uses S C Q (.call p d b st k)

theorem Uses.bind {S C} {α β : Type} {Q : α → Prop} {R : β → Prop} {x : Cmd α} {k : α → Cmd β}
    (hx : Uses S C Q x) (hk : ∀ a, Q a → Uses S C R (k a)) : Uses S C R (x.bind k) := by
  induction hx with
  | pure h => exact hk _ h
  | fault e => exact .fault e
  | isEmpty _ ih => exact .isEmpty ih
  | isFinal _ ih => exact .isFinal ih
  | next _ ih => exact .next ih
  | advance _ ih => exact .advance ih
  | prepare _ ih => exact .prepare ih
  | commit _ ih => exact .commit ih
  | cancel _ ih => exact .cancel ih
  | mem h _ ih => exact .mem h ih
  | alloc _ ih => exact .alloc ih
  | call h1 h2 _ ih => exact .call h1 h2 ih

theorem seqDst_in {S} (hS : Region S) {d s d'} (hd : S d) (h : seqDst d s = some d') : S d' := by
  unfold seqDst at h
  split at h
  · cases h; exact hS.nil
  · cases h; exact hS.nil
  · rename_i o p ts k
    cases ht : ts[k]? with
    | none => rw [ht] at h; cases h
    | some t => rw [ht] at h; cases h; exact hS.slot hd ht
  · cases h; exact hd

mutual
/-- Does the parser never write its destination? -/
def Prog.silent : Prog → Bool
  | .strLit _ => true
  | .eoi => true
  | .pass => true
  | .fail => true
  | .discard _ => true
  | .seq slots ps => Prog.silentSeq slots ps
  | .alt ps => Prog.silents ps
  | .rep _ _ p => p.silent
  | .opt p => p.silent
  | .not p => p.silent
  | .lexeme p => p.silent
  | .action a _ => a.void
  | .except op _ => op.silent
  | .list op _ => op.silent
  | .withSkipper p => p.silent
  | .clean p => p.silent
  | .skip _ p => p.silent
  | _ => false
/-- For all of a list. -/
def Prog.silents : List Prog → Bool
  | [] => true
  | p :: ps => p.silent && Prog.silents ps
/-- For the children of a sequence: those that do not use a tuple element get no destination. -/
def Prog.silentSeq : List (Option Nat) → List Prog → Bool
  | s :: ss, p :: ps => (s.isNone || p.silent) && Prog.silentSeq ss ps
  | _, _ => true
end

theorem Prog.silents_get {ps : List Prog} {i : Nat} {p : Prog} (h : Prog.silents ps = true)
    (hp : ps[i]? = some p) : p.silent = true := by
  induction ps generalizing i with
  | nil => cases hp
  | cons q ps ih =>
    simp only [Prog.silents, Bool.and_eq_true] at h
    cases i with
    | zero => cases hp; exact h.1
    | succ i => exact ih h.2 hp

theorem Prog.silentSeq_get {ss : List (Option Nat)} {ps : List Prog} {i : Nat} {s : Option Nat}
    {p : Prog} (h : Prog.silentSeq ss ps = true) (hs : ss[i]? = some s) (hp : ps[i]? = some p) :
    s = none ∨ p.silent = true := by
  induction ps generalizing i ss with
  | nil => cases hp
  | cons q ps ih =>
    cases ss with
    | nil => cases hs
    | cons s' ss =>
      simp only [Prog.silentSeq, Bool.and_eq_true, Bool.or_eq_true] at h
      cases i with
      | zero => cases hp; cases hs; exact h.1.imp (by simp) id
      | succ i => exact ih h.2 hs hp

/-- The destination is in `S`, or is never written. -/
def DstOK (S : Ref → Prop) (p : Prog) (d : Ref) : Prop := S d ∨ p.silent = true

theorem DstOK.sub {S p q d} (h : DstOK S p d) (hq : p.silent = true → q.silent = true) :
    DstOK S q d := h.imp id hq

theorem DstOK.must {S p d} (h : DstOK S p d) (hp : p.silent = false) : S d := by
  rcases h with h | h
  · exact h
  · rw [hp] at h; cases h

theorem seqDst_none (d : Ref) : seqDst d none = some .nil := by
  cases d <;> rfl

theorem DstOK.seq {S slots ps d} (hS : Region S) (h : DstOK S (.seq slots ps) d) {i : Nat}
    {s p d'} (hs : slots[i]? = some s) (hp : ps[i]? = some p) (hd : seqDst d s = some d') :
    DstOK S p d' := by
  rcases h with h | h
  · exact .inl (seqDst_in hS h hd)
  · rcases Prog.silentSeq_get h hs hp with h | h
    · subst h
      rw [seqDst_none] at hd
      cases hd
      exact .inl hS.nil
    · exact .inr h

theorem mk_uses {S C} (hS : Region S) (p : Prog) (dst bnd : Ref) (hd : DstOK S p dst) :
    Uses S C (fun st => st.In S) (mk p dst bnd) := by
  fun_induction mk p dst bnd
  case case11 s ss p ps dst bnd d h ih =>
    exact (ih (hd.seq hS (i := 0) rfl rfl h)).bind fun _ h => .pure h
  case case13 p ps dst bnd ih =>
    exact (ih (hd.sub fun h => Prog.silents_get (i := 0) h rfl)).bind fun _ h => .pure h
  case case29 s p dst bnd ih1 ih2 =>
    exact (ih1 (.inl hS.nil)).bind fun _ h1 => (ih2 (hd.sub id)).bind fun _ h2 => .pure ⟨h1, h2⟩
  all_goals first
    | exact .fault _
    | exact .pure trivial
    | exact .mem (hd.must rfl) (.pure trivial)
    | (rename_i ih; exact (ih (hd.sub id)).bind fun _ h => .pure h)
    | (rename_i ih; exact (ih (.inl hS.nil)).bind fun _ h => .pure h)
    | (rename_i ih; exact (ih (.inl (hd.must rfl))).bind fun _ h => .pure h)
    | (rename_i ih; exact (ih (hd.sub id)).bind fun _ h => .prepare (.pure h))
    | (rename_i ih; exact .alloc fun r hr => (ih r (.inl hr)).bind fun _ h => .pure ⟨hr, h⟩)

/-- Buffers of the next state are in `S`. -/
def Step.In (S : Ref → Prop) : Step → Prop
  | .ret _ st => st.In S
  | .cont st => st.In S

mutual
/-- Does no action write through the bound destination? -/
def Prog.quiet : Prog → Bool
  | .seq _ ps => Prog.quiets ps
  | .alt ps => Prog.quiets ps
  | .rep _ _ p => p.quiet
  | .opt p => p.quiet
  | .not p => p.quiet
  | .discard p => p.quiet
  | .lexeme p => p.quiet
  | .bindDst p => p.quiet
  | .construct _ p => p.quiet
  | .action a p => !a.param && p.quiet
  | .except op neg => op.quiet && neg.quiet
  | .list op sep => op.quiet && sep.quiet
  | .withSkipper p => p.quiet
  | .recur _ sk => sk.quiet
  | .atomic p => p.quiet
  | .clean p => p.quiet
  | .skip s p => s.quiet && p.quiet
  | _ => true
/-- For all of a list. -/
def Prog.quiets : List Prog → Bool
  | [] => true
  | p :: ps => p.quiet && Prog.quiets ps
end

theorem Prog.quiets_get {ps : List Prog} {i : Nat} {p : Prog} (h : Prog.quiets ps = true) (hp : ps[i]? = some p) :
    p.quiet = true := by
  induction ps generalizing i with
  | nil => cases hp
  | cons q ps ih =>
    simp only [Prog.quiets, Bool.and_eq_true] at h
    cases i with
    | zero => cases hp; exact h.1
    | succ i => exact ih h.2 hp

/-- All patterns used through `Recur` are quiet, whatever the skipper. -/
def Env.quietP (env : Env) : Prop :=
  ∀ id q sk, env id = some q → sk.quiet = true → (elabP sk RecurChildReqs q).quiet = true

/-- The bound destination is in `S`, or is never used. -/
def BndOK (env : Env) (S : Ref → Prop) (p : Prog) (b : Ref) : Prop :=
  S b ∨ (p.quiet = true ∧ env.quietP)

theorem guarded_uses {S C Q st A} {B : Ch → Cmd Step} (hP : Q (.ret .PARTIAL st)) (hA : Uses S C Q A)
    (hB : ∀ c, Uses S C Q (B c)) : Uses S C Q (guarded st A B) := by
  refine .isEmpty fun e => ?_
  split
  · refine .isFinal fun f => ?_
    split
    · exact hA
    · exact .pure hP
  · exact .next hB

theorem BndOK.sub {env S p q b} (h : BndOK env S p b) (hq : p.quiet = true → q.quiet = true) :
    BndOK env S q b := h.imp id fun h => ⟨hq h.1, h.2⟩

/-- What is required of calls. -/
def CallOK (env : Env) (S : Ref → Prop) (p : Prog) (d b : Ref) : Prop :=
  DstOK S p d ∧ BndOK env S p b

theorem body_uses {env S} (hS : Region S) (p : Prog) (dst bnd : Ref) (st : PState) (hd : DstOK S p dst)
    (hb : BndOK env S p bnd) (hst : st.In S) :
    Uses S (CallOK env S) (fun s => s.In S) (body env p dst bnd st) := by
  have hmk : ∀ {q d b} {f : PState → PState}, DstOK S q d → (∀ c, c.In S → (f c).In S) →
      Uses S (CallOK env S) (fun s => s.In S) ((mk q d b).bind fun c => contS (f c)) :=
    fun h1 h2 => (mk_uses hS _ _ _ h1).bind fun a h => .pure (h2 a h)
  unfold body
  split
  -- char
  · refine guarded_uses trivial (.pure trivial) fun c => ?_
    split
    · exact .mem (hd.must rfl) (.advance (.pure trivial))
    · exact .pure trivial
  -- charSymbol
  · refine guarded_uses trivial (.pure trivial) fun c => ?_
    split
    · exact .pure trivial
    · exact .mem (hd.must rfl) (.pure trivial)
  -- strLit
  · split
    · exact .pure trivial
    · refine guarded_uses trivial (.pure trivial) fun c => ?_
      split
      · exact .advance (.pure trivial)
      · exact .pure trivial
  -- symbol
  · rename_i n v
    have hhit : ∀ {n' x v}, Uses S (CallOK env S) (fun s => s.In S)
        (if (Node.child n').isEmpty then .mem (.assign dst x) (retS .SUCCESS (.symbol n' v))
          else .prepare (contS (.symbol n' (some x)))) := by
      intro n' x v
      split
      · exact .mem (hd.must rfl) (.pure trivial)
      · exact .prepare (.pure trivial)
    cases v with
    | none =>
      refine guarded_uses trivial (.pure trivial) fun c => ?_
      split
      · exact .pure trivial
      · refine .advance ?_
        rename_i n' _
        cases n'.val with
        | none => exact .pure trivial
        | some x => exact hhit
    | some y =>
      refine guarded_uses trivial (.mem (hd.must rfl) (.commit (.pure trivial))) fun c => ?_
      split
      · exact .mem (hd.must rfl) (.commit (.pure trivial))
      · refine .advance ?_
        rename_i n' _
        cases n'.val with
        | none => exact .pure trivial
        | some x => exact .cancel hhit
  -- uint
  · refine guarded_uses trivial (.pure trivial) fun c => ?_
    split
    · refine .mem (hd.must rfl) (.advance ?_)
      split
      · exact .pure trivial
      · exact .pure trivial
    · exact .pure trivial
  -- int
  · have hneg : ∀ {neg r s}, PState.In S s →
        Uses S (CallOK env S) (fun s => s.In S) (negIf neg dst (retS r s)) := by
      intro neg r s hs
      unfold negIf
      split
      · exact .mem (hd.must rfl) (.pure hs)
      · exact .pure hs
    refine guarded_uses trivial (hneg trivial) fun c => ?_
    split
    · exact .advance (.pure trivial)
    · split
      · exact .advance (.pure trivial)
      · split
        · refine .mem (hd.must rfl) (.advance ?_)
          split
          · exact hneg trivial
          · exact .pure trivial
        · exact hneg trivial
  -- eoi
  · exact guarded_uses trivial (.pure trivial) fun c => .pure trivial
  · exact .pure trivial
  · exact .pure trivial
  -- seq
  · rename_i slots ps i c
    split
    · rename_i p s hp hs
      split
      · exact .fault _
      · rename_i d hd'
        refine .call ⟨hd.seq hS hs hp hd', hb.sub fun h => Prog.quiets_get h hp⟩ hst fun r c' hc' => ?_
        split
        · split
          · rename_i hp' hs'
            split
            · exact .fault _
            · rename_i hd''
              exact hmk (hd.seq hS hs' hp' hd'') fun _ h => h
          · exact .pure hc'
        · exact .pure hc'
    · exact .fault _
  -- alt
  · rename_i ps i c
    split
    · rename_i p hp
      refine .call ⟨hd.sub fun h => Prog.silents_get h hp, hb.sub fun h => Prog.quiets_get h hp⟩ hst
        fun r c' hc' => ?_
      split
      · split
        · rename_i hp'
          exact hmk (hd.sub fun h => Prog.silents_get h hp') fun _ h => h
        · exact .pure hc'
      · exact .pure hc'
    · exact .fault _
  -- rep
  · refine .call ⟨hd.sub id, hb.sub id⟩ hst fun r c' hc' => ?_
    split
    · exact .pure hc'
    · exact .pure hc'
    · split
      · exact .pure hc'
      · exact hmk (hd.sub id) fun _ h => h
  -- opt
  · refine .call ⟨hd.sub id, hb.sub id⟩ hst fun r c' hc' => ?_
    split
    · exact .pure hc'
    · exact .commit (.pure hc')
    · exact .pure hc'
  -- not
  · refine .call ⟨hd.sub id, hb.sub id⟩ hst fun r c' hc' => ?_
    split
    · exact .commit (.pure hc')
    · exact .commit (.pure hc')
    · exact .pure hc'
  -- discard, lexeme, bindDst
  · exact .call ⟨.inl hS.nil, hb.sub id⟩ hst fun r c' hc' => .pure hc'
  · exact .call ⟨hd.sub id, hb.sub id⟩ hst fun r c' hc' => .pure hc'
  · exact .call ⟨.inl (hd.must rfl), .inl (hd.must rfl)⟩ hst fun r c' hc' => .pure hc'
  -- construct
  · refine .call ⟨.inl hst.1, hb.sub id⟩ hst.2 fun r c' hc' => ?_
    split
    · exact .mem ⟨hd.must rfl, hst.1⟩ (.pure ⟨hst.1, hc'⟩)
    · exact .pure ⟨hst.1, hc'⟩
  -- action
  · rename_i a p land c
    refine .call ⟨.inl hst.1,
      hb.sub fun h => by simp only [Prog.quiet, Bool.and_eq_true] at h; exact h.2⟩
      hst.2 fun r c' hc' => ?_
    split
    · refine .mem ⟨hst.1, fun hv => hd.must hv, fun hp => ?_⟩ (.pure ⟨hst.1, hc'⟩)
      rcases hb with hb | hb
      · exact hb
      · simp [Prog.quiet, hp] at hb
    · exact .pure ⟨hst.1, hc'⟩
  -- except
  · refine .call ⟨.inl hS.nil,
      hb.sub fun h => by simp only [Prog.quiet, Bool.and_eq_true] at h; exact h.2⟩
      hst fun r c' hc' => ?_
    split
    · exact .pure hc'
    · exact .pure hc'
    · exact hmk (hd.sub id) fun _ h => h
  · exact .call ⟨hd.sub id,
      hb.sub fun h => by simp only [Prog.quiet, Bool.and_eq_true] at h; exact h.1⟩
      hst fun r c' hc' => .pure hc'
  -- list
  · refine .call ⟨hd.sub id,
      hb.sub fun h => by simp only [Prog.quiet, Bool.and_eq_true] at h; exact h.1⟩
      hst fun r c' hc' => ?_
    split
    · exact .cancel (.prepare (hmk (.inl hS.nil) fun _ h => h))
    · exact .commit (.pure hc')
    · exact .pure hc'
  · refine .call ⟨.inl hS.nil,
      hb.sub fun h => by simp only [Prog.quiet, Bool.and_eq_true] at h; exact h.2⟩
      hst fun r c' hc' => ?_
    split
    · exact hmk (hd.sub id) fun _ h => h
    · exact .commit (.pure hc')
    · exact .pure hc'
  -- withSkipper
  · exact .call ⟨hd.sub id, hb.sub id⟩ hst fun r c' hc' => .pure hc'
  -- recur
  · split
    · exact .fault _
    · exact hmk (.inl (hd.must rfl)) fun _ h => h
  · split
    · exact .fault _
    · rename_i q hq
      refine .call ⟨.inl (hd.must rfl), ?_⟩ hst fun r c' hc' => .pure hc'
      exact hb.imp id fun h => ⟨h.2 _ _ _ hq h.1, h.2⟩
  -- atomic
  · refine .call ⟨.inl hst.1, hb.sub id⟩ hst.2 fun r c' hc' => ?_
    split
    · exact .mem ⟨hd.must rfl, hst.1⟩ (.pure ⟨hst.1, hc'⟩)
    · exact .pure ⟨hst.1, hc'⟩
  -- clean
  · refine .call ⟨hd.sub id, hb.sub id⟩ hst fun r c' hc' => ?_
    split
    · exact .cancel (.pure hc')
    · exact .commit (.pure hc')
    · exact .pure hc'
  -- skip
  · refine .call ⟨.inl hS.nil, .inl hS.nil⟩ hst.1 fun r c' hc' => ?_
    split
    · exact (mk_uses hS _ _ _ (.inl hS.nil)).bind fun a h => .pure ⟨h, hst.2⟩
    · exact .pure ⟨hc', hst.2⟩
    · exact .pure ⟨hc', hst.2⟩
  · exact .call ⟨hd.sub id,
      hb.sub fun h => by simp only [Prog.quiet, Bool.and_eq_true] at h; exact h.2⟩
      hst.2 fun r c' hc' => .pure ⟨hst.1, hc'⟩
  · exact .fault _

/-- A property of memory that operations on references in `S` keep; new objects are in `S`. -/
structure Keeps (S : Ref → Prop) (J : Mem → Prop) : Prop where
  op : ∀ {o m m'}, o.In S → J m → m.run o = .ok m' → J m'
  alloc : ∀ {t m}, J m → S (m.alloc t).1 ∧ J (m.alloc t).2

section
variable {σ : Type} [DataSource σ] {S : Ref → Prop} {J : Mem → Prop}

theorem exec_uses {C} (hJ : Keeps S J)
    {call : Prog → Ref → Ref → PState → World σ Mem → Out σ Mem (Res × PState)}
    (hc : ∀ p d b st w r st' w', C p d b → st.In S → J w.mem →
      call p d b st w = .ok ((r, st'), w') → st'.In S ∧ J w'.mem)
    {α : Type} {Q : α → Prop} {x : Cmd α} (hx : Uses S C Q x) {w : World σ Mem} (hw : J w.mem)
    {a w'} (h : exec call x w = .ok (a, w')) : Q a ∧ J w'.mem := by
  induction hx generalizing w with
  | pure hq => simp only [exec] at h; cases h; exact ⟨hq, hw⟩
  | fault e => simp only [exec] at h; cases h
  | isEmpty _ ih => exact ih _ hw h
  | isFinal _ ih => exact ih _ hw h
  | next _ ih =>
    simp only [exec] at h
    split at h
    · cases h
    · exact ih _ hw h
  | advance _ ih =>
    simp only [exec] at h
    split at h
    · cases h
    · exact ih (w := ⟨_, w.mem⟩) (by exact hw) h
  | prepare _ ih => exact ih (w := ⟨_, w.mem⟩) (by exact hw) h
  | commit _ ih =>
    simp only [exec] at h
    split at h
    · cases h
    · exact ih (w := ⟨_, w.mem⟩) (by exact hw) h
  | cancel _ ih =>
    simp only [exec] at h
    split at h
    · cases h
    · exact ih (w := ⟨_, w.mem⟩) (by exact hw) h
  | mem ho _ ih =>
    simp only [exec] at h
    split at h
    · cases h
    · rename_i m hm
      exact ih (w := ⟨_, m⟩) (hJ.op ho hw hm) h
  | alloc _ ih => exact ih _ (hJ.alloc hw).1 (w := ⟨_, _⟩) (hJ.alloc hw).2 h
  | call h1 h2 _ ih =>
    simp only [exec] at h
    split at h
    · cases h
    · rename_i r s' w1 hcall
      obtain ⟨h4, h5⟩ := hc _ _ _ _ _ _ _ _ h1 h2 hw hcall
      exact ih _ _ h4 h5 h

theorem construct_uses (hS : Region S) (hJ : Keeps S J) {p dst bnd} {w : World σ Mem} (hd : DstOK S p dst)
    (hw : J w.mem) {st w'} (h : construct p dst bnd w = .ok (st, w')) : st.In S ∧ J w'.mem :=
  exec_uses (C := fun _ _ _ => True) hJ (fun _ _ _ _ _ _ _ _ _ _ _ h => by cases h)
    (mk_uses hS p dst bnd hd) hw h

theorem run_uses (hS : Region S) (hJ : Keeps S J) {env : Env} (n : Nat) {p dst bnd st}
    {w : World σ Mem} (hd : DstOK S p dst) (hb : BndOK env S p bnd) (hst : st.In S) (hw : J w.mem)
    {r st' w'} (h : run env n p dst bnd st w = .ok ((r, st'), w')) : st'.In S ∧ J w'.mem := by
  induction n generalizing p dst bnd st w r st' w' with
  | zero => cases h
  | succ n ih =>
    rw [run_succ_eq] at h
    cases hx : exec (run env n) (body env p dst bnd st) w with
    | error e => rw [hx] at h; cases h
    | ok y =>
      obtain ⟨s, w1⟩ := y
      obtain ⟨h1, h2⟩ := exec_uses hJ (fun p d b st w r st' w' a1 a2 a3 a4 => ih a1.1 a1.2 a2 a3 a4)
        (body_uses hS p dst bnd st hd hb hst) hw hx
      rw [hx] at h
      cases s with
      | ret r2 st2 => cases h; exact ⟨h1, h2⟩
      | cont st2 => exact ih hd hb h1 h2 h

end
end Abu
