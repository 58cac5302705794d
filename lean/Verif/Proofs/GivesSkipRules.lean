import Verif.Proofs.GivesSkipBase
/-
The values a grammar computes under a skipper: rule by rule.
-/
namespace Abu

/-- The object holds the value, and the calls. -/
def Got (x : Nat) (q : List Nat) (log' : List LogEntry) : Option (Val × List Ch) → Mem → Prop
  | some (v, _), M => M.look x q = .ok v ∧ M.log = log'
  | none, M => (∃ w, M.look x q = .ok w) ∧ M.log = log'

/-- What is said of the parser: into an object that holds `u`. -/
def SkSolo (env : Env) (S : Eater) (p : Pat) (ty : Ty) (u : Val) (log : List LogEntry) (t : List Ch)
    (o : Option (Val × List Ch)) (log' : List LogEntry) : Prop :=
  ∀ ⦃rc c cs : Bool⦄ ⦃T : List Ch⦄ ⦃j i : Nat⦄ ⦃M : Mem⦄ ⦃x : Nat⦄ ⦃q : List Nat⦄ (bnd : Ref) ⦃u0 : Val⦄,
    Here S p log t rc c T j i M → M.look x q = .ok u0 →
    (u0 = u ∨ p.assigns = true ∧ ∀ e, ty ≠ .coll e) →
    ReachBy (Ends env (elabP S.K ⟨false, c, cs, rc⟩ p) (.at x q ty) bnd T j i M) S T c t
      (o.map Prod.snd) (Got x q log' o)

/-- Into a new element of a collection. -/
def SkItem (env : Env) (S : Eater) (p : Pat) (ty : Ty) (u : Val) (log : List LogEntry) (t : List Ch)
    (o : Option (Val × List Ch)) (log' : List LogEntry) : Prop :=
  u = ty.defaultInit → p.single = true → ty ≠ .nil → (p.assigns = true → ∀ e, ty ≠ .coll e) →
  (∀ v rest, o = some (v, rest) → ty.Holds v) →
  ∀ ⦃c cs : Bool⦄ ⦃T : List Ch⦄ ⦃j i : Nat⦄ ⦃M : Mem⦄ ⦃x : Nat⦄ ⦃q : List Nat⦄ (bnd : Ref) ⦃us : List Val⦄,
    Here S p log t false c T j i M → M.look x q = .ok (.coll us) →
    ReachBy (Ends env (elabP S.K ⟨true, c, cs, false⟩ p) (.at x q (.coll ty)) bnd T j i M) S T c t
      (o.map Prod.snd) fun M' => M'.look x q = .ok (.coll (us ++ (o.map Prod.fst).toList)) ∧ M'.log = log'

/-- Both. -/
structure Sk (env : Env) (S : Eater) (p : Pat) (ty : Ty) (u : Val) (log : List LogEntry) (t : List Ch)
    (o : Option (Val × List Ch)) (log' : List LogEntry) : Prop where
  solo : SkSolo env S p ty u log t o log'
  item : SkItem env S p ty u log t o log'

/-- Without an object. -/
def SkNil (env : Env) (S : Eater) (p : Pat) (log : List LogEntry) (t : List Ch)
    (o : Option (List Ch)) (log' : List LogEntry) : Prop :=
  ∀ ⦃rc c cs : Bool⦄ ⦃T : List Ch⦄ ⦃j i : Nat⦄ ⦃M : Mem⦄ (bnd : Ref), Here S p log t rc c T j i M →
    ReachBy (Ends env (elabP S.K ⟨false, c, cs, rc⟩ p) .nil bnd T j i M) S T c t o
      fun M' => M'.log = log'

/-- Into the parameter of an action. -/
def SkArg (env : Env) (S : Eater) (p : Pat) (ty : Ty) (log : List LogEntry) (t : List Ch)
    (o : Option (Val × List Ch)) (log' : List LogEntry) : Prop :=
  ∀ ⦃c cs : Bool⦄ ⦃T : List Ch⦄ ⦃j i : Nat⦄ ⦃M : Mem⦄ (bnd : Ref), Here S p log t false c T j i M →
    ReachBy (Ends env (elabP S.K ⟨false, c, cs, false⟩ p) (M.alloc ty).1 bnd T j i (M.alloc ty).2)
      S T c t (o.map Prod.snd) fun M' => M'.log = log' ∧
        (∀ x q w, M.look x q = .ok w → M'.look x q = .ok w) ∧
        ∀ v rest, o = some (v, rest) → M'.read (M.alloc ty).1 = .ok v

/-! The lists of rules, as in the specification. -/

inductive SkNils (env : Env) (S : Eater) : List Pat → List LogEntry → List Ch → Option (List Ch) →
    List LogEntry → Prop
  | nil {log t} : SkNils env S [] log t (some t) log
  | cons {p ps log t t1 log1 o log'} : SkNil env S p log t (some t1) log1 →
      SkNils env S ps log1 t1 o log' → SkNils env S (p :: ps) log t o log'
  | consNo {p ps log t log'} : SkNil env S p log t none log' → SkNils env S (p :: ps) log t none log'

inductive SkNilNone (env : Env) (S : Eater) : List Ch → List Pat → List LogEntry → List LogEntry → Prop
  | nil {t log} : SkNilNone env S t [] log log
  | cons {t p ps log log1 log'} : SkNil env S p log t none log1 → SkNilNone env S t ps log1 log' →
      SkNilNone env S t (p :: ps) log log'

inductive SkEach (env : Env) (S : Eater) : List Pat → List Ty → List Val → List LogEntry → List Ch →
    Option (List Val × List Ch) → List LogEntry → Prop
  | nil {ts vs log t} : SkEach env S [] ts vs log t (some (vs, t)) log
  | value {p ps ty ts v vs log t v' t1 log1 ws rest log'} : Pat.valued p = true →
      SkSolo env S p ty v log t (some (v', t1)) log1 → SkEach env S ps ts vs log1 t1 (some (ws, rest)) log' →
      SkEach env S (p :: ps) (ty :: ts) (v :: vs) log t (some (v' :: ws, rest)) log'
  | valueNo {p ps ty ts v vs log t log'} : Pat.valued p = true → SkSolo env S p ty v log t none log' →
      SkEach env S (p :: ps) (ty :: ts) (v :: vs) log t none log'
  | laterNo {p ps ty ts v vs log t v' t1 log1 log'} : Pat.valued p = true →
      SkSolo env S p ty v log t (some (v', t1)) log1 → SkEach env S ps ts vs log1 t1 none log' →
      SkEach env S (p :: ps) (ty :: ts) (v :: vs) log t none log'
  | ignore {p ps ts vs log t t1 log1 o log'} : Pat.valued p = false →
      SkNil env S p log t (some t1) log1 → SkEach env S ps ts vs log1 t1 o log' →
      SkEach env S (p :: ps) ts vs log t o log'
  | ignoreNo {p ps ts vs log t log'} : Pat.valued p = false → SkNil env S p log t none log' →
      SkEach env S (p :: ps) ts vs log t none log'

inductive SkInto (env : Env) (S : Eater) : Ty → List Pat → Val → List LogEntry → List Ch →
    Option (Val × List Ch) → List LogEntry → Prop
  | nil {ty u log t} : SkInto env S ty [] u log t (some (u, t)) log
  | value {ty p ps u log t v t1 log1 o log'} : Pat.valued p = true →
      SkSolo env S p ty u log t (some (v, t1)) log1 → SkInto env S ty ps v log1 t1 o log' →
      SkInto env S ty (p :: ps) u log t o log'
  | valueNo {ty p ps u log t log'} : Pat.valued p = true → SkSolo env S p ty u log t none log' →
      SkInto env S ty (p :: ps) u log t none log'
  | ignore {ty p ps u log t t1 log1 o log'} : Pat.valued p = false →
      SkNil env S p log t (some t1) log1 → SkInto env S ty ps u log1 t1 o log' →
      SkInto env S ty (p :: ps) u log t o log'
  | ignoreNo {ty p ps u log t log'} : Pat.valued p = false → SkNil env S p log t none log' →
      SkInto env S ty (p :: ps) u log t none log'

inductive SkNone (env : Env) (S : Eater) : Ty → Val → List Ch → List Pat → List LogEntry →
    List LogEntry → Prop
  | nil {ty u t log} : SkNone env S ty u t [] log log
  | cons {ty u t p ps log log1 log'} : Sk env S p ty u log t none log1 → SkNone env S ty u t ps log1 log' →
      SkNone env S ty u t (p :: ps) log log'

inductive SkMany (env : Env) (S : Eater) : Pat → Ty → List LogEntry → List Ch → List Val →
    List LogEntry → List Ch → Prop
  | nil {p ty log t} : SkMany env S p ty log t [] log t
  | cons {p ty log t v t1 log1 vs log' rest} : SkItem env S p ty ty.defaultInit log t (some (v, t1)) log1 →
      ty.Holds v → SkMany env S p ty log1 t1 vs log' rest → SkMany env S p ty log t (v :: vs) log' rest

inductive SkSep (env : Env) (S : Eater) : Pat → Pat → Ty → List LogEntry → List Ch → List Val →
    List LogEntry → List Ch → Prop
  | nil {op sep ty log t} : SkSep env S op sep ty log t [] log t
  | cons {op sep ty log t t1 log1 v t2 log2 vs log' rest} : SkNil env S sep log t (some t1) log1 →
      SkItem env S op ty ty.defaultInit log1 t1 (some (v, t2)) log2 → ty.Holds v →
      SkSep env S op sep ty log2 t2 vs log' rest → SkSep env S op sep ty log t (v :: vs) log' rest

section
variable {env : Env} {S : Eater} {p : Pat} {ty : Ty} {u : Val} {log log' : List LogEntry} {t : List Ch}
  {o : Option (Val × List Ch)}

/-! ### Tokens -/

theorem SkSolo.token (he : env.quiet) (henv : env.tidy false .none .none) (hq : p.quiet = true)
    (hk : p.token = true) (h : Solo env p ty u log (skipped S.set t) o log') : SkSolo env S p ty u log t o log' := by
  intro rc c cs T j i M x q bnd u0 hh hM hu
  refine hh.token hk (fun _ => rfl) henv fun k hk2 => ?_
  rw [← hk2] at h
  rw [elab_false]
  cases o with
  | some y =>
    obtain ⟨v, rest⟩ := y
    have h : Alone env p ty u log (T.drop k) .SUCCESS v log' rest := h
    have h2 : Alone env p ty u0 log (T.drop k) .SUCCESS v log' rest := by
      rcases hu with rfl | ⟨h1, h2⟩
      · exact h
      · obtain ⟨v2, h3, h4⟩ := h.restart (by simp) he hq h1 h2 u0
        rw [h4 rfl] at h3
        exact h3
    obtain ⟨i', L, M', e1, e2, _, e3, e4, _⟩ := h2.does hq he hM hh.log bnd
    exact ⟨_, i', L, M', e1, ⟨e3, e4⟩, rfl, e2⟩
  | none =>
    obtain ⟨v, rest, h⟩ : ∃ v rest, Alone env p ty u log (T.drop k) .FAILURE v log' rest := h
    have h2 : ∃ v, Alone env p ty u0 log (T.drop k) .FAILURE v log' rest := by
      rcases hu with rfl | ⟨h1, h2⟩
      · exact ⟨_, h⟩
      · obtain ⟨v2, h3, h4⟩ := h.restart (by simp) he hq h1 h2 u0
        exact ⟨_, h3⟩
    obtain ⟨v, h2⟩ := h2
    obtain ⟨i', L, M', e1, e2, _, e3, e4, _⟩ := h2.does hq he hM hh.log bnd
    exact ⟨_, i', L, M', e1, ⟨⟨_, e3⟩, e4⟩, rfl⟩

theorem SkItem.token (he : env.quiet) (henv : env.tidy false .none .none) (hq : p.quiet = true)
    (hk : p.token = true) (h : Solo env p ty u log (skipped S.set t) o log') : SkItem env S p ty u log t o log' := by
  intro hu hs hn hty hv c cs T j i M x q bnd us hh hM
  subst hu
  have hsk : p.unskipped = true := tidy_plain_unskipped p (tidy_unskipped p hh.tidy)
  refine hh.token hk (fun e => by cases e) henv fun k hk2 => ?_
  rw [← hk2] at h
  cases o with
  | some y =>
    obtain ⟨v, rest⟩ := y
    have h : Alone env p ty ty.defaultInit log (T.drop k) .SUCCESS v log' rest := h
    obtain ⟨i', L, M', e1, e2, e3, e4⟩ := h.item (by simp) (fun _ => hv _ _ rfl) hs hsk hq he hn hty false cs hM hh.log bnd
    exact ⟨_, i', L, M', e1, ⟨by simpa [gained] using e3, e4⟩, rfl, e2 rfl⟩
  | none =>
    obtain ⟨v, rest, h⟩ : ∃ v rest, Alone env p ty ty.defaultInit log (T.drop k) .FAILURE v log' rest := h
    obtain ⟨i', L, M', e1, e2, e3, e4⟩ := h.item (by simp) (by simp) hs hsk hq he hn hty false cs hM hh.log bnd
    exact ⟨_, i', L, M', e1, ⟨by simpa [gained] using e3, e4⟩, rfl⟩

theorem SkNil.token {o} (he : env.quiet) (henv : env.tidy false .none .none) (hq : p.quiet = true)
    (hk : p.token = true) (h : SoloNil env p log (skipped S.set t) o log') : SkNil env S p log t o log' := by
  intro rc c cs T j i M bnd hh
  refine hh.token hk (fun _ => rfl) henv fun k hk2 => ?_
  rw [← hk2] at h
  rw [elab_false]
  cases o with
  | some rest =>
    have h : AloneNil env p log (T.drop k) .SUCCESS log' rest := h
    obtain ⟨i', L, M', e1, e2, _, e4, _⟩ := h.does hq he hh.log bnd
    exact ⟨_, i', L, M', e1, e4, rfl, e2⟩
  | none =>
    obtain ⟨rest, h⟩ : ∃ rest, AloneNil env p log (T.drop k) .FAILURE log' rest := h
    obtain ⟨i', L, M', e1, e2, _, e4, _⟩ := h.does hq he hh.log bnd
    exact ⟨_, i', L, M', e1, e4, rfl⟩

/-! ### Adapters -/

theorem Here.uncleaned {rc c T j i} {M : Mem} (h : Here S p log t rc c T j i M) : (c && !(!rc && c)) = false := by
  have := h.reqs
  cases rc <;> cases c <;> simp_all

/-- Parsers that do not fail cleanly by themselves. -/
theorem Here.finish_clean {rc c T j i} {M : Mem} {dst bnd : Ref} {a cs : Bool} {raw : Prog} {o Q}
    (h : Here S p log t rc c T j i M)
    (he : elabP S.K ⟨a, c, cs, rc⟩ p = adapt (Req.skipper ⟨a, c, cs, rc⟩ S.K) false (!rc && c) raw)
    (hr : ∀ k, T.drop k = skipped S.set t → ReachBy (Ends env raw dst bnd T j k M) S T false t o Q) :
    ReachBy (Ends env (elabP S.K ⟨a, c, cs, rc⟩ p) dst bnd T j i M) S T c t o Q :=
  h.finish he fun k hk => by rw [h.uncleaned]; exact hr k hk

/-- Parsers that do. -/
theorem Here.finish_raw {rc c T j i} {M : Mem} {dst bnd : Ref} {a cs : Bool} {raw : Prog} {o Q}
    (h : Here S p log t rc c T j i M)
    (he : elabP S.K ⟨a, c, cs, rc⟩ p = adapt (Req.skipper ⟨a, c, cs, rc⟩ S.K) false false raw)
    (hr : ∀ k, T.drop k = skipped S.set t → ReachBy (Ends env raw dst bnd T j k M) S T c t o Q) :
    ReachBy (Ends env (elabP S.K ⟨a, c, cs, rc⟩ p) dst bnd T j i M) S T c t o Q :=
  h.finish he fun k hk => by simpa using hr k hk

/-- The `Atomic` adapter around a parser of an item. -/
theorem ReachBy.atomic {P : Prog} {T c j k} {M : Mem} {x q us bnd} (hn : ty ≠ .nil)
    (hv : ∀ v rest, o = some (v, rest) → ty.Holds v) (hM : M.look x q = .ok (.coll us))
    (hq : P.quiet = true) (he : env.quiet)
    (h : ReachBy (Ends env P (.at M.objs.length [] ty) bnd T j k ⟨M.objs ++ [ty.defaultInit], M.log⟩) S T c t
      (o.map Prod.snd) (Got M.objs.length [] log' o)) :
    ReachBy (Ends env (.atomic P) (.at x q (.coll ty)) bnd T j k M) S T c t (o.map Prod.snd)
      fun M' => M'.look x q = .ok (.coll (us ++ (o.map Prod.fst).toList)) ∧ M'.log = log' := by
  have hal := alloc_eq (m := M) hn
  have hlt := look_lt hM
  have frame : ∀ {r i' M'}, Ends env P (.at M.objs.length [] ty) bnd T j k
      ⟨M.objs ++ [ty.defaultInit], M.log⟩ r i' M' → M'.look x q = .ok (.coll us) := fun h =>
    h.keeps (.inl (.inl (by omega))) hq he (look_append hM)
  have up : ∀ {r i' M'}, Ends env P (.at M.objs.length [] ty) bnd T j k
      ⟨M.objs ++ [ty.defaultInit], M.log⟩ r i' M' →
      Ends env P (M.alloc (Ref.at x q (.coll ty)).valueType).1 bnd T j k
        (M.alloc (Ref.at x q (.coll ty)).valueType).2 r i' M' := fun h => by
    simp only [Ref.valueType, hal]; exact h
  cases o with
  | none =>
    obtain ⟨i', M', h1, h2, h3⟩ := h
    exact ⟨i', M', (up h1).atomic_fail, h2, by simpa using frame h1, h3.2⟩
  | some y =>
    obtain ⟨v, rest⟩ := y
    obtain ⟨i', M', h1, h2, h3, h4⟩ := h
    have hh := hv _ _ rfl
    obtain ⟨M2, e1, e2, e3⟩ := assign_push (Ty.convert_of_holds hh) (frame h1)
    refine ⟨i', M2, (up h1).atomic ?_, h2, by simpa using e2, e3.trans h4⟩
    have hrd : M'.read (M.alloc (Ref.at x q (.coll ty)).valueType).1 = .ok v := by
      simp only [Ref.valueType, hal]; exact h3
    have hne := holds_ne_indet hh
    simp only [Mem.assignFrom, hrd]
    cases v <;> first | exact absurd rfl hne | exact e1

/-- The parsers of items that are wrapped in `Atomic`. -/
theorem SkSolo.lift (h : SkSolo env S p ty u log t o log') (he : env.quiet) (hq : p.quiet = true)
    (ht : p.tidy true .none .none false .none .none = true) {raw : Bool → Prog}
    (h1 : ∀ c cs, elabP S.K ⟨true, c, cs, false⟩ p =
      adapt S.K true (c && !p.FAILS_CLEANLY) (raw cs))
    (h2 : ∀ cs, elabP S.K ⟨false, false, cs, true⟩ p = raw cs)
    (hf : p.FAILS_CLEANLY = false ∨ o ≠ none) : SkItem env S p ty u log t o log' := by
  intro hu hs hn hty hv c cs T j i M x q bnd us hh hM
  subst hu
  refine hh.finish (cl := c && !p.FAILS_CLEANLY) (raw := .atomic (raw cs)) (h1 c cs) fun k hk => ?_
  have hq2 : (raw cs).quiet = true := by rw [← h2 cs]; exact elab_quiet p hq S.quiet
  have hh2 : Here S p log t true false T j k ⟨M.objs ++ [ty.defaultInit], M.log⟩ :=
    { hh.child (rc' := true) (c' := false) hk ht (fun _ => rfl) with log := hh.log }
  have h3 := h (cs := cs) bnd hh2 (x := M.objs.length) (q := []) (u0 := ty.defaultInit) (look_nil.2 (by simp)) (.inl rfl)
  rw [h2] at h3
  refine ReachBy.atomic hn hv hM hq2 he ?_
  cases o with
  | some y => exact h3
  | none =>
    rcases hf with hf | hf
    · rw [hf]
      have : (c && !(c && !false)) = false := by cases c <;> rfl
      rw [this]
      exact h3
    · exact absurd rfl hf

/-! ### One operand -/

theorem SkSolo.discard {rest} (h : SkNil env S p log t (some rest) log') (hq : p.quiet = true) (he : env.quiet) :
    SkSolo env S (.discard p) ty u log t (some (u, rest)) log' := by
  intro rc c cs T j i M x q bnd u0 hh hM hu
  have hu : u0 = u := by
    rcases hu with hu | ⟨hu, _⟩
    · exact hu
    · cases hu
  subst hu
  refine hh.finish_raw (raw := .discard (elabP S.K ⟨false, c, cs, rc⟩ p)) ?_ fun k hk => ?_
  · cases rc <;> cases c <;> rfl
  · obtain ⟨i', M', h1, h2, h3⟩ := h (cs := cs) bnd (hh.child (rc' := rc) (c' := c) hk hh.tidy hh.reqs)
    exact ⟨i', M', h1.discard, h2, h1.keeps (.inl trivial) (elab_quiet p hq S.quiet) he hM, h3⟩

theorem SkSolo.discardNo (h : SkNil env S p log t none log') (hq : p.quiet = true) (he : env.quiet) :
    SkSolo env S (.discard p) ty u log t none log' := by
  intro rc c cs T j i M x q bnd u0 hh hM hu
  refine hh.finish_raw (raw := .discard (elabP S.K ⟨false, c, cs, rc⟩ p)) ?_ fun k hk => ?_
  · cases rc <;> cases c <;> rfl
  · obtain ⟨i', M', h1, h2, h3⟩ := h (cs := cs) bnd (hh.child (rc' := rc) (c' := c) hk hh.tidy hh.reqs)
    exact ⟨i', M', h1.discard, h2, ⟨_, h1.keeps (.inl trivial) (elab_quiet p hq S.quiet) he hM⟩, h3⟩

theorem SkNil.discard {o} (h : SkNil env S p log t o log') : SkNil env S (.discard p) log t o log' := by
  intro rc c cs T j i M bnd hh
  refine hh.finish_raw (raw := .discard (elabP S.K ⟨false, c, cs, rc⟩ p)) ?_ fun k hk => ?_
  · cases rc <;> cases c <;> rfl
  · exact (h (cs := cs) bnd (hh.child (rc' := rc) (c' := c) hk hh.tidy hh.reqs)).map (fun _ _ _ h => h.discard) id fun _ => id

theorem SkSolo.bindDst (h : SkSolo env S p ty u log t o log') : SkSolo env S (.bindDst p) ty u log t o log' := by
  intro rc c cs T j i M x q bnd u0 hh hM hu
  have hu : u0 = u := by
    rcases hu with hu | ⟨hu, _⟩
    · exact hu
    · cases hu
  refine hh.finish_raw (raw := .bindDst (elabP S.K ⟨false, c, cs, false⟩ p)) ?_ fun k hk => ?_
  · cases rc <;> cases c <;> rfl
  · exact (h (cs := cs) (.at x q ty) (hh.child (rc' := false) (c' := c) hk hh.tidy (fun e => by cases e)) hM (.inl hu)).map
      (fun _ _ _ h => h.bindDst) id fun _ => id

theorem SkItem.bindDst (h : SkSolo env S p ty u log t o log') (hq : p.quiet = true) (he : env.quiet) :
    SkItem env S (.bindDst p) ty u log t o log' := by
  intro hu hs hn hty hv c cs T j i M x q bnd us hh hM
  subst hu
  refine hh.finish_raw (raw := .atomic (.bindDst (elabP S.K ⟨false, c, cs, false⟩ p))) ?_ fun k hk => ?_
  · cases c <;> rfl
  · refine ReachBy.atomic hn hv hM (elab_quiet p hq S.quiet) he ?_
    have hh2 : Here S p log t false c T j k ⟨M.objs ++ [ty.defaultInit], M.log⟩ :=
      { hh.child (rc' := false) (c' := c) hk hh.tidy (fun e => by cases e) with log := hh.log }
    exact (h (cs := cs) (.at M.objs.length [] ty) hh2 (look_nil.2 (by simp)) (.inl rfl)).map
      (fun _ _ _ h => h.bindDst) id fun _ => id

theorem SkSolo.recur {q : Pat} {id n} (hid : env id = some q) (henv : env.tidy true .none .none)
    (h : SkSolo env S q ty u log t o log') : SkSolo env S (.recur id n) ty u log t o log' := by
  intro rc c cs T j i M x y bnd u0 hh hM hu
  have hu : u0 = u := by
    rcases hu with hu | ⟨hu, _⟩
    · exact hu
    · cases hu
  refine hh.finish_clean (raw := .recur id S.K) ?_ fun k hk => ?_
  · cases rc <;> cases c <;> rfl
  · have hh2 : Here S q log t true false T k k M :=
      ⟨henv _ _ hid, fun _ => rfl, fun _ => hk, near_skipped hk, near_skipped hk, hh.log⟩
    exact (h (cs := false) bnd hh2 hM (.inl hu)).map (fun _ _ _ h => .recur hid h) (fun h => h) fun _ h => h

theorem SkNil.recur {q : Pat} {id n o} (hid : env id = some q) (henv : env.tidy true .none .none)
    (h : SkNil env S q log t o log') : SkNil env S (.recur id n) log t o log' := by
  intro rc c cs T j i M bnd hh
  refine hh.finish_clean (raw := .recur id S.K) ?_ fun k hk => ?_
  · cases rc <;> cases c <;> rfl
  · have hh2 : Here S q log t true false T k k M :=
      ⟨henv _ _ hid, fun _ => rfl, fun _ => hk, near_skipped hk, near_skipped hk, hh.log⟩
    exact (h (cs := false) bnd hh2).map (fun _ _ _ h => .recur hid h) (fun h => h) fun _ h => h

theorem SkSolo.not (h : SkSolo env S p ty u log t none log') (htr : p.traceless false = true) (hq : p.quiet = true)
    (he : env.quiet) : SkSolo env S (.not p) ty u log t (some (u, t)) log' := by
  intro rc c cs T j i M x q bnd u0 hh hM hu
  have hu : u0 = u := by
    rcases hu with hu | ⟨hu, _⟩
    · exact hu
    · cases hu
  subst hu
  refine hh.finish_raw (raw := .not (elabP S.K ⟨false, false, cs, false⟩ p)) ?_ fun k hk => ?_
  · cases rc <;> cases c <;> rfl
  · obtain ⟨i', M', h1, h2, h3⟩ := h (cs := cs) bnd (hh.child (rc' := false) (c' := false) hk
      (by have := hh.tidy; simp only [Pat.tidy] at this; exact this) (fun e => by cases e)) hM (.inl rfl)
    exact ⟨j, M', h1.not_fail, hh.made,
      h1.extends_af (af_elab p (fun e => by cases e) htr) (elab_quiet p hq S.quiet) he hM, h3.2⟩

theorem SkSolo.notNo {v rest} (h : SkSolo env S p ty u log t (some (v, rest)) log') :
    SkSolo env S (.not p) ty u log t none log' := by
  intro rc c cs T j i M x q bnd u0 hh hM hu
  have hu : u0 = u := by
    rcases hu with hu | ⟨hu, _⟩
    · exact hu
    · cases hu
  refine hh.finish_raw (raw := .not (elabP S.K ⟨false, false, cs, false⟩ p)) ?_ fun k hk => ?_
  · cases rc <;> cases c <;> rfl
  · obtain ⟨i', M', h1, h2, h3, h4⟩ := h (cs := cs) bnd (hh.child (rc' := false) (c' := false) hk
      (by have := hh.tidy; simp only [Pat.tidy] at this; exact this) (fun e => by cases e)) hM (.inl hu)
    exact ⟨j, M', h1.not_succ, fun _ => hh.made, ⟨_, h3⟩, h4⟩

theorem SkArg.nil {o} (h : SkNil env S p log t (o.map Prod.snd) log') (ho : ∀ v rest, o = some (v, rest) → v = .nil)
    (hq : p.quiet = true) (he : env.quiet) : SkArg env S p .nil log t o log' := by
  intro c cs T j i M bnd hh
  have h1 := h (cs := cs) bnd hh
  have hk : ∀ {r i' M'}, Ends env (elabP S.K ⟨false, c, cs, false⟩ p) .nil bnd T j i M r i' M' →
      ∀ x q w, M.look x q = .ok w → M'.look x q = .ok w := fun h x q w hw =>
    h.keeps (.inl trivial) (elab_quiet p hq S.quiet) he hw
  cases o with
  | none =>
    obtain ⟨i', M', h1, h2, h3⟩ := h1
    exact ⟨i', M', h1, h2, h3, hk h1, fun v rest e => by cases e⟩
  | some y =>
    obtain ⟨v, rest⟩ := y
    obtain ⟨i', M', h1, h2, h3⟩ := h1
    obtain rfl := ho _ _ rfl
    exact ⟨i', M', h1, h2, h3, hk h1, fun v rest e => by cases e; rfl⟩

theorem SkArg.value (h : SkSolo env S p ty ty.defaultInit log t o log') (hn : ty ≠ .nil)
    (hq : p.quiet = true) (he : env.quiet) : SkArg env S p ty log t o log' := by
  intro c cs T j i M bnd hh
  have hh2 : Here S p log t false c T j i ⟨M.objs ++ [ty.defaultInit], M.log⟩ := { hh with log := hh.log }
  have h1 := h (cs := cs) bnd hh2 (x := M.objs.length) (q := []) (look_nil.2 (by simp)) (.inl rfl)
  rw [alloc_eq hn]
  have hk : ∀ {r i' M'}, Ends env (elabP S.K ⟨false, c, cs, false⟩ p) (.at M.objs.length [] ty) bnd T j i
      ⟨M.objs ++ [ty.defaultInit], M.log⟩ r i' M' →
      ∀ x q w, M.look x q = .ok w → M'.look x q = .ok w := fun h x q w hw =>
    h.keeps (.inl (.inl (by have := look_lt hw; omega))) (elab_quiet p hq S.quiet) he (look_append hw)
  cases o with
  | none =>
    obtain ⟨i', M', h1, h2, h3⟩ := h1
    exact ⟨i', M', h1, h2, h3.2, hk h1, fun v rest e => by cases e⟩
  | some y =>
    obtain ⟨v, rest⟩ := y
    obtain ⟨i', M', h1, h2, h3⟩ := h1
    exact ⟨i', M', h1, h2, h3.2, hk h1, fun v rest e => by cases e; exact h3.1⟩

theorem SkSolo.construct {tys args rest v} (h : SkSolo env S p (.tup tys) (.tup (Ty.valueInits tys)) log t (some (.tup args, rest)) log')
    (hm : MadeFrom ty args v) (hq : p.quiet = true) (he : env.quiet) :
    SkSolo env S (.construct tys p) ty u log t (some (v, rest)) log' := by
  intro rc c cs T j i M x q bnd u0 hh hM hu
  have ha : SkArg env S p (.tup tys) log t (some (.tup args, rest)) log' := .value h (by simp) hq he
  refine hh.finish_raw (raw := .construct tys (elabP S.K ⟨false, c, cs, false⟩ p)) ?_ fun k hk => ?_
  · cases rc <;> cases c <;> rfl
  · obtain ⟨i', M', h1, h2, h3, h4, h5⟩ := ha (cs := cs) bnd (hh.child (rc' := false) (c' := c) hk hh.tidy (fun e => by cases e))
    obtain ⟨M2, e1, e2, e3⟩ := hm.construct (h5 _ _ rfl) (h4 _ _ _ hM)
    exact ⟨i', M2, h1.construct e1, h2, e2, e3.trans h3⟩

theorem SkSolo.constructNo {tys} (h : SkSolo env S p (.tup tys) (.tup (Ty.valueInits tys)) log t none log')
    (hq : p.quiet = true) (he : env.quiet) :
    SkSolo env S (.construct tys p) ty u log t none log' := by
  intro rc c cs T j i M x q bnd u0 hh hM hu
  have ha : SkArg env S p (.tup tys) log t none log' := .value h (by simp) hq he
  refine hh.finish_raw (raw := .construct tys (elabP S.K ⟨false, c, cs, false⟩ p)) ?_ fun k hk => ?_
  · cases rc <;> cases c <;> rfl
  · obtain ⟨i', M', h1, h2, h3, h4, h5⟩ := ha (cs := cs) bnd (hh.child (rc' := false) (c' := c) hk hh.tidy (fun e => by cases e))
    exact ⟨i', M', h1.construct_fail, h2, ⟨_, h4 _ _ _ hM⟩, h3⟩

/-! ### Actions -/

theorem Here.action {a : Act} {rc c at' cs : Bool} {T j i} {M : Mem} {dst bnd : Ref} {o' : Option (List Ch)} {Q : Mem → Prop}
    (hh : Here S (.action a p) log t rc c T j i M) (h : SkArg env S p a.landing log t o log') (hrc : rc = true → at' = false)
    (hs : ∀ v rest (M' : Mem), o = some (v, rest) → M'.read (M.alloc a.landing).1 = .ok v → M'.log = log' →
      (∀ x q w, M.look x q = .ok w → M'.look x q = .ok w) →
      ∃ M2, M'.act a (M.alloc a.landing).1 dst bnd = .ok M2 ∧ Q M2 ∧ o' = some rest)
    (hf : ∀ M' : Mem, o = none → M'.log = log' → (∀ x q w, M.look x q = .ok w → M'.look x q = .ok w) → Q M' ∧ o' = none) :
    ReachBy (Ends env (elabP S.K ⟨at', c, cs, rc⟩ (.action a p)) dst bnd T j i M) S T c t o' Q := by
  refine hh.finish_raw (raw := .action a (elabP S.K ⟨false, c, cs, false⟩ p)) ?_ fun k hk => ?_
  · cases rc <;> cases c <;> cases at' <;> first | rfl | exact absurd (hrc rfl) (by simp)
  · have h1 := h (cs := cs) bnd (hh.child (rc' := false) (c' := c) hk hh.tidy (fun e => by cases e))
    cases o with
    | none =>
      obtain ⟨i', M', h1, h2, h3, h4, h5⟩ := h1
      obtain ⟨e1, rfl⟩ := hf M' rfl h3 h4
      exact ⟨i', M', h1.action_fail, h2, e1⟩
    | some y =>
      obtain ⟨v, rest⟩ := y
      obtain ⟨i', M', h1, h2, h3, h4, h5⟩ := h1
      obtain ⟨M2, e1, e2, rfl⟩ := hs v rest M' rfl (h5 _ _ rfl) h3 h4
      exact ⟨i', M2, h1.action e1, h2, e2⟩

theorem SkSolo.action {a : Act} {v rest u'} (h : SkArg env S p a.landing log t (some (v, rest)) log')
    (ha : a.param = false) (hv : a.void = false) (hne : v ≠ .indet)
    (hr : Receives ty u (a.fn log' v .nil).1 u') :
    SkSolo env S (.action a p) ty u log t (some (u', rest)) (log' ++ [⟨a.id, v⟩]) := by
  intro rc c cs T j i M x q bnd u0 hh hM hu
  have hr0 : Receives ty u0 (a.fn log' v .nil).1 u' := by
    rcases hu with rfl | ⟨_, hu⟩
    · exact hr
    · cases hr with
      | value h1 h2 => exact .value h1 h2
      | element => exact absurd rfl (hu _)
  refine hh.action h (fun _ => rfl) ?_ fun M' e => by cases e
  intro v2 rest2 M' e h1 h2 h3
  cases e
  obtain ⟨m2, e1, e2, e3⟩ := hr0.assign (m := ⟨M'.objs, log' ++ [⟨a.id, v⟩]⟩) (o := x) (q := q)
    (h3 x q u0 hM)
  refine ⟨m2, ?_, ⟨e2, e3⟩, rfl⟩
  rw [act_plain ha h1 hne, hv, h2]
  exact e1

theorem SkSolo.actionVoid {a : Act} {v rest} (h : SkArg env S p a.landing log t (some (v, rest)) log')
    (ha : a.param = false) (hv : a.void = true) (hne : v ≠ .indet) :
    SkSolo env S (.action a p) ty u log t (some (u, rest)) (log' ++ [⟨a.id, v⟩]) := by
  intro rc c cs T j i M x q bnd u0 hh hM hu
  have hu : u0 = u := by
    rcases hu with hu | ⟨hu, _⟩
    · exact hu
    · simp [Pat.assigns, hv] at hu
  subst hu
  refine hh.action h (fun _ => rfl) ?_ fun M' e => by cases e
  intro v2 rest2 M' e h1 h2 h3
  cases e
  refine ⟨⟨M'.objs, log' ++ [⟨a.id, v⟩]⟩, ?_, ⟨?_, ?_⟩, rfl⟩
  · rw [act_plain ha h1 hne, hv, h2]
    rfl
  · exact h3 x q u0 hM
  · rfl

theorem SkSolo.actionNo {a : Act} (h : SkArg env S p a.landing log t none log') :
    SkSolo env S (.action a p) ty u log t none log' := by
  intro rc c cs T j i M x q bnd u0 hh hM hu
  exact hh.action h (fun _ => rfl) (fun _ _ _ e => by cases e) fun M' _ h1 h2 => ⟨⟨⟨_, h2 _ _ _ hM⟩, h1⟩, rfl⟩

theorem SkItem.action {a : Act} {v rest u'} (h : SkArg env S p a.landing log t (some (v, rest)) log')
    (ha : a.param = false) (hv : a.void = false) (hne : v ≠ .indet)
    (hr : Receives ty u (a.fn log' v .nil).1 u') :
    SkItem env S (.action a p) ty u log t (some (u', rest)) (log' ++ [⟨a.id, v⟩]) := by
  intro hu hs hn hty hv2 c cs T j i M x q bnd us hh hM
  have hty := hty (by simp [Pat.assigns, hv])
  have e0 : (a.fn log' v .nil).1 = u' := by
    cases hr with
    | value h1 h2 => rfl
    | element => exact absurd rfl (hty _)
  refine hh.action h (fun e => by cases e) ?_ fun M' e => by cases e
  intro v2 rest2 M' e h1 h2 h3
  cases e
  obtain ⟨m2, e1, e2, e3⟩ := assign_push (m := ⟨M'.objs, log' ++ [⟨a.id, v⟩]⟩) (o := x) (q := q)
    (Ty.convert_of_holds (hv2 _ _ rfl)) (h3 x q _ hM)
  refine ⟨m2, ?_, ⟨by simpa using e2, e3⟩, rfl⟩
  rw [act_plain ha h1 hne, hv, h2, e0]
  exact e1

theorem SkItem.actionNo {a : Act} (h : SkArg env S p a.landing log t none log') :
    SkItem env S (.action a p) ty u log t none log' := by
  intro hu hs hn hty hv2 c cs T j i M x q bnd us hh hM
  exact hh.action h (fun e => by cases e) (fun _ _ _ e => by cases e) fun M' _ h1 h2 => ⟨⟨by simpa using h2 _ _ _ hM, h1⟩, rfl⟩

theorem SkNil.action {a : Act} {v rest} (h : SkArg env S p a.landing log t (some (v, rest)) log')
    (ha : a.param = false) (hne : v ≠ .indet) :
    SkNil env S (.action a p) log t (some rest) (log' ++ [⟨a.id, v⟩]) := by
  intro rc c cs T j i M bnd hh
  refine hh.action h (fun _ => rfl) ?_ fun M' e => by cases e
  intro v2 rest2 M' e h1 h2 h3
  cases e
  refine ⟨⟨M'.objs, log' ++ [⟨a.id, v⟩]⟩, ?_, ?_, rfl⟩
  · rw [act_plain ha h1 hne, h2]
    cases a.void <;> rfl
  · rfl

theorem SkNil.actionNo {a : Act} (h : SkArg env S p a.landing log t none log') :
    SkNil env S (.action a p) log t none log' := by
  intro rc c cs T j i M bnd hh
  exact hh.action h (fun _ => rfl) (fun _ _ _ e => by cases e) fun M' _ h1 h2 => ⟨h1, rfl⟩

end
end Abu
