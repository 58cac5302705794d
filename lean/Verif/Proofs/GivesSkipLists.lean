import Verif.Proofs.GivesSkipRules
/-
The values a grammar computes under a skipper: rules about several parts.
-/
namespace Abu

section
variable {env : Env} {S : Eater} {p : Pat} {ty : Ty} {u : Val} {log log' : List LogEntry} {t : List Ch}
  {o : Option (Val × List Ch)}

theorem under_none (c : Bool) : Stale.under c .none = .none := by cases c <;> rfl

theorem tidySeq_all : ∀ {ps : List Pat}, Pat.tidySeq true .none .none .none .none ps = true →
    ∀ p ∈ ps, p.tidy true .none .none false .none .none = true
  | [], _, p, h => by cases h
  | x :: ps, h, p, hp => by
    simp only [Pat.tidySeq, Bool.and_eq_true] at h
    rcases List.mem_cons.1 hp with rfl | hp
    · have := h.1
      cases ps <;> exact this
    · exact tidySeq_all h.2 p hp

theorem tidyAlt_all : ∀ {ps : List Pat}, Pat.tidyAlt true .none .none .none .none ps = true →
    ∀ p ∈ ps, p.tidy true .none .none true .none .none = true
  | [], _, p, h => by cases h
  | x :: ps, h, p, hp => by
    simp only [Pat.tidyAlt, Bool.and_eq_true] at h
    rcases List.mem_cons.1 hp with rfl | hp
    · have := h.1
      cases ps <;> exact this
    · exact tidyAlt_all h.2 p hp

theorem Here.parts {ps : List Pat} {rc c T j i} {M : Mem} (hh : Here S (.seq ps) log t rc c T j i M) :
    ∀ p ∈ ps, p.tidy true .none .none false .none .none = true := by
  have := hh.tidy
  simp only [Pat.tidy, Bool.and_eq_true] at this
  rw [under_none] at this
  exact tidySeq_all this.2

theorem Here.alts {ps : List Pat} {rc c T j i} {M : Mem} (hh : Here S (.alt ps) log t rc c T j i M) :
    ∀ p ∈ ps, p.tidy true .none .none true .none .none = true := by
  have := hh.tidy
  simp only [Pat.tidy, Bool.and_eq_true] at this
  exact tidyAlt_all this.2

/-- A part of something that begins near `t`. -/
theorem Here.mk' {c T j i} {M : Mem} (ht : p.tidy true .none .none c .none .none = true) (hi : Near S T i t)
    (hj : Near S T j t) (hl : M.log = log) : Here S p log t false c T j i M :=
  ⟨ht, fun e => by (cases e), fun e => by (cases e), hi, hj, hl⟩

/-! ### Sequences -/

theorem slotSet (us vs : List Val) (v v' : Val) : (us ++ v :: vs).set us.length v' = us ++ v' :: vs := by
  induction us with
  | nil => rfl
  | cons u us ih => simp only [List.cons_append, List.length_cons, List.set_cons_succ, ih]

theorem slotDst {x : Nat} {q : List Nat} {us : List Val} {ts0 : List Ty} {ty : Ty} {ts : List Ty} (h1 : ts0.drop us.length = ty :: ts)
    (h2 : ty ≠ .nil) : seqDst (.at x q (.tup ts0)) (some us.length) = some (.at x (q ++ [us.length]) ty) := by
  simp only [seqDst, (getElem?_of_drop h1).1, Option.map_some]
  cases ty <;> first | exact absurd rfl h2 | rfl

theorem SkEach.reach (he : env.quiet) {T : List Ch} {x : Nat} {q : List Nat} {ts0 : List Ty} (bnd : Ref)
    {ps ts vs log t o log'} (h : SkEach env S ps ts vs log t o log') :
    ∀ {us : List Val} {j i : Nat} {M : Mem}, ps ≠ [] → (∀ p ∈ ps, p.quiet = true) →
      (∀ p ∈ ps, p.tidy true .none .none false .none .none = true) → (∀ ty ∈ ts, ty ≠ .nil) →
      ts0.drop us.length = ts → Near S T i t → Near S T j t → M.look x q = .ok (.tup (us ++ vs)) → M.log = log →
      ReachBy (SeqEnds env (.at x q (.tup ts0)) bnd T (tupleSlots us.length ps)
          (elabPs S.K ⟨false, false, false, false⟩ ps) j i M) S T false t (o.map Prod.snd)
        fun M' => (∃ ws', (∀ ws rest, o = some (ws, rest) → ws' = ws) ∧ M'.look x q = .ok (.tup (us ++ ws'))) ∧
          M'.log = log' := by
  have child : ∀ {p : Pat} {ty : Ty} {v : Val} {us vs : List Val} {M M1 : Mem} {v' : Val} {j i r i1},
      M.look x q = .ok (.tup (us ++ v :: vs)) → p.quiet = true →
      Ends env (elabP S.K ⟨false, false, false, false⟩ p) (.at x (q ++ [us.length]) ty) bnd T j i M r i1 M1 →
      M1.look x (q ++ [us.length]) = .ok v' → M1.look x q = .ok (.tup (us ++ v' :: vs)) := by
    intro p ty v us vs M M1 v' j i r i1 hM hq hd hv1
    rw [← slotSet us vs v v']
    refine look_slot hM (by simp) hv1 fun j hj => ?_
    exact (hd.keeps_eq (.inl (.inr (snoc_diverge q hj))) (elab_quiet p hq S.quiet) he (look_lt hM)).2
  have slot : ∀ {v : Val} {us vs : List Val} {M : Mem}, M.look x q = .ok (.tup (us ++ v :: vs)) →
      M.look x (q ++ [us.length]) = .ok v := by
    intro v us vs M hM
    rw [look_snoc hM]; simp
  induction h with
  | nil => intro _ _ _ _ hne; exact absurd rfl hne
  | @value p ps ty ts v vs log t v' t1 log1 ws rest log' hb ha hrest ih =>
    intro us j i M _ hq ht hty hts hi hj hM hl
    have hnn := hty ty (by simp)
    obtain ⟨i1, M1, h1, h2, h3, h4⟩ := ha (cs := false) bnd (Here.mk' (ht p (by simp)) hi hj hl) (slot hM) (.inl rfl)
    have hM1 := child hM (hq p (by simp)) h1 h3
    simp only [tupleSlots, value_of_valued hb, elabPs]
    cases ps with
    | nil =>
      cases hrest
      exact ⟨i1, M1, .last (slotDst hts hnn) h1 (by simp), h2, ⟨_, fun _ _ e => by cases e; rfl, hM1⟩, h4⟩
    | cons p2 ps =>
      obtain ⟨i2, M2, e1, e2, ⟨ws', e3, e4⟩, e5⟩ := ih (us := us ++ [v']) (j := i1) (i := i1) (M := M1) (by simp)
        (fun p hp => hq p (by simp [hp])) (fun p hp => ht p (by simp [hp]))
        (fun ty h => hty ty (by simp [h]))
        (by rw [List.length_append]; exact (getElem?_of_drop hts).2) h2 h2 (by simpa using hM1) h4
      rw [List.length_append] at e1
      obtain rfl := e3 _ _ rfl
      exact ⟨i2, M2, .cons (slotDst hts hnn) h1 e1, e2, ⟨_, fun _ _ e => by cases e; rfl, by simpa using e4⟩, e5⟩
  | @valueNo p ps ty ts v vs log t log' hb ha =>
    intro us j i M _ hq ht hty hts hi hj hM hl
    have hnn := hty ty (by simp)
    obtain ⟨i1, M1, h1, _, ⟨w, h3⟩, h4⟩ := ha (cs := false) bnd (Here.mk' (ht p (by simp)) hi hj hl) (slot hM) (.inl rfl)
    have hM1 := child hM (hq p (by simp)) h1 h3
    simp only [tupleSlots, value_of_valued hb, elabPs]
    exact ⟨i1, M1, .fail (slotDst hts hnn) h1, fun e => by (cases e), ⟨_, fun _ _ e => by (cases e), hM1⟩, h4⟩
  | @laterNo p ps ty ts v vs log t v' t1 log1 log' hb ha hrest ih =>
    intro us j i M _ hq ht hty hts hi hj hM hl
    have hnn := hty ty (by simp)
    obtain ⟨i1, M1, h1, h2, h3, h4⟩ := ha (cs := false) bnd (Here.mk' (ht p (by simp)) hi hj hl) (slot hM) (.inl rfl)
    have hM1 := child hM (hq p (by simp)) h1 h3
    simp only [tupleSlots, value_of_valued hb, elabPs]
    cases ps with
    | nil => cases hrest
    | cons p2 ps =>
      obtain ⟨i2, M2, e1, e2, ⟨ws', e3, e4⟩, e5⟩ := ih (us := us ++ [v']) (j := i1) (i := i1) (M := M1) (by simp)
        (fun p hp => hq p (by simp [hp])) (fun p hp => ht p (by simp [hp]))
        (fun ty h => hty ty (by simp [h]))
        (by rw [List.length_append]; exact (getElem?_of_drop hts).2) h2 h2 (by simpa using hM1) h4
      rw [List.length_append] at e1
      exact ⟨i2, M2, .cons (slotDst hts hnn) h1 e1, fun e => by (cases e), ⟨v' :: ws', fun _ _ e => by (cases e), by simpa using e4⟩, e5⟩
  | @ignore p ps ts vs log t t1 log1 o log' hb ha hrest ih =>
    intro us j i M _ hq ht hty hts hi hj hM hl
    obtain ⟨i1, M1, h1, h2, h4⟩ := ha (cs := false) bnd (Here.mk' (ht p (by simp)) hi hj hl)
    have hM1 := h1.keeps (.inl trivial) (elab_quiet p (hq p (by simp)) S.quiet) he hM
    simp only [tupleSlots, ignore_of_valued hb, elabPs]
    cases ps with
    | nil =>
      cases hrest
      exact ⟨i1, M1, .last rfl h1 (by simp), h2, ⟨_, fun _ _ e => by cases e; rfl, hM1⟩, h4⟩
    | cons p2 ps =>
      have := ih (us := us) (j := i1) (i := i1) (M := M1) (by simp)
        (fun p hp => hq p (by simp [hp])) (fun p hp => ht p (by simp [hp])) hty hts h2 h2 hM1 h4
      cases o with
      | none =>
        obtain ⟨i2, M2, e1, e2, e3⟩ := this
        exact ⟨i2, M2, .cons rfl h1 e1, fun e => by (cases e), e3⟩
      | some y =>
        obtain ⟨i2, M2, e1, e2, e3⟩ := this
        exact ⟨i2, M2, .cons rfl h1 e1, e2, e3⟩
  | @ignoreNo p ps ts vs log t log' hb ha =>
    intro us j i M _ hq ht hty hts hi hj hM hl
    obtain ⟨i1, M1, h1, h2, h4⟩ := ha (cs := false) bnd (Here.mk' (ht p (by simp)) hi hj hl)
    have hM1 := h1.keeps (.inl trivial) (elab_quiet p (hq p (by simp)) S.quiet) he hM
    simp only [tupleSlots, ignore_of_valued hb, elabPs]
    exact ⟨i1, M1, .fail rfl h1, fun e => by (cases e), ⟨_, fun _ _ e => by (cases e), hM1⟩, h4⟩

theorem SkInto.reach (he : env.quiet) {T : List Ch} {x : Nat} {q : List Nat} (bnd : Ref) (hty : ∀ ts, ty ≠ .tup ts)
    {ps u log t o log'} (h : SkInto env S ty ps u log t o log') :
    ∀ {n j i : Nat} {M : Mem}, ps ≠ [] → (∀ p ∈ ps, p.quiet = true) →
      (∀ p ∈ ps, p.tidy true .none .none false .none .none = true) →
      Near S T i t → Near S T j t → M.look x q = .ok u → M.log = log →
      ReachBy (SeqEnds env (.at x q ty) bnd T (tupleSlots n ps)
          (elabPs S.K ⟨false, false, false, false⟩ ps) j i M) S T false t (o.map Prod.snd) (Got x q log' o) := by
  have slot : ∀ k, seqDst (.at x q ty) (some k) = some (.at x q ty) := by
    intro k
    cases ty <;> first | rfl | exact absurd rfl (hty _)
  induction h with
  | nil => intro _ _ _ _ hne; exact absurd rfl hne
  | @value p ps u log t v t1 log1 o log' hb ha hrest ih =>
    intro n j i M _ hq ht hi hj hM hl
    obtain ⟨i1, M1, h1, h2, h3, h4⟩ := ha (cs := false) bnd (Here.mk' (ht p (by simp)) hi hj hl) hM (.inl rfl)
    simp only [tupleSlots, value_of_valued hb, elabPs]
    cases ps with
    | nil =>
      cases hrest
      exact ⟨i1, M1, .last (slot _) h1 (by simp), h2, h3, h4⟩
    | cons p2 ps =>
      have := ih (n := n + 1) (j := i1) (i := i1) (M := M1) (by simp)
        (fun p hp => hq p (by simp [hp])) (fun p hp => ht p (by simp [hp])) h2 h2 h3 h4
      cases o with
      | none =>
        obtain ⟨i2, M2, e1, e2, e3⟩ := this
        exact ⟨i2, M2, .cons (slot _) h1 e1, fun e => by (cases e), e3⟩
      | some y =>
        obtain ⟨i2, M2, e1, e2, e3⟩ := this
        exact ⟨i2, M2, .cons (slot _) h1 e1, e2, e3⟩
  | @valueNo p ps u log t log' hb ha =>
    intro n j i M _ hq ht hi hj hM hl
    obtain ⟨i1, M1, h1, h2, h3⟩ := ha (cs := false) bnd (Here.mk' (ht p (by simp)) hi hj hl) hM (.inl rfl)
    simp only [tupleSlots, value_of_valued hb, elabPs]
    exact ⟨i1, M1, .fail (slot _) h1, fun e => by (cases e), h3⟩
  | @ignore p ps u log t t1 log1 o log' hb ha hrest ih =>
    intro n j i M _ hq ht hi hj hM hl
    obtain ⟨i1, M1, h1, h2, h4⟩ := ha (cs := false) bnd (Here.mk' (ht p (by simp)) hi hj hl)
    have hM1 := h1.keeps (.inl trivial) (elab_quiet p (hq p (by simp)) S.quiet) he hM
    simp only [tupleSlots, ignore_of_valued hb, elabPs]
    cases ps with
    | nil =>
      cases hrest
      exact ⟨i1, M1, .last rfl h1 (by simp), h2, hM1, h4⟩
    | cons p2 ps =>
      have := ih (n := n) (j := i1) (i := i1) (M := M1) (by simp)
        (fun p hp => hq p (by simp [hp])) (fun p hp => ht p (by simp [hp])) h2 h2 hM1 h4
      cases o with
      | none =>
        obtain ⟨i2, M2, e1, e2, e3⟩ := this
        exact ⟨i2, M2, .cons rfl h1 e1, fun e => by (cases e), e3⟩
      | some y =>
        obtain ⟨i2, M2, e1, e2, e3⟩ := this
        exact ⟨i2, M2, .cons rfl h1 e1, e2, e3⟩
  | @ignoreNo p ps u log t log' hb ha =>
    intro n j i M _ hq ht hi hj hM hl
    obtain ⟨i1, M1, h1, h2, h4⟩ := ha (cs := false) bnd (Here.mk' (ht p (by simp)) hi hj hl)
    have hM1 := h1.keeps (.inl trivial) (elab_quiet p (hq p (by simp)) S.quiet) he hM
    simp only [tupleSlots, ignore_of_valued hb, elabPs]
    exact ⟨i1, M1, .fail rfl h1, fun e => by (cases e), ⟨_, hM1⟩, h4⟩

theorem SkNils.reach {T : List Ch} (bnd : Ref) {ps log t o log'} (h : SkNils env S ps log t o log') :
    ∀ {n j i : Nat} {M : Mem}, ps ≠ [] → (∀ p ∈ ps, p.tidy true .none .none false .none .none = true) →
      Near S T i t → Near S T j t → M.log = log →
      ReachBy (SeqEnds env .nil bnd T (tupleSlots n ps)
          (elabPs S.K ⟨false, false, false, false⟩ ps) j i M) S T false t o fun M' => M'.log = log' := by
  have head : ∀ n (p : Pat) ps, ∃ s n', tupleSlots n (p :: ps) = s :: tupleSlots n' ps := by
    intro n p ps
    simp only [tupleSlots]
    cases p.dstBehavior <;> exact ⟨_, _, rfl⟩
  have slot : ∀ k, seqDst .nil k = some .nil := fun _ => rfl
  induction h with
  | nil => intro _ _ _ _ hne; exact absurd rfl hne
  | @cons p ps log t t1 log1 o log' ha hrest ih =>
    intro n j i M _ ht hi hj hl
    obtain ⟨i1, M1, h1, h2, h4⟩ := ha (cs := false) bnd (Here.mk' (ht p (by simp)) hi hj hl)
    obtain ⟨s, n', hs⟩ := head n p ps
    simp only [hs, elabPs]
    cases ps with
    | nil =>
      cases hrest
      exact ⟨i1, M1, .last rfl h1 (by simp), h2, h4⟩
    | cons p2 ps =>
      have := ih (n := n') (j := i1) (i := i1) (M := M1) (by simp) (fun p hp => ht p (by simp [hp])) h2 h2 h4
      cases o with
      | none =>
        obtain ⟨i2, M2, e1, e2, e3⟩ := this
        exact ⟨i2, M2, .cons rfl h1 e1, fun e => by (cases e), e3⟩
      | some y =>
        obtain ⟨i2, M2, e1, e2, e3⟩ := this
        exact ⟨i2, M2, .cons rfl h1 e1, e2, e3⟩
  | @consNo p ps log t log' ha =>
    intro n j i M _ ht hi hj hl
    obtain ⟨i1, M1, h1, h2, h4⟩ := ha (cs := false) bnd (Here.mk' (ht p (by simp)) hi hj hl)
    obtain ⟨s, n', hs⟩ := head n p ps
    simp only [hs, elabPs]
    exact ⟨i1, M1, .fail rfl h1, fun e => by (cases e), h4⟩

theorem elab_seq {ps : List Pat} {rc c cs a : Bool} (h : a = false ∨ rc = true) : elabP S.K ⟨a, c, cs, rc⟩ (.seq ps) =
    adapt (Req.skipper ⟨a, c, cs, rc⟩ S.K) false (!rc && c)
      (.seq (tupleSlots 0 ps) (elabPs S.K ⟨false, false, false, false⟩ ps)) := by
  cases rc <;> cases c <;> cases a <;> first | rfl | simp at h

theorem SkSolo.seqInto {ps : List Pat} (h : SkInto env S ty ps u log t o log') (hne : ps ≠ []) (hty : ∀ ts, ty ≠ .tup ts)
    (hq : ∀ p ∈ ps, p.quiet = true) (he : env.quiet) : SkSolo env S (.seq ps) ty u log t o log' := by
  intro rc c cs T j i M x q bnd u0 hh hM hu
  have hu : u0 = u := by
    rcases hu with hu | ⟨hu, _⟩
    · exact hu
    · cases hu
  subst hu
  refine hh.finish_clean (elab_seq (.inl rfl)) fun k hk => ?_
  exact (h.reach he bnd hty (n := 0) hne hq hh.parts (near_skipped hk) hh.made hM hh.log).map
    (fun _ _ _ h => h.ends) id fun _ => id

theorem SkNil.seq {ps : List Pat} {o} (h : SkNils env S ps log t o log') (hne : ps ≠ []) :
    SkNil env S (.seq ps) log t o log' := by
  intro rc c cs T j i M bnd hh
  refine hh.finish_clean (elab_seq (.inl rfl)) fun k hk => ?_
  exact (h.reach bnd (n := 0) hne hh.parts (near_skipped hk) hh.made hh.log).map
    (fun _ _ _ h => h.ends) id fun _ => id

theorem SkSolo.seq {ps : List Pat} {ts vs o} (h : SkEach env S ps ts vs log t o log') (hne : ps ≠ [])
    (hty : ∀ ty ∈ ts, ty ≠ .nil) (hq : ∀ p ∈ ps, p.quiet = true) (he : env.quiet) :
    SkSolo env S (.seq ps) (.tup ts) (.tup vs) log t (o.map fun x => (.tup x.1, x.2)) log' := by
  intro rc c cs T j i M x q bnd u0 hh hM hu
  have hu : u0 = .tup vs := by
    rcases hu with hu | ⟨hu, _⟩
    · exact hu
    · cases hu
  subst hu
  refine hh.finish_clean (elab_seq (.inl rfl)) fun k hk => ?_
  have := h.reach he (ts0 := ts) bnd (us := []) hne hq hh.parts hty rfl (near_skipped hk) hh.made hM hh.log
  cases o with
  | none =>
    obtain ⟨i', M', h1, h2, ⟨ws, h3, h4⟩, h5⟩ := this
    exact ⟨i', M', h1.ends, h2, ⟨_, h4⟩, h5⟩
  | some y =>
    obtain ⟨ws0, rest⟩ := y
    obtain ⟨i', M', h1, h2, ⟨ws, h3, h4⟩, h5⟩ := this
    obtain rfl := h3 _ _ rfl
    exact ⟨i', M', h1.ends, h2, h4, h5⟩

/-! ### Alternatives -/

/-- All of the parsers fail, one after the other. -/
inductive FailsAll (env : Env) (dst bnd : Ref) (T : List Ch) : List Prog → Nat → Nat → Mem → Nat → Nat → Mem → Prop
  | nil {j i M} : FailsAll env dst bnd T [] j i M j i M
  | cons {P Ps j i M i1 M1 j2 i2 M2} : Ends env P dst bnd T j i M .FAILURE i1 M1 →
      FailsAll env dst bnd T Ps i1 i1 M1 j2 i2 M2 → FailsAll env dst bnd T (P :: Ps) j i M j2 i2 M2

theorem FailsAll.then {dst bnd T Ps j i M j1 i1 M1 Qs r i' M'} (h : FailsAll env dst bnd T Ps j i M j1 i1 M1)
    (h2 : AltEnds env dst bnd T Qs j1 i1 M1 r i' M') : AltEnds env dst bnd T (Ps ++ Qs) j i M r i' M' := by
  induction h with
  | nil => exact h2
  | cons h1 _ ih => exact .cons h1 (ih h2)

theorem FailsAll.fail {dst bnd T Ps j i M j1 i1 M1} (h : FailsAll env dst bnd T Ps j i M j1 i1 M1)
    (hne : Ps ≠ []) : AltEnds env dst bnd T Ps j i M .FAILURE i1 M1 := by
  induction h with
  | nil => exact absurd rfl hne
  | @cons P Ps j i M i1 M1 j2 i2 M2 h1 h2 ih =>
    cases Ps with
    | nil => cases h2; exact .last h1
    | cons Q Qs => exact .cons h1 (ih (by simp))

theorem elabs_append (sk : Prog) (r : Req) : ∀ (ps qs : List Pat), elabPs sk r (ps ++ qs) = elabPs sk r ps ++ elabPs sk r qs
  | [], qs => rfl
  | p :: ps, qs => by simp only [List.cons_append, elabPs, elabs_append sk r ps qs]

theorem elabs_ne {sk : Prog} {r : Req} {ps : List Pat} (h : ps ≠ []) : elabPs sk r ps ≠ [] := by
  cases ps with
  | nil => exact absurd rfl h
  | cons => simp [elabPs]

theorem elab_alt {ps : List Pat} {rc c cs a : Bool} : elabP S.K ⟨a, c, cs, rc⟩ (.alt ps) =
    adapt (Req.skipper ⟨a, c, cs, rc⟩ S.K) false false (.alt (elabPs S.K ⟨a, true, cs, false⟩ ps)) := by
  cases rc <;> cases c <;> cases a <;> rfl

theorem SkNone.solo {T : List Ch} {x : Nat} {q : List Nat} {bnd : Ref} {cs : Bool} (he : env.quiet) {ps t}
    (h : SkNone env S ty u t ps log log') :
    ∀ {j i : Nat} {M : Mem} {u0}, (∀ p ∈ ps, p.quiet = true) →
      (∀ p ∈ ps, p.tidy true .none .none true .none .none = true) → Near S T i t → Near S T j t → M.log = log →
      M.look x q = .ok u0 →
      (u0 = u ∧ (∀ p ∈ ps, p.traceless false = true) ∨ (∀ p ∈ ps, p.assigns = true) ∧ ∀ e, ty ≠ .coll e) →
      ∃ j1 i1 M1 u1, FailsAll env (.at x q ty) bnd T (elabPs S.K ⟨false, true, cs, false⟩ ps) j i M j1 i1 M1 ∧
        Near S T j1 t ∧ Near S T i1 t ∧ M1.log = log' ∧ M1.look x q = .ok u1 ∧
        ((∀ p ∈ ps, p.traceless false = true) → u1 = u0) := by
  induction h with
  | nil => intro j i M u0 _ _ hi hj hl hM _; exact ⟨j, i, M, u0, .nil, hj, hi, hl, hM, fun _ => rfl⟩
  | @cons p ps log log1 log' h1 h2 ih =>
    intro j i M u0 hq ht hi hj hl hM hu
    obtain ⟨i1, M1, e1, e2, ⟨w, e3⟩, e4⟩ := h1.solo (cs := cs) bnd (Here.mk' (ht p (by simp)) hi hj hl) hM
      (hu.imp (fun h => h.1) fun h => ⟨h.1 p (by simp), h.2⟩)
    have hw : p.traceless false = true → w = u0 := by
      intro htr
      have := e1.extends_af (af_elab p (fun e => by cases e) htr) (elab_quiet p (hq p (by simp)) S.quiet) he hM
      rw [e3] at this; cases this; rfl
    obtain ⟨j2, i2, M2, u2, f1, f2, f3, f4, f5, f6⟩ := ih (j := i1) (i := i1) (M := M1) (u0 := w)
      (fun p hp => hq p (by simp [hp])) (fun p hp => ht p (by simp [hp])) (e2 rfl) (e2 rfl) e4 e3 (by
        rcases hu with ⟨rfl, hu⟩ | ⟨hu, hty⟩
        · exact .inl ⟨hw (hu p (by simp)), fun p hp => hu p (by simp [hp])⟩
        · exact .inr ⟨fun p hp => hu p (by simp [hp]), hty⟩)
    refine ⟨j2, i2, M2, u2, .cons e1 f1, f2, f3, f4, f5, fun htr => ?_⟩
    rw [f6 fun p hp => htr p (by simp [hp]), hw (htr p (by simp))]

theorem SkNone.item {T : List Ch} {x : Nat} {q : List Nat} {bnd : Ref} {cs : Bool} {ps t}
    (h : SkNone env S ty u t ps log log') (hu : u = ty.defaultInit) (hn : ty ≠ .nil) (hty : ∀ e, ty ≠ .coll e) :
    ∀ {j i : Nat} {M : Mem} {us}, (∀ p ∈ ps, p.assigns = true) →
      (∀ p ∈ ps, p.tidy true .none .none true .none .none = true) → Near S T i t → Near S T j t → M.log = log →
      M.look x q = .ok (.coll us) →
      ∃ j1 i1 M1, FailsAll env (.at x q (.coll ty)) bnd T (elabPs S.K ⟨true, true, cs, false⟩ ps) j i M j1 i1 M1 ∧
        Near S T j1 t ∧ Near S T i1 t ∧ M1.log = log' ∧ M1.look x q = .ok (.coll us) := by
  induction h with
  | nil => intro j i M us _ _ hi hj hl hM; exact ⟨j, i, M, .nil, hj, hi, hl, hM⟩
  | @cons p ps log log1 log' h1 h2 ih =>
    intro j i M us ha ht hi hj hl hM
    obtain ⟨i1, M1, e1, e2, e3, e4⟩ := h1.item hu (Pat.single_of_assigns p (ha p (by simp))) hn (fun _ => hty)
      (by simp) (cs := cs) bnd (Here.mk' (ht p (by simp)) hi hj hl) hM
    obtain ⟨j2, i2, M2, f1, f2, f3, f4, f5⟩ := ih (j := i1) (i := i1) (M := M1) (us := us)
      (fun p hp => ha p (by simp [hp])) (fun p hp => ht p (by simp [hp])) (e2 rfl) (e2 rfl) e4 (by simpa using e3)
    exact ⟨j2, i2, M2, .cons e1 f1, f2, f3, f4, f5⟩

theorem SkNilNone.fails {T : List Ch} {bnd : Ref} {cs : Bool} {ps t} (h : SkNilNone env S t ps log log') :
    ∀ {j i : Nat} {M : Mem}, (∀ p ∈ ps, p.tidy true .none .none true .none .none = true) →
      Near S T i t → Near S T j t → M.log = log →
      ∃ j1 i1 M1, FailsAll env .nil bnd T (elabPs S.K ⟨false, true, cs, false⟩ ps) j i M j1 i1 M1 ∧
        Near S T j1 t ∧ Near S T i1 t ∧ M1.log = log' := by
  induction h with
  | nil => intro j i M _ hi hj hl; exact ⟨j, i, M, .nil, hj, hi, hl⟩
  | @cons p ps log log1 log' h1 h2 ih =>
    intro j i M ht hi hj hl
    obtain ⟨i1, M1, e1, e2, e4⟩ := h1 (cs := cs) bnd (Here.mk' (ht p (by simp)) hi hj hl)
    obtain ⟨j2, i2, M2, f1, f2, f3, f4⟩ := ih (j := i1) (i := i1) (M := M1)
      (fun p hp => ht p (by simp [hp])) (e2 rfl) (e2 rfl) e4
    exact ⟨j2, i2, M2, .cons e1 f1, f2, f3, f4⟩

theorem allAssign_mem : ∀ {ps : List Pat}, Pat.allAssign ps = true → ∀ p ∈ ps, p.assigns = true
  | [], _, p, h => by cases h
  | x :: ps, h, p, hp => by
    simp only [Pat.allAssign, Bool.and_eq_true] at h
    rcases List.mem_cons.1 hp with rfl | hp
    · exact h.1
    · exact allAssign_mem h.2 p hp

theorem SkSolo.alt {ps qs : List Pat} {q : Pat} {log1 v rest}
    (h0 : (∀ p ∈ ps, p.traceless false = true) ∨ (∀ p ∈ ps ++ [q], p.assigns = true) ∧ ∀ e, ty ≠ .coll e)
    (h1 : SkNone env S ty u t ps log log1) (h2 : SkSolo env S q ty u log1 t (some (v, rest)) log')
    (hq : ∀ p ∈ ps, p.quiet = true) (he : env.quiet) :
    SkSolo env S (.alt (ps ++ q :: qs)) ty u log t (some (v, rest)) log' := by
  intro rc c cs T j i M x y bnd u0 hh hM hu
  have hal := hh.alts
  have hmode : u0 = u ∧ (∀ p ∈ ps, p.traceless false = true) ∨ (∀ p ∈ ps ++ [q], p.assigns = true) ∧ ∀ e, ty ≠ .coll e := by
    rcases hu with rfl | ⟨hu, hty⟩
    · exact h0.imp (fun h => ⟨rfl, h⟩) id
    · refine .inr ⟨fun p hp => allAssign_mem (ps := ps ++ q :: qs) hu p ?_, hty⟩
      rcases List.mem_append.1 hp with hp | hp
      · simp [hp]
      · simp at hp; simp [hp]
  refine hh.finish_raw elab_alt fun k hk => ?_
  obtain ⟨j1, i1, M1, u1, e1, e2, e3, e4, e5, e6⟩ := h1.solo (T := T) (x := x) (q := y) (bnd := bnd) (cs := cs) he hq
    (fun p hp => hal p (by simp [hp])) (near_skipped hk) hh.made hh.log hM
    (hmode.imp id fun h => ⟨fun p hp => h.1 p (by simp [hp]), h.2⟩)
  obtain ⟨i2, M2, f1, f2, f3⟩ := h2 (cs := cs) bnd (Here.mk' (hal q (by simp)) e3 e2 e4) e5
    (hmode.imp (fun h => (e6 h.2).trans h.1) fun h => ⟨h.1 q (by simp), h.2⟩)
  refine ⟨i2, M2, AltEnds.ends ?_, f2, f3⟩
  rw [elabs_append]
  exact e1.then (.here f1)

theorem SkSolo.altNo {ps : List Pat} (hne : ps ≠ [])
    (h0 : (∀ p ∈ ps, p.traceless false = true) ∨ (∀ p ∈ ps, p.assigns = true) ∧ ∀ e, ty ≠ .coll e)
    (h1 : SkNone env S ty u t ps log log')
    (hq : ∀ p ∈ ps, p.quiet = true) (he : env.quiet) :
    SkSolo env S (.alt ps) ty u log t none log' := by
  intro rc c cs T j i M x y bnd u0 hh hM hu
  have hmode : u0 = u ∧ (∀ p ∈ ps, p.traceless false = true) ∨ (∀ p ∈ ps, p.assigns = true) ∧ ∀ e, ty ≠ .coll e := by
    rcases hu with rfl | ⟨hu, hty⟩
    · exact h0.imp (fun h => ⟨rfl, h⟩) id
    · exact .inr ⟨allAssign_mem hu, hty⟩
  refine hh.finish_raw elab_alt fun k hk => ?_
  obtain ⟨j1, i1, M1, u1, e1, e2, e3, e4, e5, e6⟩ := h1.solo (T := T) (x := x) (q := y) (bnd := bnd) (cs := cs) he hq
    hh.alts (near_skipped hk) hh.made hh.log hM hmode
  exact ⟨i1, M1, (e1.fail (elabs_ne hne)).ends, fun _ => e3, ⟨_, e5⟩, e4⟩

theorem SkItem.alt {ps qs : List Pat} {q : Pat} {log1 v rest}
    (h1 : SkNone env S ty u t ps log log1) (h2 : SkItem env S q ty u log1 t (some (v, rest)) log') :
    SkItem env S (.alt (ps ++ q :: qs)) ty u log t (some (v, rest)) log' := by
  intro hu hs hn hty hv c cs T j i M x y bnd us hh hM
  have hal := hh.alts
  have hs : Pat.allAssign (ps ++ q :: qs) = true := hs
  have hty := hty hs
  have has := allAssign_mem hs
  refine hh.finish_raw elab_alt fun k hk => ?_
  obtain ⟨j1, i1, M1, e1, e2, e3, e4, e5⟩ := h1.item (T := T) (x := x) (q := y) (bnd := bnd) (cs := cs) hu hn hty
    (fun p hp => has p (by simp [hp])) (fun p hp => hal p (by simp [hp])) (near_skipped hk) hh.made hh.log hM
  obtain ⟨i2, M2, f1, f2, f3⟩ := h2 hu (Pat.single_of_assigns q (has q (by simp))) hn (fun _ => hty) hv
    (cs := cs) bnd (Here.mk' (hal q (by simp)) e3 e2 e4) e5
  refine ⟨i2, M2, AltEnds.ends ?_, f2, f3⟩
  rw [elabs_append]
  exact e1.then (.here f1)

theorem SkItem.altNo {ps : List Pat} (hne : ps ≠ []) (h1 : SkNone env S ty u t ps log log') :
    SkItem env S (.alt ps) ty u log t none log' := by
  intro hu hs hn hty hv c cs T j i M x y bnd us hh hM
  have hs : Pat.allAssign ps = true := hs
  refine hh.finish_raw elab_alt fun k hk => ?_
  obtain ⟨j1, i1, M1, e1, e2, e3, e4, e5⟩ := h1.item (T := T) (x := x) (q := y) (bnd := bnd) (cs := cs) hu hn (hty hs)
    (allAssign_mem hs) hh.alts (near_skipped hk) hh.made hh.log hM
  exact ⟨i1, M1, (e1.fail (elabs_ne hne)).ends, fun _ => e3, by simpa using e5, e4⟩

theorem SkNil.alt {ps qs : List Pat} {q : Pat} {log1 rest}
    (h1 : SkNilNone env S t ps log log1) (h2 : SkNil env S q log1 t (some rest) log') :
    SkNil env S (.alt (ps ++ q :: qs)) log t (some rest) log' := by
  intro rc c cs T j i M bnd hh
  have hal := hh.alts
  refine hh.finish_raw elab_alt fun k hk => ?_
  obtain ⟨j1, i1, M1, e1, e2, e3, e4⟩ := h1.fails (T := T) (bnd := bnd) (cs := cs)
    (fun p hp => hal p (by simp [hp])) (near_skipped hk) hh.made hh.log
  obtain ⟨i2, M2, f1, f2, f3⟩ := h2 (cs := cs) bnd (Here.mk' (hal q (by simp)) e3 e2 e4)
  refine ⟨i2, M2, AltEnds.ends ?_, f2, f3⟩
  rw [elabs_append]
  exact e1.then (.here f1)

theorem SkNil.altNo {ps : List Pat} (hne : ps ≠ []) (h1 : SkNilNone env S t ps log log') :
    SkNil env S (.alt ps) log t none log' := by
  intro rc c cs T j i M bnd hh
  refine hh.finish_raw elab_alt fun k hk => ?_
  obtain ⟨j1, i1, M1, e1, e2, e3, e4⟩ := h1.fails (T := T) (bnd := bnd) (cs := cs) hh.alts (near_skipped hk) hh.made hh.log
  exact ⟨i1, M1, (e1.fail (elabs_ne hne)).ends, fun _ => e3, e4⟩

/-! ### Exceptions -/

theorem elab_except {op neg : Pat} {rc c cs a : Bool} (h : rc = true → a = false) :
    elabP S.K ⟨a, c, cs, rc⟩ (.except op neg) =
    adapt (Req.skipper ⟨a, c, cs, rc⟩ S.K) false (!rc && c)
      (.except (elabP S.K ⟨a, false, cs, false⟩ op) (elabP S.K ⟨false, true, false, false⟩ neg)) := by
  cases rc <;> cases c <;> cases a <;> first | rfl | exact absurd (h rfl) (by simp)

theorem Here.operands {op neg : Pat} {rc c T j i} {M : Mem} (hh : Here S (.except op neg) log t rc c T j i M) :
    op.tidy true .none .none false .none .none = true ∧ neg.tidy true .none .none true .none .none = true := by
  have := hh.tidy
  simp only [Pat.tidy, Bool.and_eq_true] at this
  rw [under_none] at this
  exact this

theorem SkSolo.except {op neg : Pat} {log1} (h1 : SkNil env S neg log t none log1)
    (h2 : SkSolo env S op ty u log1 t o log') (hq : neg.quiet = true) (he : env.quiet) :
    SkSolo env S (.except op neg) ty u log t o log' := by
  intro rc c cs T j i M x q bnd u0 hh hM hu
  refine hh.finish_clean (elab_except fun _ => rfl) fun k hk => ?_
  obtain ⟨i1, M1, e1, e2, e3⟩ := h1 (cs := false) bnd (Here.mk' hh.operands.2 (near_skipped hk) hh.made hh.log)
  have hM1 := e1.keeps (.inl trivial) (elab_quiet neg hq S.quiet) he hM
  exact (h2 (cs := cs) bnd (Here.mk' hh.operands.1 (e2 rfl) (e2 rfl) e3) hM1 hu).map
    (fun _ _ _ h => e1.except_op h) id fun _ => id

theorem SkItem.except {op neg : Pat} {log1} (h1 : SkNil env S neg log t none log1)
    (h2 : SkItem env S op ty u log1 t o log') (hq : neg.quiet = true) (he : env.quiet) :
    SkItem env S (.except op neg) ty u log t o log' := by
  intro hu hs hn hty hv c cs T j i M x q bnd us hh hM
  refine hh.finish_clean (elab_except fun e => by cases e) fun k hk => ?_
  obtain ⟨i1, M1, e1, e2, e3⟩ := h1 (cs := false) bnd (Here.mk' hh.operands.2 (near_skipped hk) hh.made hh.log)
  have hM1 := e1.keeps (.inl trivial) (elab_quiet neg hq S.quiet) he hM
  exact (h2 hu hs hn hty hv (cs := cs) bnd (Here.mk' hh.operands.1 (e2 rfl) (e2 rfl) e3) hM1).map
    (fun _ _ _ h => e1.except_op h) id fun _ => id

theorem SkSolo.exceptNo {op neg : Pat} {rest} (h1 : SkNil env S neg log t (some rest) log')
    (hq : neg.quiet = true) (he : env.quiet) : SkSolo env S (.except op neg) ty u log t none log' := by
  intro rc c cs T j i M x q bnd u0 hh hM hu
  refine hh.finish_clean (elab_except fun _ => rfl) fun k hk => ?_
  obtain ⟨i1, M1, e1, e2, e3⟩ := h1 (cs := false) bnd (Here.mk' hh.operands.2 (near_skipped hk) hh.made hh.log)
  exact ⟨i1, M1, e1.except_neg, fun e => by (cases e), ⟨_, e1.keeps (.inl trivial) (elab_quiet neg hq S.quiet) he hM⟩, e3⟩

theorem SkItem.exceptNo {op neg : Pat} {rest} (h1 : SkNil env S neg log t (some rest) log')
    (hq : neg.quiet = true) (he : env.quiet) : SkItem env S (.except op neg) ty u log t none log' := by
  intro hu hs hn hty hv c cs T j i M x q bnd us hh hM
  refine hh.finish_clean (elab_except fun e => by cases e) fun k hk => ?_
  obtain ⟨i1, M1, e1, e2, e3⟩ := h1 (cs := false) bnd (Here.mk' hh.operands.2 (near_skipped hk) hh.made hh.log)
  exact ⟨i1, M1, e1.except_neg, fun e => by (cases e), by simpa using e1.keeps (.inl trivial) (elab_quiet neg hq S.quiet) he hM, e3⟩

/-! ### Repetitions -/

/-- After the last item: the maximum is reached, or the next item fails. -/
inductive SkStops (env : Env) (S : Eater) (p : Pat) (ty : Ty) (mx n : Nat) (log : List LogEntry) (t : List Ch)
    (log' : List LogEntry) : Prop
  | max : mx ≠ 0 → n = mx → log' = log → SkStops env S p ty mx n log t log'
  | fails : (mx = 0 ∨ n < mx) → SkItem env S p ty ty.defaultInit log t none log' → SkStops env S p ty mx n log t log'

theorem SkMany.reach {T : List Ch} {x : Nat} {q : List Nat} (bnd : Ref) {mn mx : Nat} {cs : Bool} {log2}
    (h1 : p.single = true) (hn : ty ≠ .nil) (hty : p.assigns = true → ∀ e, ty ≠ .coll e)
    (ht : p.tidy true .none .none (mn != mx || mx == 0) .none .none = true) (hb : mx = 0 ∨ mn ≤ mx)
    {log t vs log1 rest} (h : SkMany env S p ty log t vs log1 rest) :
    ∀ {n j i : Nat} {M : Mem} {us}, Near S T i t → Near S T j t → M.look x q = .ok (.coll us) → M.log = log →
      SkStops env S p ty mx (n + vs.length) log1 rest log2 → (mx = 0 ∨ n < mx) →
      ∃ i' M', RepEnds env (elabP S.K ⟨true, mn != mx || mx == 0, cs, false⟩ p) (.at x q (.coll ty)) bnd T mn mx n j i M
          (enough (n + vs.length) mn) i' M' ∧ (mn ≤ n + vs.length → Near S T i' rest) ∧
        M'.look x q = .ok (.coll (us ++ vs)) ∧ M'.log = log2 := by
  induction h with
  | @nil log t =>
    intro n j i M us hi hj hM hl hst hlt
    cases hst with
    | max a1 a2 => simp only [List.length_nil] at a2; omega
    | fails a1 a2 =>
      obtain ⟨i1, M1, e1, e2, e3, e4⟩ := a2 rfl h1 hn hty (by simp) (cs := cs) bnd (Here.mk' ht hi hj hl) hM
      refine ⟨i1, M1, .stop e1, fun h => e2 ?_, by simpa using e3, e4⟩
      simp only [List.length_nil] at h a1
      simp only [Bool.or_eq_true, bne_iff_ne, beq_iff_eq]
      omega
  | @cons log t v t1 log1 vs log' rest a1 hh hrest ih =>
    intro n j i M us hi hj hM hl hst hlt
    obtain ⟨i1, M1, e1, e2, e3, e4⟩ := a1 rfl h1 hn hty (by rintro _ _ ⟨⟩; exact hh) (cs := cs) bnd (Here.mk' ht hi hj hl) hM
    have e3 : M1.look x q = .ok (.coll (us ++ [v])) := e3
    by_cases hmax : mx ≠ 0 ∧ n + 1 = mx
    · have hv : vs = [] := by
        cases vs with
        | nil => rfl
        | cons a as =>
          cases hst with
          | max a1 a2 => simp only [List.length_cons] at a2; omega
          | fails a1 a2 => simp only [List.length_cons] at a1; omega
      subst hv
      cases hrest
      have hr : enough (n + [v].length) mn = .SUCCESS := by
        unfold enough
        rw [if_pos]
        simp only [List.length_cons, List.length_nil]
        omega
      rw [hr]
      refine ⟨i1, M1, .max e1 hmax.1 hmax.2, fun _ => e2, e3, ?_⟩
      cases hst with
      | max a1 a2 a3 => rw [a3]; exact e4
      | fails a1 a2 => simp only [List.length_cons, List.length_nil] at a1; omega
    · obtain ⟨i', M', f1, f2, f3, f4⟩ := ih (n := n + 1) (us := us ++ [v]) e2 e2 e3 e4
        (by rw [Nat.add_right_comm]; exact hst) (by omega)
      rw [show n + 1 + vs.length = n + (v :: vs).length by simp only [List.length_cons]; omega] at f1 f2
      exact ⟨i', M', .more e1 hmax f1, f2, by simpa using f3, f4⟩

theorem elab_rep {mn mx : Nat} {rc c cs a : Bool} (h : a = false ∨ rc = true) : elabP S.K ⟨a, c, cs, rc⟩ (.rep mn mx p) =
    adapt (Req.skipper ⟨a, c, cs, rc⟩ S.K) false (!rc && c)
      (.rep mn mx (elabP S.K ⟨true, mn != mx || mx == 0, cs, false⟩ p)) := by
  cases rc <;> cases c <;> cases a <;> first | rfl | simp at h

theorem tidy_rep {mn mx : Nat} {c : Bool} (h : (Pat.rep mn mx p).tidy true .none .none c .none .none = true) :
    p.tidy true .none .none (mn != mx || mx == 0) .none .none = true := by
  simp only [Pat.tidy, under_none] at h
  refine tidy_mono p id ?_ ?_ h
  · split <;> rfl
  · split <;> rfl

theorem SkSolo.rep {mn mx : Nat} {us vs : List Val} {log1 log2 : List LogEntry} {rest : List Ch} (h1 : p.single = true) (hn : ty ≠ .nil)
    (hty : p.assigns = true → ∀ e, ty ≠ .coll e) (hb : mx = 0 ∨ mn ≤ mx)
    (h : SkMany env S p ty log t vs log1 rest) (hst : SkStops env S p ty mx vs.length log1 rest log2)
    (o : Option (Val × List Ch)) (ho : o = if mn ≤ vs.length then some (.coll (us ++ vs), rest) else none) :
    SkSolo env S (.rep mn mx p) (.coll ty) (.coll us) log t o log2 := by
  intro rc c cs T j i M x q bnd u0 hh hM hu
  have hu : u0 = .coll us := by
    rcases hu with hu | ⟨hu, _⟩
    · exact hu
    · cases hu
  subst hu
  refine hh.finish_clean (elab_rep (.inl rfl)) fun k hk => ?_
  obtain ⟨i', M', e1, e2, e3, e4⟩ := h.reach bnd (cs := cs) h1 hn hty (tidy_rep hh.tidy) hb (n := 0) (near_skipped hk) hh.made hM hh.log
    (by rw [Nat.zero_add]; exact hst) (by omega)
  rw [Nat.zero_add] at e1 e2
  have e1 := e1.ends
  unfold enough at e1
  split at ho
  · rename_i hle
    rw [if_pos hle] at e1
    subst ho
    exact ⟨i', M', e1, e2 hle, e3, e4⟩
  · rename_i hle
    rw [if_neg hle] at e1
    subst ho
    exact ⟨i', M', e1, fun e => by (cases e), ⟨_, e3⟩, e4⟩

/-! ### Lists -/

/-- Separator and item do not both match. -/
inductive SkNoMore (env : Env) (S : Eater) (op sep : Pat) (ty : Ty) (log : List LogEntry) (t : List Ch)
    (log' : List LogEntry) : Prop
  | sep : SkNil env S sep log t none log' → SkNoMore env S op sep ty log t log'
  | item {log2 t2} : SkNil env S sep log t (some t2) log2 →
      SkItem env S op ty ty.defaultInit log2 t2 none log' → SkNoMore env S op sep ty log t log'

theorem SkSep.reach {op sep : Pat} {T : List Ch} {x : Nat} {q : List Nat} (bnd : Ref) {log2} (he : env.quiet)
    (hqs : sep.quiet = true) (h1 : op.single = true) (hn : ty ≠ .nil) (hty : op.assigns = true → ∀ e, ty ≠ .coll e)
    (ht : op.tidy true .none .none false .none .none = true) (hts : sep.tidy true .none .none false .none .none = true)
    {log t vs log1 rest} (h : SkSep env S op sep ty log t vs log1 rest) :
    ∀ {i : Nat} {M : Mem} {us}, Near S T i t → M.look x q = .ok (.coll us) → M.log = log →
      SkNoMore env S op sep ty log1 rest log2 →
      ∃ i' M', SepEnds env (elabP S.K ⟨true, false, false, false⟩ op) (elabP S.K ⟨false, false, false, false⟩ sep)
          (.at x q (.coll ty)) bnd T true i i i M i' M' ∧ Near S T i' rest ∧
        M'.look x q = .ok (.coll (us ++ vs)) ∧ M'.log = log2 := by
  induction h with
  | @nil log t =>
    intro i M us hi hM hl hst
    cases hst with
    | sep a1 =>
      obtain ⟨i1, M1, e1, e2, e3⟩ := a1 (cs := false) bnd (Here.mk' hts hi hi hl)
      have hM1 := e1.keeps (.inl trivial) (elab_quiet sep hqs S.quiet) he hM
      exact ⟨i, M1, .sepFail e1, hi, by simpa using hM1, e3⟩
    | item a1 a2 =>
      obtain ⟨i1, M1, e1, e2, e3⟩ := a1 (cs := false) bnd (Here.mk' hts hi hi hl)
      have hM1 := e1.keeps (.inl trivial) (elab_quiet sep hqs S.quiet) he hM
      obtain ⟨i2, M2, f1, f2, f3, f4⟩ := a2 rfl h1 hn hty (by simp) (cs := false) bnd (Here.mk' ht e2 e2 e3) hM1
      exact ⟨i, M2, .sepSucc e1 (.opFail f1), hi, by simpa using f3, f4⟩
  | @cons log t t1 log1 v t2 log2 vs log' rest a1 a2 hh hrest ih =>
    intro i M us hi hM hl hst
    obtain ⟨i1, M1, e1, e2, e3⟩ := a1 (cs := false) bnd (Here.mk' hts hi hi hl)
    have hM1 := e1.keeps (.inl trivial) (elab_quiet sep hqs S.quiet) he hM
    obtain ⟨i2, M2, f1, f2, f3, f4⟩ := a2 rfl h1 hn hty (by rintro _ _ ⟨⟩; exact hh) (cs := false) bnd (Here.mk' ht e2 e2 e3) hM1
    obtain ⟨i3, M3, g1, g2, g3, g4⟩ := ih (i := i2) (M := M2) (us := us ++ [v]) f2 f3 f4 hst
    exact ⟨i3, M3, .sepSucc e1 (.opSucc f1 g1), g2, by simpa using g3, g4⟩

theorem elab_list {op sep : Pat} {rc c cs a : Bool} (h : a = false ∨ rc = true) : elabP S.K ⟨a, c, cs, rc⟩ (.list op sep) =
    adapt (Req.skipper ⟨a, c, cs, rc⟩ S.K) false false
      (.list (elabP S.K ⟨true, false, false, false⟩ op) (elabP S.K ⟨false, false, false, false⟩ sep)) := by
  cases rc <;> cases c <;> cases a <;> first | rfl | simp at h

theorem Here.pair {op sep : Pat} {rc c T j i} {M : Mem} (hh : Here S (.list op sep) log t rc c T j i M) :
    op.tidy true .none .none false .none .none = true ∧ sep.tidy true .none .none false .none .none = true := by
  have := hh.tidy
  simp only [Pat.tidy, Bool.and_eq_true] at this
  exact this

theorem SkSolo.listNil {op sep : Pat} {us : List Val} (h1 : op.single = true) (hn : ty ≠ .nil)
    (hty : op.assigns = true → ∀ e, ty ≠ .coll e) (h : SkItem env S op ty ty.defaultInit log t none log') :
    SkSolo env S (.list op sep) (.coll ty) (.coll us) log t (some (.coll us, t)) log' := by
  intro rc c cs T j i M x q bnd u0 hh hM hu
  have hu : u0 = .coll us := by
    rcases hu with hu | ⟨hu, _⟩
    · exact hu
    · cases hu
  subst hu
  refine hh.finish_raw (elab_list (.inl rfl)) fun k hk => ?_
  obtain ⟨i2, M2, f1, f2, f3, f4⟩ := h rfl h1 hn hty (by simp) (cs := false) bnd (Here.mk' hh.pair.1 (near_skipped hk) hh.made hh.log) hM
  exact ⟨j, M2, SepEnds.ends (.opFail f1), hh.made, by simpa using f3, f4⟩

theorem SkSolo.list {op sep : Pat} {us vs : List Val} {v log0 t0 log1 rest} (h1 : op.single = true) (hn : ty ≠ .nil)
    (hty : op.assigns = true → ∀ e, ty ≠ .coll e) (h : SkItem env S op ty ty.defaultInit log t (some (v, t0)) log0)
    (hv : ty.Holds v) (h2 : SkSep env S op sep ty log0 t0 vs log1 rest) (h3 : SkNoMore env S op sep ty log1 rest log')
    (hqs : sep.quiet = true) (he : env.quiet) :
    SkSolo env S (.list op sep) (.coll ty) (.coll us) log t (some (.coll (us ++ v :: vs), rest)) log' := by
  intro rc c cs T j i M x q bnd u0 hh hM hu
  have hu : u0 = .coll us := by
    rcases hu with hu | ⟨hu, _⟩
    · exact hu
    · cases hu
  subst hu
  refine hh.finish_raw (elab_list (.inl rfl)) fun k hk => ?_
  obtain ⟨i2, M2, f1, f2, f3, f4⟩ := h rfl h1 hn hty (by rintro _ _ ⟨⟩; exact hv) (cs := false) bnd
    (Here.mk' hh.pair.1 (near_skipped hk) hh.made hh.log) hM
  obtain ⟨i3, M3, g1, g2, g3, g4⟩ := h2.reach bnd he hqs h1 hn hty hh.pair.1 hh.pair.2 (i := i2) (M := M2)
    (us := us ++ [v]) f2 f3 f4 h3
  exact ⟨i3, M3, SepEnds.ends (.opSucc f1 g1), g2, by simpa using g3, g4⟩

end
end Abu
