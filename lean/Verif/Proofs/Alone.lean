import Verif.Proofs.DoesRules
import Verif.Proofs.Valued
import Verif.Spec.Alone
/-
What a pattern does alone happens wherever it is used.
-/
namespace Abu

/-- One object is at `(o, q)`, new ones after the `k` existing ones. -/
def Place.one (o : Nat) (q : List Nat) (k : Nat) : Place :=
  fun x => if x = 0 then (o, q) else (x - 1 + k, [])

theorem Place.one_ok {o q k} (h : o < k) : (Place.one o q k).Ok 1 k where
  new := by
    intro x hx
    have : x ≠ 0 := by omega
    simp [Place.one, this]
  old := by
    intro x hx
    have : x = 0 := by omega
    simp [Place.one, this, h]
  disjoint := by
    intro x y hxy
    simp only [Place.one]
    split <;> split <;> simp only <;> first | omega | skip

theorem MemR.one {v log} {M : Mem} {o q} (hv : M.look o q = .ok v) (hl : M.log = log) :
    MemR (Place.one o q M.objs.length) 1 M.objs.length ⟨[v], log⟩ M where
  len := by simp only [List.length_cons, List.length_nil]; omega
  le := by simp
  val := by
    intro x w hx
    match x, hx with
    | 0, hx => simp at hx; subst hx; simpa [Place.one] using hv
    | x + 1, hx => simp at hx
  log := hl

/-- New objects are after the `k` existing ones. -/
def Place.none (k : Nat) : Place := fun x => (x + k, [])

theorem Place.none_ok {k} : (Place.none k).Ok 0 k where
  new := by intro x hx; simp [Place.none]
  old := by intro x hx; omega
  disjoint := by intro x y hxy; left; simp only [Place.none]; omega

theorem MemR.none_start {log} {M : Mem} (hl : M.log = log) :
    MemR (Place.none M.objs.length) 0 M.objs.length ⟨[], log⟩ M where
  len := by simp
  le := by simp
  val := by intro x w hx; simp at hx
  log := hl

theorem top_quiet {p : Pat} (h : p.quiet = true) : (topParser p).quiet = true :=
  elab_quiet p h rfl

section
variable {env : Env} {p : Pat} {ty : Ty} {v v' : Val} {log log' : List LogEntry} {T rest : List Ch}
  {r : Res} {i : Nat} {M : Mem}

/-- What `p` does alone it does anywhere: at any place in the text, to any part of any object. -/
theorem Alone.does (h : Alone env p ty v log (T.drop i) r v' log' rest) (hq : p.quiet = true)
    (he : env.quiet) {o q} (hv : M.look o q = .ok v) (hl : M.log = log) (bnd : Ref) :
    ∃ i' L M', Does env (topParser p) (.at o q ty) bnd T i M r i' L M' ∧ T.drop i' = rest ∧ i ≤ i' ∧
      M'.look o q = .ok v' ∧ M'.log = log' ∧
      ∀ o' q', (Ref.at o q ty).Misses o' q' → o' < M.objs.length →
        o' < M'.objs.length ∧ M'.look o' q' = M.look o' q' := by
  obtain ⟨m', ⟨hp, _⟩, hv', hl'⟩ := h
  obtain ⟨i', L, hd, hrest, hi⟩ := hp.does rfl
  obtain ⟨M', hd', hm'⟩ := hd.move (bnd' := bnd) (Place.one_ok (look_lt hv)) (MemR.one hv hl)
    (.inr ⟨top_quiet hq, he.prog⟩)
  refine ⟨i', L, M', ?_, hrest, hi, ?_, ?_, ?_⟩
  · simpa [Ref.move, Place.one] using hd'
  · have := hm'.val 0 v' hv'
    simpa [Place.one] using this
  · rw [← hl']; exact hm'.log
  · intro o' q' hmiss hw
    refine hd'.keeps_eq (.inl ?_) (top_quiet hq) he hw
    simpa [Ref.move, Place.one] using hmiss

theorem AloneNil.does (h : AloneNil env p log (T.drop i) r log' rest) (hq : p.quiet = true)
    (he : env.quiet) (hl : M.log = log) (bnd : Ref) :
    ∃ i' L M', Does env (topParser p) .nil bnd T i M r i' L M' ∧ T.drop i' = rest ∧ i ≤ i' ∧
      M'.log = log' ∧ ∀ o' q', o' < M.objs.length →
        o' < M'.objs.length ∧ M'.look o' q' = M.look o' q' := by
  obtain ⟨m', ⟨hp, _⟩, hl'⟩ := h
  obtain ⟨i', L, hd, hrest, hi⟩ := hp.does rfl
  obtain ⟨M', hd', hm'⟩ := hd.move (bnd' := bnd) Place.none_ok (MemR.none_start hl)
    (.inr ⟨top_quiet hq, he.prog⟩)
  refine ⟨i', L, M', hd', hrest, hi, ?_, ?_⟩
  · rw [← hl']; exact hm'.log
  · intro o' q' hw
    exact hd'.keeps_eq (.inl trivial) (top_quiet hq) he hw

end

/-! ### Tuples -/

theorem get_prefix {q p : List Nat} {V v : Val} (h : Val.get (q ++ p) V = .ok v) :
    ∃ w, Val.get q V = .ok w ∧ Val.get p w = .ok v := by
  induction q generalizing V with
  | nil => exact ⟨V, rfl, h⟩
  | cons i q ih =>
    cases V with
    | tup vs =>
      simp only [List.cons_append, Val.get] at h ⊢
      split at h
      · cases h
      · rename_i x hx
        obtain ⟨w, h1, h2⟩ := ih h
        exact ⟨w, h1, h2⟩
    | _ => simp only [List.cons_append, Val.get] at h; cases h

theorem look_snoc {M : Mem} {o q vs} (h : M.look o q = .ok (.tup vs)) (k : Nat) :
    M.look o (q ++ [k]) = match vs[k]? with
      | none => .error .ubDangling
      | some v => .ok v := by
  simp only [Mem.look, Mem.read] at h ⊢
  cases ho : M.objs[o]? with
  | none => rw [ho] at h; cases h
  | some V =>
    rw [ho] at h
    simp only at h ⊢
    rw [get_append h]
    simp only [Val.get]
    cases vs[k]? <;> rfl

theorem look_of_snoc {M : Mem} {o q k v} (h : M.look o (q ++ [k]) = .ok v) :
    ∃ vs, M.look o q = .ok (.tup vs) ∧ vs[k]? = some v := by
  simp only [Mem.look, Mem.read] at h ⊢
  cases ho : M.objs[o]? with
  | none => rw [ho] at h; cases h
  | some V =>
    rw [ho] at h
    simp only at h ⊢
    obtain ⟨w, h1, h2⟩ := get_prefix h
    cases w with
    | tup vs =>
      refine ⟨vs, h1, ?_⟩
      simp only [Val.get] at h2
      split at h2
      · cases h2
      · rename_i hx; cases h2; exact hx
    | _ => simp only [Val.get] at h2; cases h2

theorem snoc_diverge (q : List Nat) {k j : Nat} (h : k ≠ j) : Diverge (q ++ [k]) (q ++ [j]) := by
  induction q with
  | nil => exact .here h
  | cons a q ih => exact .there ih

/-- One slot of a tuple changed. -/
theorem look_slot {M M' : Mem} {o q vs k v} (h : M.look o q = .ok (.tup vs)) (hlt : k < vs.length)
    (hk : M'.look o (q ++ [k]) = .ok v)
    (hj : ∀ j, k ≠ j → M'.look o (q ++ [j]) = M.look o (q ++ [j])) :
    M'.look o q = .ok (.tup (vs.set k v)) := by
  obtain ⟨ws, hw, hwk⟩ := look_of_snoc hk
  rw [hw]
  congr 2
  apply List.ext_getElem?
  intro j
  by_cases hkj : k = j
  · subst hkj
    rw [List.getElem?_set_self hlt, hwk]
  · have := hj j hkj
    rw [look_snoc hw, look_snoc h] at this
    rw [List.getElem?_set_ne hkj]
    cases h1 : ws[j]? <;> cases h2 : vs[j]? <;> rw [h1, h2] at this <;> first | rfl | cases this
    rfl

theorem elab_default (p : Pat) : elabP .fail ⟨false, false, false, false⟩ p = topParser p := rfl

/-- The children of a sequence, each in its slot of a tuple. -/
theorem EachAlone.seqDoes {env : Env} (he : env.quiet) {T : List Ch} {o : Nat} {q : List Nat}
    {ts0 : List Ty} (bnd : Ref) {ps ts vs log t r ws log' rest}
    (h : EachAlone env ps ts vs log t r ws log' rest) :
    ∀ {us : List Val} {i : Nat} {M : Mem}, ps ≠ [] → Pat.quiets ps = true → (∀ ty ∈ ts, ty ≠ .nil) →
      ts0.drop us.length = ts → T.drop i = t → M.look o q = .ok (.tup (us ++ vs)) → M.log = log →
      ∃ i' M', SeqDoes env (.at o q (.tup ts0)) bnd T (tupleSlots us.length ps)
          (elabPs .fail ⟨false, false, false, false⟩ ps) i M r i' M' ∧ T.drop i' = rest ∧
        M'.look o q = .ok (.tup (us ++ ws)) ∧ M'.log = log' := by
  have slotDst : ∀ {us : List Val} {ty ts}, ts0.drop us.length = ty :: ts → ty ≠ .nil →
      seqDst (.at o q (.tup ts0)) (some us.length) = some (.at o (q ++ [us.length]) ty) := by
    intro us ty ts h1 h2
    simp only [seqDst, (getElem?_of_drop h1).1, Option.map_some]
    cases ty <;> first | exact absurd rfl h2 | rfl
  have slotSet : ∀ (us vs : List Val) (v v' : Val), (us ++ v :: vs).set us.length v' = us ++ v' :: vs := by
    intro us vs v v'
    induction us with
    | nil => rfl
    | cons u us ih => simp only [List.cons_append, List.length_cons, List.set_cons_succ, ih]
  induction h with
  | nil => intro _ _ _ hne; exact absurd rfl hne
  | @value p ps ty ts v vs log t v' log1 t1 r ws log2 t2 hb ha hrest ih =>
    intro us i M _ hq hty hts ht hM hl
    subst ht
    simp only [Pat.quiets, Bool.and_eq_true] at hq
    have hnn := hty ty (by simp)
    have hlook : M.look o (q ++ [us.length]) = .ok v := by
      rw [look_snoc hM]; simp
    obtain ⟨i1, L, M1, hd, hr1, _, hv1, hl1, hk1⟩ := ha.does hq.1 he hlook hl bnd
    have hM1 : M1.look o q = .ok (.tup ((us ++ [v']) ++ vs)) := by
      rw [List.append_assoc, List.singleton_append, ← slotSet us vs v v']
      refine look_slot hM (by simp) hv1 fun j hj => ?_
      exact (hk1 o (q ++ [j]) (.inr (snoc_diverge q hj)) (look_lt hM)).2
    simp only [tupleSlots, value_of_valued hb, elabPs, elab_default]
    cases ps with
    | nil =>
      cases hrest
      exact ⟨i1, M1, .last (slotDst hts hnn) hd (by simp), hr1, by simpa using hM1, hl1⟩
    | cons p2 ps =>
      obtain ⟨i2, M2, hs, hr2, hM2, hl2⟩ := ih (us := us ++ [v']) (i := i1) (M := M1) (by simp) hq.2
        (fun ty h => hty ty (by simp [h]))
        (by rw [List.length_append]; exact (getElem?_of_drop hts).2) hr1 hM1 hl1
      rw [List.length_append] at hs
      exact ⟨i2, M2, .cons (slotDst hts hnn) hd hs, hr2, by simpa using hM2, hl2⟩
  | @ignore p ps ts vs log t log1 t1 r ws log2 t2 hb ha hrest ih =>
    intro us i M _ hq hty hts ht hM hl
    subst ht
    simp only [Pat.quiets, Bool.and_eq_true] at hq
    obtain ⟨i1, L, M1, hd, hr1, _, hl1, hk1⟩ := ha.does hq.1 he hl bnd
    have hM1 : M1.look o q = .ok (.tup (us ++ vs)) := by
      rw [(hk1 o q (look_lt hM)).2, hM]
    simp only [tupleSlots, ignore_of_valued hb, elabPs, elab_default]
    cases ps with
    | nil =>
      cases hrest
      exact ⟨i1, M1, .last rfl hd (by simp), hr1, hM1, hl1⟩
    | cons p2 ps =>
      obtain ⟨i2, M2, hs, hr2, hM2, hl2⟩ := ih (us := us) (i := i1) (M := M1) (by simp) hq.2
        hty hts hr1 hM1 hl1
      exact ⟨i2, M2, .cons rfl hd hs, hr2, hM2, hl2⟩
  | @valueFails p ps ty ts v vs log t v' log1 t1 hb ha =>
    intro us i M _ hq hty hts ht hM hl
    subst ht
    simp only [Pat.quiets, Bool.and_eq_true] at hq
    have hnn := hty ty (by simp)
    have hlook : M.look o (q ++ [us.length]) = .ok v := by
      rw [look_snoc hM]; simp
    obtain ⟨i1, L, M1, hd, hr1, _, hv1, hl1, hk1⟩ := ha.does hq.1 he hlook hl bnd
    have hM1 : M1.look o q = .ok (.tup (us ++ v' :: vs)) := by
      rw [← slotSet us vs v v']
      refine look_slot hM (by simp) hv1 fun j hj => ?_
      exact (hk1 o (q ++ [j]) (.inr (snoc_diverge q hj)) (look_lt hM)).2
    simp only [tupleSlots, value_of_valued hb, elabPs, elab_default]
    exact ⟨i1, M1, .fail (slotDst hts hnn) hd, hr1, hM1, hl1⟩
  | @ignoreFails p ps ts vs log t log1 t1 hb ha =>
    intro us i M _ hq hty hts ht hM hl
    subst ht
    simp only [Pat.quiets, Bool.and_eq_true] at hq
    obtain ⟨i1, L, M1, hd, hr1, _, hl1, hk1⟩ := ha.does hq.1 he hl bnd
    simp only [tupleSlots, ignore_of_valued hb, elabPs, elab_default]
    refine ⟨i1, M1, .fail rfl hd, hr1, ?_, hl1⟩
    rw [(hk1 o q (look_lt hM)).2, hM]

/-- The children of a sequence, all in the same object. -/
theorem EachInto.seqDoes {env : Env} (he : env.quiet) {T : List Ch} {o : Nat} {q : List Nat}
    {ty : Ty} (hty : ∀ ts, ty ≠ .tup ts) (bnd : Ref) {ps v log t r w log' rest}
    (h : EachInto env ty ps v log t r w log' rest) :
    ∀ {n i : Nat} {M : Mem}, ps ≠ [] → Pat.quiets ps = true →
      T.drop i = t → M.look o q = .ok v → M.log = log →
      ∃ i' M', SeqDoes env (.at o q ty) bnd T (tupleSlots n ps)
          (elabPs .fail ⟨false, false, false, false⟩ ps) i M r i' M' ∧ T.drop i' = rest ∧
        M'.look o q = .ok w ∧ M'.log = log' := by
  have slotDst : ∀ k, seqDst (.at o q ty) (some k) = some (.at o q ty) := by
    intro k
    cases ty <;> first | rfl | exact absurd rfl (hty _)
  induction h with
  | nil => intro _ _ _ hne; exact absurd rfl hne
  | @value p ps v log t v' log1 t1 r ws log2 t2 hb ha hrest ih =>
    intro n i M _ hq ht hM hl
    subst ht
    simp only [Pat.quiets, Bool.and_eq_true] at hq
    obtain ⟨i1, L, M1, hd, hr1, _, hv1, hl1, hk1⟩ := ha.does hq.1 he hM hl bnd
    simp only [tupleSlots, value_of_valued hb, elabPs, elab_default]
    cases ps with
    | nil =>
      cases hrest
      exact ⟨i1, M1, .last (slotDst _) hd (by simp), hr1, hv1, hl1⟩
    | cons p2 ps =>
      obtain ⟨i2, M2, hs, hr2, hM2, hl2⟩ := ih (n := n + 1) (i := i1) (M := M1) (by simp) hq.2
        hr1 hv1 hl1
      exact ⟨i2, M2, .cons (slotDst _) hd hs, hr2, hM2, hl2⟩
  | @ignore p ps v log t log1 t1 r ws log2 t2 hb ha hrest ih =>
    intro n i M _ hq ht hM hl
    subst ht
    simp only [Pat.quiets, Bool.and_eq_true] at hq
    obtain ⟨i1, L, M1, hd, hr1, _, hl1, hk1⟩ := ha.does hq.1 he hl bnd
    have hM1 : M1.look o q = .ok v := by
      rw [(hk1 o q (look_lt hM)).2, hM]
    simp only [tupleSlots, ignore_of_valued hb, elabPs, elab_default]
    cases ps with
    | nil =>
      cases hrest
      exact ⟨i1, M1, .last rfl hd (by simp), hr1, hM1, hl1⟩
    | cons p2 ps =>
      obtain ⟨i2, M2, hs, hr2, hM2, hl2⟩ := ih (n := n) (i := i1) (M := M1) (by simp) hq.2
        hr1 hM1 hl1
      exact ⟨i2, M2, .cons rfl hd hs, hr2, hM2, hl2⟩
  | @valueFails p ps v log t v' log1 t1 hb ha =>
    intro n i M _ hq ht hM hl
    subst ht
    simp only [Pat.quiets, Bool.and_eq_true] at hq
    obtain ⟨i1, L, M1, hd, hr1, _, hv1, hl1, hk1⟩ := ha.does hq.1 he hM hl bnd
    simp only [tupleSlots, value_of_valued hb, elabPs, elab_default]
    exact ⟨i1, M1, .fail (slotDst _) hd, hr1, hv1, hl1⟩
  | @ignoreFails p ps v log t log1 t1 hb ha =>
    intro n i M _ hq ht hM hl
    subst ht
    simp only [Pat.quiets, Bool.and_eq_true] at hq
    obtain ⟨i1, L, M1, hd, hr1, _, hl1, hk1⟩ := ha.does hq.1 he hl bnd
    simp only [tupleSlots, ignore_of_valued hb, elabPs, elab_default]
    refine ⟨i1, M1, .fail rfl hd, hr1, ?_, hl1⟩
    rw [(hk1 o q (look_lt hM)).2, hM]

/-! ### Back to complete parses -/

theorem Does.alone {env : Env} {p : Pat} {ty v log t r i' L m' v' log' rest}
    (h : Does env (topParser p) (.at 0 [] ty) (.at 0 [] ty) t 0 ⟨[v], log⟩ r i' L m')
    (hv : m'.look 0 [] = .ok v') (hl : m'.log = log') (hr : t.drop i' = rest) :
    Alone env p ty v log t r v' log' rest :=
  ⟨m', .of_parses (hr ▸ h.parses), look_nil.1 hv, hl⟩

theorem Alone.seq {env : Env} (he : env.quiet) {ps ts vs log t r ws log' rest}
    (h : EachAlone env ps ts vs log t r ws log' rest) (hne : ps ≠ []) (hq : Pat.quiets ps = true)
    (hty : ∀ ty ∈ ts, ty ≠ .nil) :
    Alone env (.seq ps) (.tup ts) (.tup vs) log t r (.tup ws) log' rest := by
  obtain ⟨i', M', hs, hr, hM, hl⟩ := h.seqDoes he (T := t) (o := 0) (q := []) (ts0 := ts)
    (.at 0 [] (.tup ts)) (us := []) (i := 0) (M := ⟨[.tup vs], log⟩) hne hq hty rfl rfl rfl rfl
  obtain ⟨L, hd⟩ := hs.does
  exact Does.alone hd hM hl hr

theorem Alone.seqInto {env : Env} (he : env.quiet) {ty ps v log t r w log' rest}
    (h : EachInto env ty ps v log t r w log' rest) (hne : ps ≠ []) (hq : Pat.quiets ps = true)
    (hty : ∀ ts, ty ≠ .tup ts) : Alone env (.seq ps) ty v log t r w log' rest := by
  obtain ⟨i', M', hs, hr, hM, hl⟩ := h.seqDoes he (T := t) (o := 0) (q := [])
    hty (.at 0 [] ty) (n := 0) (i := 0) (M := ⟨[v], log⟩) hne hq rfl rfl rfl
  obtain ⟨L, hd⟩ := hs.does
  exact Does.alone hd hM hl hr

end Abu
