import Verif.Proofs.Inverse
import Verif.Proofs.Items
/-
From a run of a sequence back to the runs of its children.
-/
namespace Abu

section
variable {env : Env} {dst bnd : Ref} {t : List Ch} {r : Res} {i i' : Nat} {m m' : Mem} {L : List Nat}

theorem SeqDoes.of_runs {slots0 : List (Option Nat)} {Ps0 : List Prog}
    (hlen : slots0.length = Ps0.length) (hp : r ≠ .PARTIAL) {n : Nat} :
    ∀ {k : Nat} {Q : Prog} {s : Option Nat} {d : Ref} {c : PState} {m0 E i m st' w'},
      Ps0[k]? = some Q → slots0[k]? = some s → seqDst dst s = some d →
      Built Q d bnd t i m0 c m →
      run env n (.seq slots0 Ps0) dst bnd (.seq k c) (cw t i (List.replicate (marks Q) i ++ E) m) =
        .ok ((r, st'), w') →
      SeqDoes env dst bnd t (slots0.drop k) (Ps0.drop k) i m0 r w'.ds.pos w'.mem := by
  induction n with
  | zero => intro k Q s d c m0 E i m st' w' _ _ _ _ h; cases h
  | succ n ih =>
    intro k Q s d c m0 E i m st' w' hQ hs hd hb h
    rw [run_succ_andThen] at h
    simp only [Abu.body, hQ, hs, hd, exec] at h
    have hdP : Ps0.drop k = Q :: Ps0.drop (k + 1) := by
      obtain ⟨hlt, rfl⟩ := List.getElem?_eq_some_iff.1 hQ
      exact List.drop_eq_getElem_cons hlt
    have hdS : slots0.drop k = s :: slots0.drop (k + 1) := by
      obtain ⟨hlt, rfl⟩ := List.getElem?_eq_some_iff.1 hs
      exact List.drop_eq_getElem_cons hlt
    cases hr : run env n Q d bnd c (cw t i (List.replicate (marks Q) i ++ E) m) with
    | error e => rw [hr] at h; cases h
    | ok x =>
      obtain ⟨⟨r1, c'⟩, w1⟩ := x
      rw [hr] at h
      obtain ⟨i1, K1, m1, rfl, hruns, _⟩ := run_split (k := marks Q) hb.owns (by simp) hr
      have hd1 : Does env Q d bnd t i m0 r1 i1 K1 m1 := ⟨c, m, hb, hruns⟩
      rw [hdP, hdS]
      cases r1 with
      | FAILURE => cases h; exact .fail hd hd1
      | PARTIAL => cases h; exact absurd rfl hp
      | SUCCESS =>
        simp only at h
        cases hQ2 : Ps0[k + 1]? with
        | none =>
          rw [hQ2] at h
          have : Ps0.drop (k + 1) = [] := by
            rw [List.drop_eq_nil_iff]
            exact List.getElem?_eq_none_iff.1 hQ2
          rw [this]
          cases h
          exact .last hd hd1 (by simp)
        | some Q2 =>
          have hlt : k + 1 < slots0.length := by
            rw [hlen]; exact (List.getElem?_eq_some_iff.1 hQ2).1
          have hS2 : slots0[k + 1]? = some slots0[k + 1] := List.getElem?_eq_getElem hlt
          rw [hQ2, hS2] at h
          simp only at h
          cases hd2 : seqDst dst slots0[k + 1] with
          | none => rw [hd2] at h; cases h
          | some d2 =>
            rw [hd2] at h
            simp only at h
            rcases mk_out (t := t) (i := i1) Q2 d2 bnd m1 with ⟨e, he⟩ | ⟨c2, m2, hb2⟩
            · rw [he.bind] at h; cases h
            · rw [hb2.bind] at h
              exact .cons hd hd1 (ih hQ2 hS2 hd2 hb2 h)

theorem Does.unseq {slots : List (Option Nat)} {Ps : List Prog} (hlen : slots.length = Ps.length)
    (hp : r ≠ .PARTIAL) (h : Does env (.seq slots Ps) dst bnd t i m r i' L m') :
    SeqDoes env dst bnd t slots Ps i m r i' m' := by
  obtain ⟨st, m1, hb, n, st', hr⟩ := h
  cases Ps with
  | nil =>
    have := hb (fun _ _ _ _ _ => .error .stuck) []
    cases slots with
    | nil => simp only [Abu.mk] at this; cases this
    | cons => simp at hlen
  | cons P Ps =>
    cases slots with
    | nil => simp at hlen
    | cons s ss =>
      cases hd : seqDst dst s with
      | none =>
        have := hb (fun _ _ _ _ _ => .error .stuck) []
        simp only [Abu.mk, hd] at this
        cases this
      | some d =>
        obtain ⟨c, hc, rfl⟩ := mk_wrap (by simp only [Abu.mk, hd]; rfl) hb
        simp only [marks] at hr
        have := SeqDoes.of_runs (k := 0) (Q := P) (d := d) hlen hp rfl rfl hd hc (hr [])
        simpa [cw] using this

end

/-! ### Each child alone -/

/-- What happens in the middle of a text happens at the start of the rest of it. -/
theorem Does.unshift {env : Env} {P : Prog} {dst bnd : Ref} {T : List Ch} {d i : Nat} {m : Mem} {r : Res}
    {j : Nat} {L : List Nat} {m' : Mem} (h : Does env P dst bnd T (i + d) m r j L m') :
    ∃ i' L', Does env P dst bnd (T.drop d) i m r i' L' m' ∧ j = i' + d := by
  obtain ⟨st, m1, n, st', hc, hr⟩ := h.construct []
  have hfc := construct_frame (d := d) (S0 := []) P dst bnd (s := ⟨T.drop d, i, [], true⟩)
    (c := ⟨T, i + d, [], true⟩) m ⟨rfl, rfl, rfl, rfl⟩
  have ho := mk_owns (call := fun _ _ _ _ _ => .error .stuck) mem_foreignOps env P dst bnd
    (cw (T.drop d) i [] m)
  change Post _ _ (Abu.construct P dst bnd (cw (T.drop d) i [] m)) at ho
  unfold cw at hc ho
  rw [hc] at hfc
  generalize hcc : Abu.construct P dst bnd (⟨⟨T.drop d, i, [], true⟩, m⟩ : World Cursor Mem) = y at hfc ho
  generalize hz : (Except.ok (st, (⟨⟨T, i + d, List.replicate (marks P) (i + d) ++ [], true⟩, m1⟩ :
    World Cursor Mem)) : Out Cursor Mem PState) = z at hfc
  cases hfc with
  | ub => exact absurd rfl ho.1
  | error => cases hz
  | @ok st0 s1 c1 m2 hr1 =>
    simp only [Except.ok.injEq, Prod.mk.injEq, World.mk.injEq] at hz
    obtain ⟨rfl, rfl, rfl⟩ := hz
    obtain ⟨kk, ho, hs, _⟩ := ho
    have hfr := run_frame env n P dst bnd st m1 hr1
    have hkp := run_keeps mem_foreignOps env n P dst bnd st (⟨s1, m1⟩ : World Cursor Mem) kk 0 ho
      (by rw [hs]; simp)
    unfold cw at hr
    rw [hr] at hfr
    generalize hrr : run env n P dst bnd st (⟨s1, m1⟩ : World Cursor Mem) = y at hfr hkp
    generalize hz : (Except.ok ((r, st'), (⟨⟨T, j, L ++ [], true⟩, m'⟩ : World Cursor Mem)) :
      Out Cursor Mem (Res × PState)) = z at hfr
    cases hfr with
    | ub => exact absurd rfl hkp.1
    | error => cases hz
    | @ok a s2 c2 m3 hr2 =>
      simp only [Except.ok.injEq, Prod.mk.injEq, World.mk.injEq] at hz
      obtain ⟨rfl, rfl, rfl⟩ := hz
      obtain ⟨i2, L2, m3, heq, hd⟩ := Does.intro (t := T.drop d) (i := i) hcc hrr
      obtain ⟨_, h2, _, _⟩ := hr2
      unfold cw at heq
      simp only [World.mk.injEq] at heq
      obtain ⟨rfl, rfl⟩ := heq
      exact ⟨i2, L2, hd, h2⟩

section
variable {env : Env} {p : Pat} {ty : Ty} {v : Val} {T : List Ch} {r : Res} {i j : Nat} {M M' : Mem}
  {o : Nat} {q : List Nat} {b : Ref} {L : List Nat}

/-- What a parser does anywhere it does alone. -/
theorem Does.toAlone (h : Does env (topParser p) (.at o q ty) b T i M r j L M') (hq : p.quiet = true)
    (he : env.quiet) (hv : M.look o q = .ok v) :
    ∃ w, Alone env p ty v M.log (T.drop i) r w M'.log (T.drop j) ∧ M'.look o q = .ok w := by
  obtain ⟨m', h1, h2, w, h3, h4⟩ := h.small (top_quiet hq) he hv (.at 0 [] ty)
  rw [← Nat.zero_add i] at h1
  obtain ⟨i', L', h5, rfl⟩ := h1.unshift
  refine ⟨w, ?_, h4⟩
  exact Does.alone h5 h3 h2 (by rw [List.drop_drop, Nat.add_comm])

theorem Does.toAloneNil (h : Does env (topParser p) .nil b T i M r j L M') (hq : p.quiet = true)
    (he : env.quiet) : AloneNil env p M.log (T.drop i) r M'.log (T.drop j) := by
  obtain ⟨m', h1, h2⟩ := h.small_nil (top_quiet hq) he .nil
  rw [← Nat.zero_add i] at h1
  obtain ⟨i', L', h5, rfl⟩ := h1.unshift
  exact ⟨m', .of_parses (by
    have := h5.parses
    rw [List.drop_drop, Nat.add_comm] at this
    exact this), h2⟩

end

/-- The children of a sequence, each in its slot of a tuple: back to each alone. -/
theorem SeqDoes.eachAlone {env : Env} (he : env.quiet) {T : List Ch} {o : Nat} {q : List Nat}
    {ts0 : List Ty} (bnd : Ref) : ∀ {ps : List Pat} {ts vs} {us : List Val} {r i i'} {M M' : Mem},
      Pat.quiets ps = true → (∀ ty ∈ ts, ty ≠ .nil) → vs.length = ts.length →
      ts0.drop us.length = ts → M.look o q = .ok (.tup (us ++ vs)) →
      SeqDoes env (.at o q (.tup ts0)) bnd T (tupleSlots us.length ps)
          (elabPs .fail ⟨false, false, false, false⟩ ps) i M r i' M' →
      ∃ ws, EachAlone env ps ts vs M.log (T.drop i) r ws M'.log (T.drop i') ∧
        M'.look o q = .ok (.tup (us ++ ws)) := by
  have slotDst : ∀ {us : List Val} {ts d}, ts0.drop us.length = ts → (∀ ty ∈ ts, ty ≠ .nil) →
      seqDst (.at o q (.tup ts0)) (some us.length) = some d →
      ∃ ty ts', ts = ty :: ts' ∧ d = .at o (q ++ [us.length]) ty := by
    intro us ts d h1 h2 h3
    simp only [seqDst] at h3
    cases hk : ts0[us.length]? with
    | none => rw [hk] at h3; cases h3
    | some ty =>
      rw [hk] at h3
      have hc : ts = ty :: ts0.drop (us.length + 1) := by
        rw [← h1]
        obtain ⟨hlt, rfl⟩ := List.getElem?_eq_some_iff.1 hk
        exact List.drop_eq_getElem_cons hlt
      refine ⟨ty, _, hc, ?_⟩
      have hn : ty ≠ .nil := h2 ty (by rw [hc]; simp)
      cases ty <;> first | exact absurd rfl hn | (cases h3; rfl)
  have slotSet : ∀ (us vs : List Val) (v v' : Val), (us ++ v :: vs).set us.length v' = us ++ v' :: vs := by
    intro us vs v v'
    induction us with
    | nil => rfl
    | cons u us ih => simp only [List.cons_append, List.length_cons, List.set_cons_succ, ih]
  intro ps
  induction ps with
  | nil => intro ts vs us r i i' M M' _ _ _ _ _ h; cases h
  | cons p ps ih =>
    intro ts vs us r i i' M M' hq hty hlen hts hM h
    simp only [Pat.quiets, Bool.and_eq_true] at hq
    cases hb : p.valued with
    | true =>
      simp only [tupleSlots, value_of_valued hb, elabPs, elab_default] at h
      -- one child that produces a value
      have one : ∀ {d r1 i1 L M1}, seqDst (.at o q (.tup ts0)) (some us.length) = some d →
          Does env (topParser p) d bnd T i M r1 i1 L M1 →
          ∃ ty ts' v vs' w, ts = ty :: ts' ∧ vs = v :: vs' ∧
            Alone env p ty v M.log (T.drop i) r1 w M1.log (T.drop i1) ∧
            M1.look o q = .ok (.tup (us ++ w :: vs')) := by
        intro d r1 i1 L M1 hd hdo
        obtain ⟨ty, ts', rfl, rfl⟩ := slotDst hts hty hd
        cases vs with
        | nil => simp at hlen
        | cons v vs' =>
          have hlook : M.look o (q ++ [us.length]) = .ok v := by
            rw [look_snoc hM]; simp
          obtain ⟨w, ha, hw⟩ := hdo.toAlone hq.1 he hlook
          refine ⟨ty, ts', v, vs', w, rfl, rfl, ha, ?_⟩
          rw [← slotSet us vs' v w]
          refine look_slot hM (by simp) hw fun j hj => ?_
          exact (hdo.keeps_eq (.inl (.inr (snoc_diverge q hj))) (top_quiet hq.1) he (look_lt hM)).2
      generalize hnil : elabPs .fail ⟨false, false, false, false⟩ ps = Ps at h
      cases h with
      | last hd hdo hp =>
        obtain ⟨ty, ts', v, vs', w, rfl, rfl, ha, hw⟩ := one hd hdo
        cases ps with
        | cons => simp [elabPs] at hnil
        | nil =>
          cases r with
          | PARTIAL => exact absurd rfl hp
          | SUCCESS => exact ⟨_, .value hb ha .nil, hw⟩
          | FAILURE => exact ⟨_, .valueFails hb ha, hw⟩
      | fail hd hdo =>
        obtain ⟨ty, ts', v, vs', w, rfl, rfl, ha, hw⟩ := one hd hdo
        exact ⟨_, .valueFails hb ha, hw⟩
      | cons hd hdo hrest =>
        subst hnil
        obtain ⟨ty, ts', v, vs', w, rfl, rfl, ha, hw⟩ := one hd hdo
        obtain ⟨ws, h1, h2⟩ := ih (us := us ++ [w]) (vs := vs') (ts := ts') hq.2
          (fun ty h => hty ty (by simp [h])) (by simpa using hlen)
          (by rw [List.length_append]; exact (getElem?_of_drop hts).2) (by simpa using hw)
          (by rw [List.length_append]; exact hrest)
        exact ⟨_, .value hb ha h1, by simpa using h2⟩
    | false =>
      simp only [tupleSlots, ignore_of_valued hb, elabPs, elab_default] at h
      have one : ∀ {d r1 i1 L M1}, seqDst (.at o q (.tup ts0)) none = some d →
          Does env (topParser p) d bnd T i M r1 i1 L M1 →
          AloneNil env p M.log (T.drop i) r1 M1.log (T.drop i1) ∧
            M1.look o q = .ok (.tup (us ++ vs)) := by
        intro d r1 i1 L M1 hd hdo
        cases hd
        exact ⟨hdo.toAloneNil hq.1 he,
          by rw [(hdo.keeps_eq (.inl trivial) (top_quiet hq.1) he (look_lt hM)).2, hM]⟩
      generalize hnil : elabPs .fail ⟨false, false, false, false⟩ ps = Ps at h
      cases h with
      | last hd hdo hp =>
        obtain ⟨ha, hw⟩ := one hd hdo
        cases ps with
        | cons => simp [elabPs] at hnil
        | nil =>
          cases r with
          | PARTIAL => exact absurd rfl hp
          | SUCCESS => exact ⟨_, .ignore hb ha .nil, hw⟩
          | FAILURE => exact ⟨_, .ignoreFails hb ha, hw⟩
      | fail hd hdo =>
        obtain ⟨ha, hw⟩ := one hd hdo
        exact ⟨_, .ignoreFails hb ha, hw⟩
      | cons hd hdo hrest =>
        subst hnil
        obtain ⟨ha, hw⟩ := one hd hdo
        obtain ⟨ws, h1, h2⟩ := ih (us := us) hq.2 hty hlen hts hw hrest
        exact ⟨_, .ignore hb ha h1, h2⟩

/-- The children of a sequence, all in the same object: back to each alone. -/
theorem SeqDoes.eachInto {env : Env} (he : env.quiet) {T : List Ch} {o : Nat} {q : List Nat}
    {ty : Ty} (hty : ∀ ts, ty ≠ .tup ts) (bnd : Ref) :
    ∀ {ps : List Pat} {v : Val} {n : Nat} {r i i'} {M M' : Mem}, Pat.quiets ps = true →
      M.look o q = .ok v →
      SeqDoes env (.at o q ty) bnd T (tupleSlots n ps)
          (elabPs .fail ⟨false, false, false, false⟩ ps) i M r i' M' →
      ∃ w, EachInto env ty ps v M.log (T.drop i) r w M'.log (T.drop i') ∧ M'.look o q = .ok w := by
  have slotDst : ∀ k, seqDst (.at o q ty) (some k) = some (.at o q ty) := by
    intro k
    cases ty <;> first | rfl | exact absurd rfl (hty _)
  intro ps
  induction ps with
  | nil => intro v n r i i' M M' _ _ h; cases h
  | cons p ps ih =>
    intro v n r i i' M M' hq hM h
    simp only [Pat.quiets, Bool.and_eq_true] at hq
    cases hb : p.valued with
    | true =>
      simp only [tupleSlots, value_of_valued hb, elabPs, elab_default] at h
      generalize hnil : elabPs .fail ⟨false, false, false, false⟩ ps = Ps at h
      cases h with
      | last hd hdo hp =>
        rw [slotDst] at hd; cases hd
        obtain ⟨w, ha, hw⟩ := hdo.toAlone hq.1 he hM
        cases ps with
        | cons => simp [elabPs] at hnil
        | nil =>
          cases r with
          | PARTIAL => exact absurd rfl hp
          | SUCCESS => exact ⟨_, .value hb ha .nil, hw⟩
          | FAILURE => exact ⟨_, .valueFails hb ha, hw⟩
      | fail hd hdo =>
        rw [slotDst] at hd; cases hd
        obtain ⟨w, ha, hw⟩ := hdo.toAlone hq.1 he hM
        exact ⟨_, .valueFails hb ha, hw⟩
      | cons hd hdo hrest =>
        subst hnil
        rw [slotDst] at hd; cases hd
        obtain ⟨w, ha, hw⟩ := hdo.toAlone hq.1 he hM
        obtain ⟨ws, h1, h2⟩ := ih hq.2 hw hrest
        exact ⟨_, .value hb ha h1, h2⟩
    | false =>
      simp only [tupleSlots, ignore_of_valued hb, elabPs, elab_default] at h
      have one : ∀ {d r1 i1 L M1}, seqDst (.at o q ty) none = some d →
          Does env (topParser p) d bnd T i M r1 i1 L M1 →
          AloneNil env p M.log (T.drop i) r1 M1.log (T.drop i1) ∧ M1.look o q = .ok v := by
        intro d r1 i1 L M1 hd hdo
        cases hd
        exact ⟨hdo.toAloneNil hq.1 he,
          by rw [(hdo.keeps_eq (.inl trivial) (top_quiet hq.1) he (look_lt hM)).2, hM]⟩
      generalize hnil : elabPs .fail ⟨false, false, false, false⟩ ps = Ps at h
      cases h with
      | last hd hdo hp =>
        obtain ⟨ha, hw⟩ := one hd hdo
        cases ps with
        | cons => simp [elabPs] at hnil
        | nil =>
          cases r with
          | PARTIAL => exact absurd rfl hp
          | SUCCESS => exact ⟨_, .ignore hb ha .nil, hw⟩
          | FAILURE => exact ⟨_, .ignoreFails hb ha, hw⟩
      | fail hd hdo =>
        obtain ⟨ha, hw⟩ := one hd hdo
        exact ⟨_, .ignoreFails hb ha, hw⟩
      | cons hd hdo hrest =>
        subst hnil
        obtain ⟨ha, hw⟩ := one hd hdo
        obtain ⟨ws, h1, h2⟩ := ih hq.2 hw hrest
        exact ⟨_, .ignore hb ha h1, h2⟩

theorem Parses.not_partial {env : Env} {p : Pat} {dst : Ref} {m : Mem} {t : List Ch} {r : Res} {m' : Mem}
    {rest : List Ch} (h : Parses env p dst m t (.ok (r, m', rest))) : r ≠ .PARTIAL := by
  rintro rfl
  generalize hv : (Except.ok (Res.PARTIAL, m', rest) : Verdict) = v at h
  cases h with
  | construct => cases hv
  | error => cases hv
  | ok _ h _ =>
    cases hv
    have := h.not_partial.2
    cases this

theorem Alone.toDoes {env p ty v log t r v' log' rest} (h : Alone env p ty v log t r v' log' rest) :
    r ≠ .PARTIAL ∧ ∃ i' L m', Does env (topParser p) (.at 0 [] ty) (.at 0 [] ty) t 0 ⟨[v], log⟩ r i' L m' ∧
      t.drop i' = rest ∧ m'.look 0 [] = .ok v' ∧ m'.log = log' := by
  obtain ⟨m', ⟨hp, _⟩, hv, hl⟩ := h
  obtain ⟨i', L, hd, hr, _⟩ := hp.does (T := t) (i := 0) rfl
  exact ⟨hp.not_partial, i', L, m', hd, hr, look_nil.2 hv, hl⟩

theorem Alone.unseq {env : Env} (he : env.quiet) {ps ts vs log t r v' log' rest}
    (h : Alone env (.seq ps) (.tup ts) (.tup vs) log t r v' log' rest)
    (hq : Pat.quiets ps = true) (hty : ∀ ty ∈ ts, ty ≠ .nil) (hl : vs.length = ts.length) :
    ∃ ws, v' = .tup ws ∧ EachAlone env ps ts vs log t r ws log' rest := by
  obtain ⟨hp, i', L, m', hd, rfl, hv, rfl⟩ := h.toDoes
  have hs := Does.unseq (slots := tupleSlots 0 ps)
    (Ps := elabPs .fail ⟨false, false, false, false⟩ ps)
    (by rw [tupleSlots_length, elabPs_length]) hp hd
  obtain ⟨ws, h1, h2⟩ := SeqDoes.eachAlone he _ (us := []) hq hty hl rfl rfl hs
  rw [hv] at h2
  cases h2
  exact ⟨ws, rfl, h1⟩

theorem Alone.unseqInto {env : Env} (he : env.quiet) {ps ty v log t r v' log' rest}
    (h : Alone env (.seq ps) ty v log t r v' log' rest)
    (hq : Pat.quiets ps = true) (hty : ∀ ts, ty ≠ .tup ts) :
    EachInto env ty ps v log t r v' log' rest := by
  obtain ⟨hp, i', L, m', hd, rfl, hv, rfl⟩ := h.toDoes
  have hs := Does.unseq (slots := tupleSlots 0 ps)
    (Ps := elabPs .fail ⟨false, false, false, false⟩ ps)
    (by rw [tupleSlots_length, elabPs_length]) hp hd
  obtain ⟨w, h1, h2⟩ := SeqDoes.eachInto he hty _ (v := v) hq rfl hs
  rw [hv] at h2
  cases h2
  exact h1

end Abu
