import Verif.Proofs.Items
import Verif.Proofs.Apply
/-
What alternatives leave to one another.
-/
namespace Abu

/-! ### The place where a use ends -/

theorem Does.big {env : Env} {P : Prog} {dst bnd t i m r i' L m'}
    (h : Does env P dst bnd t i m r i' L m') (hP : Comp P)
    (henv : ∀ id q sk, env id = some q → Comp sk → Comp (elabP sk RecurChildReqs q)) :
    Big env t P (fresh P) i (List.replicate (marks P) i) r i' L := by
  obtain ⟨st, m1, hb, n, st', hr⟩ := h
  have h0 := hb (fun _ _ _ _ _ => .error .stuck) []
  have hce := construct_er (g := id) P dst bnd (cw t i [] m)
  rw [Abu.construct, h0, Prog.mapAct_id] at hce
  have hgc : Abu.construct P .nil .nil (⟨⟨t, i, [], true⟩, ()⟩ : World Cursor Unit) =
      .ok (fresh P, gw t i (List.replicate (marks P) i ++ [])) := by
    have := exec_mk (call := fun _ _ _ _ _ => .error .stuck) hP
      (⟨⟨t, i, [], true⟩, ()⟩ : World Cursor Unit)
    rw [Abu.construct, this, push]
  have hds : (cw t i [] m).ds = ⟨t, i, [], true⟩ := rfl
  rw [hds, hgc] at hce
  generalize hx : (Except.ok (fresh P, gw t i (List.replicate (marks P) i ++ [])) :
    Out Cursor Unit PState) = x at hce
  cases hce with
  | ok =>
    simp only [Except.ok.injEq, Prod.mk.injEq] at hx
    obtain ⟨hx1, hx2⟩ := hx
    have hn := hr []
    have hre := run_er (g := id) (fun _ => rfl) env n P dst bnd st (cw t i (List.replicate (marks P) i ++ []) m1)
    rw [hn, Prog.mapAct_id, Env.mapAct_id, ← hx1] at hre
    rw [show cw t i (List.replicate (marks P) i ++ []) m1 = ⟨⟨t, i, List.replicate (marks P) i ++ [], true⟩, m1⟩ from rfl] at hre
    generalize hrr : run env n P .nil .nil (fresh P) (gw t i (List.replicate (marks P) i ++ [])) = z at hre
    cases hre with
    | ok =>
      obtain ⟨i2, S2, he, hbg⟩ := big_of_run henv hP (nilSt_fresh P) hrr
      have hc2 : (⟨t, i', L ++ [], true⟩ : Cursor) = ⟨t, i2, S2, true⟩ := congrArg World.ds he
      simp only [Cursor.mk.injEq, true_and, and_true, List.append_nil] at hc2
      obtain ⟨rfl, rfl⟩ := hc2
      rw [List.append_nil] at hbg
      exact hbg

/-- Tidy patterns required to fail cleanly go back when they fail. -/
theorem Does.back {env : Env} {p : Pat} {a c0 els elf ls lf dst bnd t i m i' L m'}
    (henv : env.tidy false els elf) (hp : p.tidy false els elf true ls lf = true)
    (h : Does env (elabP .fail ⟨a, true, c0, false⟩ p) dst bnd t i m .FAILURE i' L m') : i' = i := by
  have hb := h.big (comp_elab p .fail hp) (env_comp henv)
  have hi := impl_top (r := ⟨a, true, c0, false⟩) (by simp) rfl hp
  have := big_peg (S := []) henv hi (by simpa using hb)
  cases this with
  | no _ _ h => exact h rfl

/-! ### Assignments -/

/-- What `A` does is the same whatever the destination held before. -/
def Restarts (env : Env) (T : List Ch) (ty : Ty) (A : Prog) : Prop :=
  ∀ ⦃m : Mem⦄ ⦃u i b r i' L⦄ ⦃m' : Mem⦄, r ≠ .PARTIAL → m.look 0 [] = .ok u →
    Does env A (.at 0 [] ty) b T i m r i' L m' →
    ∀ (m2 : Mem) u2 b2, m2.look 0 [] = .ok u2 → m2.log = m.log →
      ∃ m2', Does env A (.at 0 [] ty) b2 T i m2 r i' L m2' ∧ m2'.log = m'.log ∧
        (∃ u3, m2'.look 0 [] = .ok u3) ∧ (r = .SUCCESS → m2'.look 0 [] = m'.look 0 [])

/-- One by one. -/
inductive RestartAll (env : Env) (T : List Ch) (ty : Ty) : List Prog → Prop
  | nil : RestartAll env T ty []
  | cons {A As} : Restarts env T ty A → RestartAll env T ty As → RestartAll env T ty (A :: As)

section
variable {env : Env} {T : List Ch} {ty : Ty} {A : Prog}

theorem Restarts.clean (h : Restarts env T ty A) : Restarts env T ty (.clean A) := by
  intro m u i b r i' L m' hr hu hd m2 u2 b2 hu2 hl
  obtain ⟨i1, L1, a, hd1, hL, rfl⟩ := hd.unclean hr
  obtain ⟨m2', h1, h2⟩ := h hr hu hd1 m2 u2 b2 hu2 hl
  refine ⟨m2', ?_, h2⟩
  cases r with
  | SUCCESS => exact h1.clean_succ hL
  | FAILURE => exact h1.clean_fail hL
  | PARTIAL => exact absurd rfl hr

theorem Restarts.lexeme (h : Restarts env T ty A) : Restarts env T ty (.lexeme A) := by
  intro m u i b r i' L m' hr hu hd m2 u2 b2 hu2 hl
  obtain ⟨m2', h1, h2⟩ := h hr hu hd.unlexeme m2 u2 b2 hu2 hl
  exact ⟨m2', h1.lexeme, h2⟩

theorem assign_over {m : Mem} {u w v} (hty : ∀ t, ty ≠ .coll t) (hc : ty.convert w = .ok v)
    (h : m.look 0 [] = .ok u) :
    ∃ m', m.assign (.at 0 [] ty) w = .ok m' ∧ m'.look 0 [] = .ok v ∧ m'.log = m.log := by
  have key : ∃ m', m.modify 0 [] (fun _ => .ok v) = .ok m' ∧ m'.look 0 [] = .ok v ∧ m'.log = m.log :=
    modify_look_same h rfl
  cases ty with
  | coll t => exact absurd rfl (hty t)
  | _ => simp only [Mem.assign, hc]; exact key

theorem assign_conv {m m' : Mem} {u w} (hty : ∀ t, ty ≠ .coll t) (hu : m.look 0 [] = .ok u)
    (h : m.assign (.at 0 [] ty) w = .ok m') :
    ∃ v, ty.convert w = .ok v ∧ m'.look 0 [] = .ok v := by
  cases hc : ty.convert w with
  | error e =>
    cases ty with
    | coll t => exact absurd rfl (hty t)
    | _ => simp only [Mem.assign, hc] at h; cases h
  | ok v =>
    obtain ⟨m3, h1, h2, _⟩ := assign_over hty hc hu
    rw [h] at h1
    cases h1
    exact ⟨v, rfl, h2⟩

theorem Restarts.assigning (hA : A.assigning = true) (hty : ∀ t, ty ≠ .coll t) :
    Restarts env T ty A := by
  intro m u i b r i' L m' hr hu hd m2 u2 b2 hu2 hl
  rcases hd.assigns hA with ⟨e1, rfl, e3⟩ | ⟨rfl, w, e2, e3⟩
  · exact ⟨m2, e3 _ _ _, hl, ⟨_, hu2⟩, fun h => absurd h e1⟩
  · obtain ⟨v, h1, h2⟩ := assign_conv hty hu e2
    obtain ⟨m3, h3, h4, h5⟩ := assign_over hty h1 hu2
    exact ⟨m3, e3 _ _ _ _ h3, by rw [h5, hl, assign_log e2], ⟨_, h4⟩, fun _ => by rw [h4, h2]⟩

/-- In other memory. -/
theorem Does.large {u : Val} {i log b r i' L} {m' : Mem} (hq : A.quiet = true) (he : env.quiet)
    (hd : Does env A (.at 0 [] ty) b T i ⟨[u], log⟩ r i' L m') {M : Mem} {o q} (hM : M.look o q = .ok u)
    (hl : M.log = log) (bnd : Ref) :
    ∃ M', Does env A (.at o q ty) bnd T i M r i' L M' ∧ M'.log = m'.log ∧
      ∀ v, m'.look 0 [] = .ok v → M'.look o q = .ok v := by
  obtain ⟨M', h1, h2⟩ := hd.move (bnd' := bnd) (Place.one_ok (look_lt hM)) (MemR.one hM hl)
    (.inr ⟨hq, he.prog⟩)
  refine ⟨M', by simpa [Ref.move, Place.one] using h1, h2.log, fun v hv => ?_⟩
  have := h2.val 0 v (look_nil.1 hv)
  simpa [Place.one] using this

theorem Restarts.zeroed (hm : ∀ d b, ∃ st, Abu.mk A d b = .mem (.zero d) (.pure st))
    (hq : A.quiet = true) (he : env.quiet) : Restarts env T ty A := by
  intro m u i b r i' L m' hr hu hd m2 u2 b2 hu2 hl
  obtain ⟨m3, h1, h2, w, h3, h4⟩ := hd.small hq he hu b
  have h5 := Does.zeroed (u2 := u2) hm h1
  obtain ⟨m4, h6, h7, h8⟩ := h5.large hq he hu2 hl b2
  have := h8 _ h3
  exact ⟨m4, h6, h7.trans h2, ⟨_, this⟩, fun _ => by rw [this, h4]⟩

theorem Restarts.action {a : Act} (hq : A.quiet = true) (he : env.quiet) (ha : a.param = false)
    (hv : a.void = false) (hty : ∀ t, ty ≠ .coll t) : Restarts env T ty (.action a A) := by
  intro m u i b r i' L m' hr hu hd m2 u2 b2 hu2 hl
  obtain ⟨m1, h1, h2, h3⟩ := hd.unaction
  obtain ⟨M1, e1, e2, e3, e4⟩ := h1.landed hq he hl b2
  obtain ⟨M0, d1, d2, d3, d4⟩ := h1.landed hq he rfl b2
  cases r with
  | PARTIAL => exact absurd rfl hr
  | FAILURE =>
    exact ⟨M1, .action_fail e1, by rw [e2, h3 (by simp)], ⟨_, e3 _ _ _ hu2⟩, fun h => by cases h⟩
  | SUCCESS =>
    have h2 := h2 rfl
    obtain ⟨x, hx, hne, hlog⟩ := act_log h2
    rw [act_plain ha hx hne, hv] at h2
    have hu1 : m1.look 0 [] = .ok u := by
      by_cases hn : a.landing = .nil
      · rw [hn] at h1
        simp only [Mem.alloc] at h1
        exact h1.keeps (.inl trivial) hq he hu
      · rw [alloc_eq hn] at h1
        have hlt := look_lt hu
        exact h1.keeps (.inl (.inl (by omega))) hq he (look_append hu)
    obtain ⟨v, hc, hv2⟩ := assign_conv (m := { m1 with log := m1.log ++ [⟨a.id, x⟩] }) hty hu1 h2
    obtain ⟨M2, f1, f2, f3⟩ := assign_over (m := { M1 with log := M1.log ++ [⟨a.id, x⟩] }) hty hc
      (e3 _ _ _ hu2)
    refine ⟨M2, .action e1 ?_, ?_, ⟨_, f2⟩, fun _ => by rw [f2, hv2]⟩
    · rw [act_plain ha (e4 _ hx) hne, hv, e2]
      rw [e2] at f1
      exact f1
    · rw [f3, hlog, e2]

theorem Restarts.except {N : Prog} (h : Restarts env T ty A) (hqN : N.quiet = true) (he : env.quiet) :
    Restarts env T ty (.except A N) := by
  intro m u i b r i' L m' hr hu hd m2 u2 b2 hu2 hl
  have key : ∀ {r i1 L1 m1}, Does env N .nil b T i m r i1 L1 m1 →
      ∃ M1, Does env N .nil b2 T i m2 r i1 L1 M1 ∧ M1.log = m1.log ∧ M1.look 0 [] = .ok u2 := by
    intro r i1 L1 m1 h1
    obtain ⟨m2, h2, h3⟩ := h1.small_nil hqN he b2
    obtain ⟨M', h4, h5⟩ := h2.move (bnd' := b2) Place.none_ok (MemR.none_start hl)
      (.inr ⟨hqN, he.prog⟩)
    exact ⟨M', h4, h5.log.trans h3, h4.keeps (.inl trivial) hqN he hu2⟩
  rcases hd.unexcept hr with ⟨rfl, h1⟩ | ⟨i1, L1, m1, L2, h1, h2, rfl⟩
  · obtain ⟨M1, e1, e2, e3⟩ := key h1
    exact ⟨M1, .except_neg e1, e2, ⟨_, e3⟩, fun h => by cases h⟩
  · obtain ⟨M1, e1, e2, e3⟩ := key h1
    have hu1 : m1.look 0 [] = .ok u := h1.keeps (.inl trivial) hqN he hu
    obtain ⟨M', g1, g2⟩ := h hr hu1 h2 M1 u2 b2 e3 e2
    exact ⟨M', .except_op e1 g1, g2⟩

theorem Does.look_some {m : Mem} {u i b r i' L} {m' : Mem} (hq : A.quiet = true) (he : env.quiet)
    (hd : Does env A (.at 0 [] ty) b T i m r i' L m') (hu : m.look 0 [] = .ok u) :
    ∃ w, m'.look 0 [] = .ok w := by
  obtain ⟨_, _, _, w, _, h⟩ := hd.small hq he hu b
  exact ⟨w, h⟩

theorem Restarts.alts {As : List Prog} (hq : Prog.quiets As = true) (he : env.quiet)
    (h : RestartAll env T ty As) {b r i' L} {m m' : Mem} {i E} (hr : r ≠ .PARTIAL)
    (hd : AltDoes env (.at 0 [] ty) b T As i E m r i' L m') :
    ∀ {u} (_ : m.look 0 [] = .ok u) (m2 : Mem) u2 b2, m2.look 0 [] = .ok u2 → m2.log = m.log →
      ∃ m2', AltDoes env (.at 0 [] ty) b2 T As i E m2 r i' L m2' ∧ m2'.log = m'.log ∧
        (∃ u3, m2'.look 0 [] = .ok u3) ∧ (r = .SUCCESS → m2'.look 0 [] = m'.look 0 []) := by
  induction hd with
  | here h1 =>
    intro u hu m2 u2 b2 hu2 hl
    cases h with
    | cons hQ hPs =>
      obtain ⟨M', g1, g2⟩ := hQ hr hu h1 m2 u2 b2 hu2 hl
      exact ⟨M', .here g1, g2⟩
  | last h1 =>
    intro u hu m2 u2 b2 hu2 hl
    cases h with
    | cons hQ hPs =>
      obtain ⟨M', g1, g2⟩ := hQ hr hu h1 m2 u2 b2 hu2 hl
      exact ⟨M', .last g1, g2⟩
  | cons h1 _ ih =>
    intro u hu m2 u2 b2 hu2 hl
    simp only [Prog.quiets, Bool.and_eq_true] at hq
    cases h with
    | cons hQ hPs =>
      obtain ⟨M', g1, g2, ⟨u3, g3⟩, _⟩ := hQ (by simp) hu h1 m2 u2 b2 hu2 hl
      obtain ⟨w, hw⟩ := h1.look_some hq.1 he hu
      obtain ⟨M2, k1, k2⟩ := ih hq.2 hPs hr hw M' u3 b2 g3 g2
      exact ⟨M2, .cons g1 k1, k2⟩

theorem Restarts.alt {As : List Prog} (hq : Prog.quiets As = true) (he : env.quiet)
    (h : RestartAll env T ty As) : Restarts env T ty (.alt As) := by
  intro m u i b r i' L m' hr hu hd m2 u2 b2 hu2 hl
  obtain ⟨M', h1, h2⟩ := Restarts.alts hq he h hr (hd.unalt hr) hu m2 u2 b2 hu2 hl
  exact ⟨M', h1.does, h2⟩

mutual
theorem restarts_pat (he : env.quiet) (hty : ∀ t, ty ≠ .coll t) : ∀ (p : Pat) {f c : Bool},
    p.assigns = true → p.quiet = true → Restarts env T ty (elabP .fail ⟨false, f, c, false⟩ p) := by
  intro p f c hs hq
  have noFc : p.FAILS_CLEANLY = false →
      Restarts env T ty (elabP .fail ⟨false, false, c, false⟩ p) →
      Restarts env T ty (elabP .fail ⟨false, f, c, false⟩ p) := by
    intro hfc h
    cases f with
    | false => exact h
    | true => rw [elab_addClean hfc]; exact h.clean
  have number : (∀ d b, ∃ st, Abu.mk (elabP .fail ⟨false, false, c, false⟩ p) d b = .mem (.zero d) (.pure st)) →
      (p.FAILS_CLEANLY = true →
        elabP .fail ⟨false, true, c, false⟩ p = elabP .fail ⟨false, false, c, false⟩ p) →
      Restarts env T ty (elabP .fail ⟨false, f, c, false⟩ p) := by
    intro hm hsame
    have h0 := Restarts.zeroed (env := env) (T := T) (ty := ty) hm (elab_quiet p hq rfl) he
    cases hfc : p.FAILS_CLEANLY with
    | false => exact noFc hfc h0
    | true =>
      cases f with
      | false => exact h0
      | true => rw [hsame hfc]; exact h0
  cases p with
  | char s => exact Restarts.assigning rfl hty
  | charSymbol s => exact Restarts.assigning rfl hty
  | symbol s => exact noFc rfl (Restarts.assigning rfl hty)
  | int b mn mx =>
    refine number (fun d bb => ?_) (fun hfc => ?_)
    · exact ⟨_, by show Abu.mk (.int b mn mx) d bb = _; simp only [Abu.mk]; rfl⟩
    · simp [elabP, adapt, Req.needsClean, Req.needsAtomic, Req.skipper, hfc]
  | uint b mn mx =>
    refine number (fun d bb => ?_) (fun hfc => ?_)
    · exact ⟨_, by show Abu.mk (.uint b mn mx) d bb = _; simp only [Abu.mk]; rfl⟩
    · simp [elabP, adapt, Req.needsClean, Req.needsAtomic, Req.skipper, hfc]
  | lexeme q =>
    have h := restarts_pat he hty q (f := f) (c := c) hs hq
    cases f <;> exact h.lexeme
  | action a q =>
    simp only [Pat.quiet, Bool.and_eq_true, Bool.not_eq_true'] at hq
    have hs : a.void = false := by simpa [Pat.assigns] using hs
    have h : Restarts env T ty (.action a (elabP .fail ⟨false, f, c, false⟩ q)) :=
      Restarts.action (elab_quiet q hq.2 rfl) he hq.1 hs hty
    cases f <;> exact h
  | except q s =>
    simp only [Pat.quiet, Bool.and_eq_true] at hq
    have h := restarts_pat he hty q (f := false) (c := c) hs hq.1
    exact noFc rfl (h.except (elab_quiet s hq.2 rfl) he)
  | alt ps =>
    have h : Restarts env T ty (.alt (elabPs .fail ⟨false, true, c, false⟩ ps)) :=
      Restarts.alt (elabs_quiet ps hq rfl) he (restarts_pats he hty ps hs hq)
    cases f <;> exact h
  | _ => cases hs
theorem restarts_pats (he : env.quiet) (hty : ∀ t, ty ≠ .coll t) : ∀ (ps : List Pat) {c : Bool},
    Pat.allAssign ps = true → Pat.quiets ps = true →
    RestartAll env T ty (elabPs .fail ⟨false, true, c, false⟩ ps)
  | [], _, _, _ => .nil
  | p :: ps, c, hs, hq => by
    simp only [Pat.allAssign, Pat.quiets, Bool.and_eq_true] at hs hq
    exact .cons (restarts_pat he hty p hs.1 hq.1) (restarts_pats he hty ps hs.2 hq.2)
end

/-- What an assigning pattern does alone does not depend on what the object held before. -/
theorem Alone.restart {p : Pat} {u log t r v log' rest} (h : Alone env p ty u log t r v log' rest)
    (hr : r ≠ .PARTIAL) (he : env.quiet) (hq : p.quiet = true) (hs : p.assigns = true) (hty : ∀ t, ty ≠ .coll t) (u2 : Val) :
    ∃ v2, Alone env p ty u2 log t r v2 log' rest ∧ (r = .SUCCESS → v2 = v) := by
  obtain ⟨m', ⟨hp, _⟩, hv', hl'⟩ := h
  obtain ⟨i', L, hd, hrest, _⟩ := hp.does (T := t) (i := 0) rfl
  obtain ⟨m2, h1, h2, ⟨u3, h3⟩, h4⟩ := restarts_pat (T := t) he hty p hs hq (f := false) (c := false) hr
    (m := ⟨[u], log⟩) (u := u) rfl hd ⟨[u2], log⟩ u2 (.at 0 [] ty) rfl rfl
  refine ⟨u3, Does.alone h1 h3 (h2.trans hl') hrest, fun e => ?_⟩
  rw [h4 e, look_nil.2 hv'] at h3
  cases h3; rfl

/-- A traceless pattern that fails leaves the object alone. -/
theorem Alone.traceless {p : Pat} {u log t v log' rest}
    (h : Alone env p ty u log t .FAILURE v log' rest) (he : env.quiet) (hq : p.quiet = true)
    (ht : p.traceless false = true) : v = u := by
  obtain ⟨m', ⟨hp, _⟩, hv', hl'⟩ := h
  obtain ⟨i', L, hd, hrest, _⟩ := hp.does (T := t) (i := 0) rfl
  have := hd.extends_af (af_elab p (r := ⟨false, false, false, false⟩) (fun _ => rfl) ht) (top_quiet hq) he (o := 0) (q := []) (v := u) rfl
  rw [look_nil.2 hv'] at this
  cases this; rfl

theorem FailInTurn.traceless {ps : List Pat} {u log t v log'}
    (h : FailInTurn env ty t ps u log v log') (he : env.quiet) (hq : Pat.quiets ps = true)
    (ht : Pat.tracelesses false ps = true) : v = u := by
  induction h with
  | nil => rfl
  | cons h _ ih =>
    simp only [Pat.quiets, Pat.tracelesses, Bool.and_eq_true] at hq ht
    rw [ih hq.2 ht.2, h.traceless he hq.1 ht.1]

/-! ### The first alternative that matches -/

theorem FailInTurn.altDoes {ps : List Pat} {u log t u1 log1} {q : Pat} {qs : List Pat} {v log2 rest}
    {els elf : Stale} (h : FailInTurn env ty t ps u log u1 log1)
    (hm : Alone env q ty u1 log1 t .SUCCESS v log2 rest) (he : env.quiet)
    (hq : Pat.quiets (ps ++ q :: qs) = true) (hk : ∀ p ∈ ps ++ [q], p.unskipped = true)
    (henv : env.tidy false els elf)
    (hp : ∀ p ∈ ps, p.tidy false els elf true .any .any = true) (T : List Ch) (i : Nat) (ht : T.drop i = t) (c : Bool) (bnd : Ref) :
    ∀ {M : Mem} {E : List Nat}, M.look 0 [] = .ok u → M.log = log →
      ∃ i' L M', AltDoes env (.at 0 [] ty) bnd T (elabPs .fail ⟨false, true, c, false⟩ (ps ++ q :: qs)) i E M
        .SUCCESS i' L M' ∧ T.drop i' = rest ∧ M'.look 0 [] = .ok v ∧ M'.log = log2 := by
  subst ht
  induction h with
  | nil =>
    intro M E hM hl
    simp only [List.nil_append, Pat.quiets, Bool.and_eq_true] at hq
    obtain ⟨i', L, M', h1, h2, _, h3, h4, _⟩ := hm.does hq.1 he hM hl bnd
    rw [← elab_false q c] at h1
    obtain ⟨i2, L2, h5, h6⟩ := Does.cleaner (c := c) q (hk q (by simp)) (by simp) h1
    simp only [List.nil_append, elabPs]
    exact ⟨_, _, _, .here h5, by rw [h6 rfl]; exact h2, h3, h4⟩
  | @cons p ps u log u1 log1 rest1 u2 log2 h _ ih =>
    intro M E hM hl
    simp only [List.cons_append, Pat.quiets, Bool.and_eq_true] at hq
    obtain ⟨i', L, M', h1, h2, _, h3, h4, _⟩ := h.does hq.1 he hM hl bnd
    rw [← elab_false p c] at h1
    obtain ⟨i2, L2, h5, h6⟩ := Does.cleaner (c := c) p (hk p (by simp)) (by simp) h1
    have hi := h5.back henv (hp p (by simp))
    subst hi
    obtain ⟨i3, L3, M3, e1, e2⟩ := ih hq.2 (fun x hx => hk x (by
      simp only [List.cons_append, List.mem_cons]; exact .inr hx)) (fun x hx => hp x (by simp [hx]))
      hm h3 h4 (E := L2 ++ E)
    simp only [List.cons_append, elabPs]
    exact ⟨i3, L3, M3, .cons h5 e1, e2⟩

theorem tidyAlt_mem {sk : Bool} {els elf : Stale} : ∀ {ps : List Pat}, Pat.tidyAlt sk els elf .any .any ps = true →
    ∀ p ∈ ps, p.tidy sk els elf true .any .any = true
  | [], _, _, h => by cases h
  | q :: ps, ht, p, h => by
    simp only [Pat.tidyAlt, Bool.and_eq_true, Stale.meet, ite_self] at ht
    rcases List.mem_cons.1 h with rfl | h
    · exact ht.1
    · exact tidyAlt_mem ht.2 p h

end

end Abu
