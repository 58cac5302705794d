import Verif.Proofs.Filled
/-
Parsers that never read what was not initialised, continued: parser programs.
-/
namespace Abu

mutual
/-- As `Pat.surely`, for programs. -/
def Prog.surely (F : Nat → Bool) : Prog → Bool
  | .char _ => true
  | .charSymbol _ => true
  | .strLit _ => false
  | .symbol _ => true
  | .int .. => true
  | .uint .. => true
  | .eoi => false
  | .pass => false
  | .fail => true
  | .seq slots ps => Prog.someSurely F slots ps
  | .alt ps => Prog.allSurely F ps
  | .rep mn _ p => mn != 0 && p.surely F
  | .opt _ => false
  | .not _ => false
  | .discard _ => false
  | .lexeme p => p.surely F
  | .bindDst p => p.surely F
  | .construct .. => true
  | .action a _ => !a.void
  | .except op _ => op.surely F
  | .list .. => false
  | .withSkipper p => p.surely F
  | .recur id _ => F id
  | .atomic _ => true
  | .clean p => p.surely F
  | .skip _ p => p.surely F
/-- One of the children with a slot does. -/
def Prog.someSurely (F : Nat → Bool) : List (Option Nat) → List Prog → Bool
  | s :: slots, p :: ps => (s.isSome && p.surely F) || Prog.someSurely F slots ps
  | _, _ => false
/-- All do. -/
def Prog.allSurely (F : Nat → Bool) : List Prog → Bool
  | [] => true
  | p :: ps => p.surely F && Prog.allSurely F ps
end

/-- The type of the destination of a child of a sequence. -/
def Ty.seqSlot (ty : Ty) : Option Nat → Ty
  | none => .nil
  | some k => ty.slot k

mutual
/-- As `Pat.careful` and `Pat.Tame`, for programs. -/
def Prog.Careful (F : Nat → Bool) (G : Nat → Ty → Bool) (ty : Ty) : Prog → Prop
  | .charSymbol m => ∀ e ∈ m, e.2.whole = true
  | .symbol n => n.whole = true
  | .seq slots ps => Prog.CarefulSeq F G ty slots ps
  | .alt ps => Prog.AllCareful F G ty ps
  | .rep _ _ p => p.Careful F G ty
  | .opt p => p.Careful F G ty
  | .not p => p.Careful F G ty
  | .discard p => p.Careful F G .nil
  | .lexeme p => p.Careful F G ty
  | .bindDst p => p.Careful F G ty
  | .construct tys p => p.Careful F G (.tup tys)
  | .action a p =>
    a.Tame ∧ (a.landing.scalar = true → p.surely F = true) ∧ p.Careful F G a.landing
  | .except op neg => op.Careful F G ty ∧ neg.Careful F G .nil
  | .list op sep => op.Careful F G ty ∧ sep.Careful F G .nil
  | .withSkipper p => p.Careful F G ty
  | .recur id sk => G id ty = true ∧ sk.Careful F G .nil
  | .atomic p => (ty.item.scalar = true → p.surely F = true) ∧ p.Careful F G ty.item
  | .clean p => p.Careful F G ty
  | .skip s p => s.Careful F G .nil ∧ p.Careful F G ty
  | _ => True
/-- For all of a list. -/
def Prog.AllCareful (F : Nat → Bool) (G : Nat → Ty → Bool) (ty : Ty) : List Prog → Prop
  | [] => True
  | p :: ps => p.Careful F G ty ∧ Prog.AllCareful F G ty ps
/-- For the children of a sequence. -/
def Prog.CarefulSeq (F : Nat → Bool) (G : Nat → Ty → Bool) (ty : Ty) :
    List (Option Nat) → List Prog → Prop
  | s :: slots, p :: ps => p.Careful F G (ty.seqSlot s) ∧ Prog.CarefulSeq F G ty slots ps
  | _, _ => True
end

variable {F : Nat → Bool} {G : Nat → Ty → Bool}

theorem allCareful_get {ty : Ty} : ∀ {ps : List Prog} {i : Nat} {p : Prog}, Prog.AllCareful F G ty ps → ps[i]? = some p →
    p.Careful F G ty
  | q :: ps, 0, p, h, hp => by
    simp only [List.getElem?_cons_zero, Option.some.injEq] at hp
    exact hp ▸ h.1
  | q :: ps, i + 1, p, h, hp => by
    simp only [List.getElem?_cons_succ] at hp
    exact allCareful_get h.2 hp

theorem carefulSeq_get {ty : Ty} : ∀ {slots : List (Option Nat)} {ps : List Prog} {i : Nat} {p : Prog} {s : Option Nat},
    Prog.CarefulSeq F G ty slots ps → ps[i]? = some p → slots[i]? = some s →
    p.Careful F G (ty.seqSlot s)
  | t :: slots, q :: ps, 0, p, s, h, hp, hs => by
    simp only [List.getElem?_cons_zero, Option.some.injEq] at hp hs
    exact hp ▸ hs ▸ h.1
  | t :: slots, q :: ps, i + 1, p, s, h, hp, hs => by
    simp only [List.getElem?_cons_succ] at hp hs
    exact carefulSeq_get h.2 hp hs

theorem someSurely_get : ∀ {slots : List (Option Nat)} {ps : List Prog},
    Prog.someSurely F slots ps = true →
    ∃ (j : Nat) (p : Prog) (k : Nat), ps[j]? = some p ∧ slots[j]? = some (some k) ∧ p.surely F = true
  | [], _, h => by simp [Prog.someSurely] at h
  | _ :: _, [], h => by simp [Prog.someSurely] at h
  | s :: slots, p :: ps, h => by
    rw [Prog.someSurely, Bool.or_eq_true] at h
    rcases h with h | h
    · rw [Bool.and_eq_true] at h
      cases s with
      | none => cases h.1
      | some k => exact ⟨0, p, k, rfl, rfl, h.2⟩
    · obtain ⟨j, q, k, h1, h2, h3⟩ := someSurely_get h
      exact ⟨j + 1, q, k, h1, h2, h3⟩

theorem allSurely_get : ∀ {ps : List Prog} {i : Nat} {p : Prog}, Prog.allSurely F ps = true → ps[i]? = some p →
    p.surely F = true
  | q :: ps, 0, p, h, hp => by
    simp only [List.getElem?_cons_zero, Option.some.injEq] at hp
    rw [Prog.allSurely, Bool.and_eq_true] at h
    exact hp ▸ h.1
  | q :: ps, i + 1, p, h, hp => by
    simp only [List.getElem?_cons_succ] at hp
    rw [Prog.allSurely, Bool.and_eq_true] at h
    exact allSurely_get h.2 hp

/-! ### References -/

theorem valueType_ty (d : Ref) : d.valueType = d.ty.item := by
  cases d with
  | nil => rfl
  | «at» o p t => cases t <;> rfl

theorem seqDst_ty {d d' : Ref} {s : Option Nat} (h : seqDst d s = some d') :
    d'.ty = d.ty.seqSlot s := by
  cases s with
  | none => cases d <;> · simp only [seqDst, Option.some.injEq] at h; cases h; rfl
  | some k =>
    cases d with
    | nil => simp only [seqDst, Option.some.injEq] at h; cases h; rfl
    | «at» o p t =>
      cases t with
      | tup ts =>
        simp only [seqDst, Option.map_eq_some_iff] at h
        obtain ⟨t, h1, h2⟩ := h
        subst h2
        show _ = (ts[k]?).getD .nil
        rw [h1]
        cases t <;> rfl
      | _ => simp only [seqDst, Option.some.injEq] at h; cases h; rfl

theorem seqDst_sane {m : Mem} {d d' : Ref} {s : Option Nat} (hd : m.Sane d)
    (h : seqDst d s = some d') : m.Sane d' := by
  cases s with
  | none => cases d <;> · simp only [seqDst, Option.some.injEq] at h; cases h; intro _; trivial
  | some k =>
    cases d with
    | nil => simp only [seqDst, Option.some.injEq] at h; cases h; exact hd
    | «at» o p t =>
      cases t with
      | tup ts =>
        simp only [seqDst, Option.map_eq_some_iff] at h
        obtain ⟨t, h1, h2⟩ := h
        subst h2
        have := hd rfl
        intro _
        cases t with
        | nil => trivial
        | _ => exact this
      | _ => simp only [seqDst, Option.some.injEq] at h; cases h; exact hd

/-- Filling the destination of a child fills that of the sequence. -/
theorem seqDst_filled {m : Mem} {d d' : Ref} {k : Nat} (hd : m.Sane d)
    (h : seqDst d (some k) = some d') (hf : m.Filled d') : m.Filled d := by
  cases d with
  | nil => trivial
  | «at» o p t =>
    cases t with
    | tup ts => exact hd rfl
    | _ => simp only [seqDst, Option.some.injEq] at h; cases h; exact hf

/-! ### States -/

/-- What has to be initialised for the object to go on. -/
inductive Ready (env : Env) (F : Nat → Bool) (m : Mem) : Prog → Ref → PState → Prop
  | char {s d st} : Ready env F m (.char s) d st
  | charSymbol {t d st} : Ready env F m (.charSymbol t) d st
  | strLit {s d st} : Ready env F m (.strLit s) d st
  | eoi {d st} : Ready env F m .eoi d st
  | pass {d st} : Ready env F m .pass d st
  | fail {d st} : Ready env F m .fail d st
  | symbol {r d n v} : n.whole = true → (∀ x, v = some x → x.whole = true) →
      Ready env F m (.symbol r) d (.symbol n v)
  | int {b mn mx d st} : m.Filled d → Ready env F m (.int b mn mx) d st
  | uint {b mn mx d st} : m.Filled d → Ready env F m (.uint b mn mx) d st
  | seq {slots ps d i c p s d'} : ps[i]? = some p → slots[i]? = some s → seqDst d s = some d' →
      Ready env F m p d' c →
      (∀ (j : Nat) (q : Prog) (k : Nat), j < i → ps[j]? = some q → slots[j]? = some (some k) →
        q.surely F = true → m.Filled d) →
      Ready env F m (.seq slots ps) d (.seq i c)
  | alt {ps d i c p} : ps[i]? = some p → Ready env F m p d c → Ready env F m (.alt ps) d (.alt i c)
  | rep {mn mx p d n c} : Ready env F m p d c → (0 < n → p.surely F = true → m.Filled d) →
      Ready env F m (.rep mn mx p) d (.rep n c)
  | opt {p d c} : Ready env F m p d c → Ready env F m (.opt p) d (.wrap c)
  | not {p d c} : Ready env F m p d c → Ready env F m (.not p) d (.wrap c)
  | discard {p d c} : Ready env F m p .nil c → Ready env F m (.discard p) d (.wrap c)
  | lexeme {p d c} : Ready env F m p d c → Ready env F m (.lexeme p) d (.wrap c)
  | bindDst {p d c} : Ready env F m p d c → Ready env F m (.bindDst p) d (.wrap c)
  | construct {tys p d buf c} : buf.ty = .tup tys → m.Sane buf → Ready env F m p buf c →
      Ready env F m (.construct tys p) d (.buffered buf c)
  | action {a p d buf c} : buf.ty = a.landing → m.Sane buf → Ready env F m p buf c →
      Ready env F m (.action a p) d (.buffered buf c)
  | exceptNeg {op neg d c} : Ready env F m neg .nil c →
      Ready env F m (.except op neg) d (.except false c)
  | exceptOp {op neg d c} : Ready env F m op d c → Ready env F m (.except op neg) d (.except true c)
  | listOp {op sep d c} : Ready env F m op d c → Ready env F m (.list op sep) d (.list false c)
  | listSep {op sep d c} : Ready env F m sep .nil c → Ready env F m (.list op sep) d (.list true c)
  | withSkipper {p d c} : Ready env F m p d c → Ready env F m (.withSkipper p) d (.wrap c)
  | recurNone {id sk d} : Ready env F m (.recur id sk) d .recurNone
  | recurSome {id sk d q c} : env id = some q → Ready env F m (elabP sk RecurChildReqs q) d c →
      Ready env F m (.recur id sk) d (.recurSome c)
  | atomic {p d buf c} : buf.ty = d.ty.item → m.Sane buf → Ready env F m p buf c →
      Ready env F m (.atomic p) d (.buffered buf c)
  | clean {p d c} : Ready env F m p d c → Ready env F m (.clean p) d (.wrap c)
  | skip {s p d done sc c} : (done = false → Ready env F m s .nil sc) → Ready env F m p d c →
      Ready env F m (.skip s p) d (.skip done sc c)

theorem Ready.later {env m m' p d st} (h : Ready env F m p d st) (hl : m.Later m') :
    Ready env F m' p d st := by
  induction h with
  | char => exact .char
  | charSymbol => exact .charSymbol
  | strLit => exact .strLit
  | eoi => exact .eoi
  | pass => exact .pass
  | fail => exact .fail
  | symbol h1 h2 => exact .symbol h1 h2
  | int h => exact .int (h.later hl)
  | uint h => exact .uint (h.later hl)
  | seq h1 h2 h3 _ h5 ih =>
    exact .seq h1 h2 h3 ih fun j q k a b c e => (h5 j q k a b c e).later hl
  | alt h1 _ ih => exact .alt h1 ih
  | rep _ h ih => exact .rep ih fun a b => (h a b).later hl
  | opt _ ih => exact .opt ih
  | not _ ih => exact .not ih
  | discard _ ih => exact .discard ih
  | lexeme _ ih => exact .lexeme ih
  | bindDst _ ih => exact .bindDst ih
  | construct h1 h2 _ ih => exact .construct h1 (h2.later hl) ih
  | action h1 h2 _ ih => exact .action h1 (h2.later hl) ih
  | exceptNeg _ ih => exact .exceptNeg ih
  | exceptOp _ ih => exact .exceptOp ih
  | listOp _ ih => exact .listOp ih
  | listSep _ ih => exact .listSep ih
  | withSkipper _ ih => exact .withSkipper ih
  | recurNone => exact .recurNone
  | recurSome h _ ih => exact .recurSome h ih
  | atomic h1 h2 _ ih => exact .atomic h1 (h2.later hl) ih
  | clean _ ih => exact .clean ih
  | skip _ _ ih1 ih2 => exact .skip (fun h => ih1 h) ih2

/-! ### Commands -/

/-- What a child needs when its `consume` is called. -/
def Callable (env : Env) (F : Nat → Bool) (G : Nat → Ty → Bool) (p : Prog) (d : Ref) (st : PState)
    (m : Mem) : Prop :=
  m.Sound ∧ p.Careful F G d.ty ∧ m.Sane d ∧ Ready env F m p d st

/-- What it ensures when it returns. -/
def Returned (env : Env) (F : Nat → Bool) (p : Prog) (d : Ref) (m : Mem) (r : Res) (st' : PState)
    (m' : Mem) : Prop :=
  m'.Sound ∧ m.Later m' ∧ (r = .PARTIAL → Ready env F m' p d st') ∧
    (r = .SUCCESS → p.surely F = true → m'.Filled d)

/-- The command reads nothing uninitialised and ends in `Q`. -/
def Cmd.Safe (env : Env) (F : Nat → Bool) (G : Nat → Ty → Bool) {α : Type} (Q : α → Mem → Prop) :
    Cmd α → Mem → Prop
  | .pure a, m => Q a m
  | .fault e, _ => e ≠ .ubUninit
  | .isEmpty k, m => ∀ b, (k b).Safe env F G Q m
  | .isFinal k, m => ∀ b, (k b).Safe env F G Q m
  | .next k, m => ∀ c, (k c).Safe env F G Q m
  | .advance k, m => k.Safe env F G Q m
  | .prepare k, m => k.Safe env F G Q m
  | .commit k, m => k.Safe env F G Q m
  | .cancel k, m => k.Safe env F G Q m
  | .mem o k, m => Sober (fun m' => k.Safe env F G Q m') (m.run o)
  | .alloc t k, m => (k (m.alloc t).1).Safe env F G Q (m.alloc t).2
  | .call p d _ s k, m => Callable env F G p d s m ∧
      ∀ r s' m', Returned env F p d m r s' m' → (k r s').Safe env F G Q m'

theorem Cmd.Safe.imp {env : Env} {α : Type} {Q Q' : α → Mem → Prop} (hq : ∀ a m, Q a m → Q' a m)
    (c : Cmd α) : ∀ {m : Mem}, c.Safe env F G Q m → c.Safe env F G Q' m := by
  induction c with
  | pure a => exact hq a _
  | fault e => exact id
  | isEmpty k ih => exact fun h b => ih b (h b)
  | isFinal k ih => exact fun h b => ih b (h b)
  | next k ih => exact fun h b => ih b (h b)
  | advance k ih => exact ih
  | prepare k ih => exact ih
  | commit k ih => exact ih
  | cancel k ih => exact ih
  | mem o k ih => exact fun h => Sober.imp h fun m' h' => ih h'
  | alloc t k ih => exact fun h => ih _ h
  | call p d b s k ih => exact fun h => ⟨h.1, fun r s' m' h' => ih r s' (h.2 r s' m' h')⟩

theorem safe_bind {env : Env} {α β : Type} {Q : β → Mem → Prop} {f : α → Cmd β} (c : Cmd α) :
    ∀ {m : Mem}, c.Safe env F G (fun a m' => (f a).Safe env F G Q m') m →
      (c.bind f).Safe env F G Q m := by
  induction c with
  | pure a => exact id
  | fault e => exact id
  | isEmpty k ih => exact fun h b => ih b (h b)
  | isFinal k ih => exact fun h b => ih b (h b)
  | next k ih => exact fun h b => ih b (h b)
  | advance k ih => exact ih
  | prepare k ih => exact ih
  | commit k ih => exact ih
  | cancel k ih => exact ih
  | mem o k ih => exact fun h => Sober.imp h fun m' h' => ih h'
  | alloc t k ih => exact fun h => ih _ h
  | call p d b s k ih => exact fun h => ⟨h.1, fun r s' m' h' => ih r s' (h.2 r s' m' h')⟩

/-- Running a safe command. -/
theorem exec_safe {σ : Type} [DataSource σ] {env : Env}
    {call : Prog → Ref → Ref → PState → World σ Mem → Out σ Mem (Res × PState)}
    (hc : ∀ p d b s (w : World σ Mem), Callable env F G p d s w.mem →
      Sober (fun x => Returned env F p d w.mem x.1.1 x.1.2 x.2.mem) (call p d b s w))
    {α : Type} {Q : α → Mem → Prop} (c : Cmd α) : ∀ {w : World σ Mem}, c.Safe env F G Q w.mem →
      Sober (fun x => Q x.1 x.2.mem) (exec call c w) := by
  induction c with
  | pure a => exact fun h => h
  | fault e => exact fun h => h
  | isEmpty k ih => exact fun h => ih _ (h _)
  | isFinal k ih => exact fun h => ih _ (h _)
  | next k ih =>
    intro w h
    simp only [exec]
    cases DataSource.next w.ds with
    | none => intro h; cases h
    | some c => exact ih c (h c)
  | advance k ih =>
    intro w h
    simp only [exec]
    cases DataSource.advance w.ds with
    | none => intro h; cases h
    | some ds => exact ih h
  | prepare k ih => exact fun h => ih h
  | commit k ih =>
    intro w h
    simp only [exec]
    cases DataSource.commit w.ds with
    | none => intro h; cases h
    | some ds => exact ih h
  | cancel k ih =>
    intro w h
    simp only [exec]
    cases DataSource.cancel w.ds with
    | none => intro h; cases h
    | some ds => exact ih h
  | mem o k ih =>
    intro w h
    simp only [exec]
    have h1 : Sober (fun m' => k.Safe env F G Q m') (w.mem.run o) := h
    have h2 : Store.op o w.mem = w.mem.run o := rfl
    rw [h2]
    cases hx : w.mem.run o with
    | error e => rw [hx] at h1; exact h1
    | ok m' => rw [hx] at h1; exact ih h1
  | alloc t k ih => exact fun h => ih _ h
  | call p d b s k ih =>
    intro w h
    simp only [exec]
    have h1 := hc p d b s w h.1
    cases hx : call p d b s w with
    | error e => rw [hx] at h1; exact h1
    | ok x =>
      obtain ⟨⟨r, s'⟩, w'⟩ := x
      rw [hx] at h1
      exact ih r s' (h.2 r s' w'.mem h1)

/-! ### Construction -/

/-- Construction succeeds with an object that can go on. -/
def Made (env : Env) (F : Nat → Bool) (p : Prog) (d : Ref) (m : Mem) (st : PState) (m' : Mem) :
    Prop := m'.Sound ∧ m.Later m' ∧ Ready env F m' p d st

theorem mk_safe {env : Env} : (p : Prog) → (d b : Ref) → (m : Mem) → m.Sound → p.Careful F G d.ty →
    m.Sane d → (mk p d b).Safe env F G (Made env F p d m) m
  | .char _, _, _, _, hm, _, _ => by rw [mk]; exact ⟨hm, .refl _, .char⟩
  | .charSymbol _, _, _, _, hm, _, _ => by rw [mk]; exact ⟨hm, .refl _, .charSymbol⟩
  | .strLit _, _, _, _, hm, _, _ => by rw [mk]; exact ⟨hm, .refl _, .strLit⟩
  | .symbol _, _, _, _, hm, hp, _ => by
    rw [mk]; exact ⟨hm, .refl _, .symbol hp (fun _ h => by cases h)⟩
  | .int .., d, _, m, hm, _, _ => by
    rw [mk]; exact (zero_sober hm d).imp fun m' h => ⟨h.1, h.2.1, .int h.2.2⟩
  | .uint .., d, _, m, hm, _, _ => by
    rw [mk]; exact (zero_sober hm d).imp fun m' h => ⟨h.1, h.2.1, .uint h.2.2⟩
  | .eoi, _, _, _, hm, _, _ => by rw [mk]; exact ⟨hm, .refl _, .eoi⟩
  | .pass, _, _, _, hm, _, _ => by rw [mk]; exact ⟨hm, .refl _, .pass⟩
  | .fail, _, _, _, hm, _, _ => by rw [mk]; exact ⟨hm, .refl _, .fail⟩
  | .seq (s :: slots) (p :: ps), d, b, m, hm, hp, hd => by
    rw [mk]
    cases hs : seqDst d s with
    | none => intro h; cases h
    | some d' =>
      dsimp only
      rw [Prog.Careful, Prog.CarefulSeq] at hp
      refine safe_bind _ (Cmd.Safe.imp ?_ _ (mk_safe p d' b m hm (seqDst_ty hs ▸ hp.1)
        (seqDst_sane hd hs)))
      intro c m' h
      exact ⟨h.1, h.2.1, .seq rfl rfl hs h.2.2 fun j _ _ hj => absurd hj (Nat.not_lt_zero j)⟩
  | .seq [] _, _, _, _, _, _, _ => by rw [mk] <;> first | (intro h; cases h; done) | (intros; contradiction)
  | .seq (_ :: _) [], _, _, _, _, _, _ => by rw [mk] <;> first | (intro h; cases h; done) | (intros; contradiction)
  | .alt (p :: ps), d, b, m, hm, hp, hd => by
    rw [mk]
    rw [Prog.Careful, Prog.AllCareful] at hp
    refine safe_bind _ (Cmd.Safe.imp ?_ _ (mk_safe p d b m hm hp.1 hd))
    intro c m' h
    exact ⟨h.1, h.2.1, .alt rfl h.2.2⟩
  | .alt [], _, _, _, _, _, _ => by rw [mk]; intro h; cases h
  | .rep mn mx p, d, b, m, hm, hp, hd => by
    rw [mk]; rw [Prog.Careful] at hp
    refine safe_bind _ (Cmd.Safe.imp ?_ _ (mk_safe p d b m hm hp hd))
    intro c m' h
    exact ⟨h.1, h.2.1, .rep h.2.2 (fun h => absurd h (Nat.lt_irrefl 0))⟩
  | .opt p, d, b, m, hm, hp, hd => by
    rw [mk]; rw [Prog.Careful] at hp
    refine safe_bind _ (Cmd.Safe.imp ?_ _ (mk_safe p d b m hm hp hd))
    intro c m' h
    exact ⟨h.1, h.2.1, .opt h.2.2⟩
  | .not p, d, b, m, hm, hp, hd => by
    rw [mk]; rw [Prog.Careful] at hp
    refine safe_bind _ (Cmd.Safe.imp ?_ _ (mk_safe p d b m hm hp hd))
    intro c m' h
    exact ⟨h.1, h.2.1, .not h.2.2⟩
  | .discard p, d, b, m, hm, hp, hd => by
    rw [mk]; rw [Prog.Careful] at hp
    refine safe_bind _ (Cmd.Safe.imp ?_ _ (mk_safe p .nil b m hm hp fun _ => trivial))
    intro c m' h
    exact ⟨h.1, h.2.1, .discard h.2.2⟩
  | .lexeme p, d, b, m, hm, hp, hd => by
    rw [mk]; rw [Prog.Careful] at hp
    refine safe_bind _ (Cmd.Safe.imp ?_ _ (mk_safe p d b m hm hp hd))
    intro c m' h
    exact ⟨h.1, h.2.1, .lexeme h.2.2⟩
  | .bindDst p, d, b, m, hm, hp, hd => by
    rw [mk]; rw [Prog.Careful] at hp
    refine safe_bind _ (Cmd.Safe.imp ?_ _ (mk_safe p d d m hm hp hd))
    intro c m' h
    exact ⟨h.1, h.2.1, .bindDst h.2.2⟩
  | .construct tys p, d, b, m, hm, hp, hd => by
    rw [mk]; rw [Prog.Careful] at hp
    obtain ⟨h1, h2, h3, h4⟩ := alloc_sober hm (.tup tys)
    refine safe_bind _ (Cmd.Safe.imp ?_ _ (mk_safe p _ b _ h1 (h4 ▸ hp) h3))
    intro c m' h
    exact ⟨h.1, h2.trans h.2.1, .construct h4 (h3.later h.2.1) h.2.2⟩
  | .action a p, d, b, m, hm, hp, hd => by
    rw [mk]; rw [Prog.Careful] at hp
    obtain ⟨h1, h2, h3, h4⟩ := alloc_sober hm a.landing
    refine safe_bind _ (Cmd.Safe.imp ?_ _ (mk_safe p _ b _ h1 (by rw [h4]; exact hp.2.2) h3))
    intro c m' h
    exact ⟨h.1, h2.trans h.2.1, .action h4 (h3.later h.2.1) h.2.2⟩
  | .except op neg, d, b, m, hm, hp, hd => by
    rw [mk]; rw [Prog.Careful] at hp
    refine safe_bind _ (Cmd.Safe.imp ?_ _ (mk_safe neg .nil b m hm hp.2 fun _ => trivial))
    intro c m' h
    exact ⟨h.1, h.2.1, .exceptNeg h.2.2⟩
  | .list op sep, d, b, m, hm, hp, hd => by
    rw [mk]; rw [Prog.Careful] at hp
    refine safe_bind _ (Cmd.Safe.imp ?_ _ (mk_safe op d b m hm hp.1 hd))
    intro c m' h
    exact ⟨h.1, h.2.1, .listOp h.2.2⟩
  | .withSkipper p, d, b, m, hm, hp, hd => by
    rw [mk]; rw [Prog.Careful] at hp
    refine safe_bind _ (Cmd.Safe.imp ?_ _ (mk_safe p d b m hm hp hd))
    intro c m' h
    exact ⟨h.1, h.2.1, .withSkipper h.2.2⟩
  | .recur _ _, _, _, _, hm, _, _ => by rw [mk]; exact ⟨hm, .refl _, .recurNone⟩
  | .atomic p, d, b, m, hm, hp, hd => by
    rw [mk]; rw [Prog.Careful] at hp
    obtain ⟨h1, h2, h3, h4⟩ := alloc_sober hm d.valueType
    have h4 := h4.trans (valueType_ty d)
    refine safe_bind _ (Cmd.Safe.imp ?_ _ (mk_safe p _ b _ h1 (by rw [h4]; exact hp.2) h3))
    intro c m' h
    exact ⟨h.1, h2.trans h.2.1, .atomic h4 (h3.later h.2.1) h.2.2⟩
  | .clean p, d, b, m, hm, hp, hd => by
    rw [mk]; rw [Prog.Careful] at hp
    refine safe_bind _ (Cmd.Safe.imp ?_ _ (mk_safe p d b m hm hp hd))
    intro c m' h
    exact ⟨h.1, h.2.1, .clean h.2.2⟩
  | .skip s p, d, b, m, hm, hp, hd => by
    rw [mk]; rw [Prog.Careful] at hp
    refine safe_bind _ (Cmd.Safe.imp ?_ _ (mk_safe s .nil .nil m hm hp.1 fun _ => trivial))
    intro sc m1 h
    refine safe_bind _ (Cmd.Safe.imp ?_ _ (mk_safe p d b m1 h.1 hp.2 (hd.later h.2.1)))
    intro c m' h'
    exact ⟨h'.1, h.2.1.trans h'.2.1, .skip (fun _ => h.2.2.later h'.2.1) h'.2.2⟩

/-! ### One iteration -/

/-- What an iteration ensures. -/
def Went (env : Env) (F : Nat → Bool) (p : Prog) (d : Ref) (m : Mem) : Step → Mem → Prop
  | .ret r st', m' => Returned env F p d m r st' m'
  | .cont st', m' => Made env F p d m st' m'

theorem safe_guarded {env : Env} {Q : Step → Mem → Prop} {st A B} {m : Mem}
    (hA : A.Safe env F G Q m) (hP : Q (.ret .PARTIAL st) m) (hB : ∀ c, (B c).Safe env F G Q m) :
    (guarded st A B).Safe env F G Q m := by
  intro e
  cases e with
  | true => intro f; cases f with
    | true => exact hA
    | false => exact hP
  | false => exact hB

theorem returned_failure {env : Env} {p d m m' st} (hm : Mem.Sound m') (hl : m.Later m') :
    Returned env F p d m .FAILURE st m' :=
  ⟨hm, hl, (fun h => by cases h), (fun h => by cases h)⟩

theorem returned_success {env : Env} {p d m m' st} (hm : Mem.Sound m') (hl : m.Later m')
    (hf : p.surely F = true → m'.Filled d) : Returned env F p d m .SUCCESS st m' :=
  ⟨hm, hl, (fun h => by cases h), fun _ => hf⟩

theorem returned_partial {env : Env} {p d m m' st} (hm : Mem.Sound m') (hl : m.Later m')
    (hr : Ready env F m' p d st) : Returned env F p d m .PARTIAL st m' :=
  ⟨hm, hl, fun _ => hr, fun h => by cases h⟩

theorem returned_enough {env : Env} {p d m m' st a b} (hm : Mem.Sound m') (hl : m.Later m')
    (hf : p.surely F = true → b ≤ a → m'.Filled d) : Returned env F p d m (enough a b) st m' := by
  unfold enough
  split
  · exact returned_success hm hl fun h => hf h ‹_›
  · exact returned_failure hm hl

/-- Passing on the result of a child. -/
theorem Returned.wrap {env : Env} {p q d d' m r c m'} (h : Returned env F p d' m r c m') {f : PState → PState}
    (hr : Ready env F m' p d' c → Ready env F m' q d (f c))
    (hs : q.surely F = true → p.surely F = true) (hd : m'.Filled d' → m'.Filled d) :
    Returned env F q d m r (f c) m' :=
  ⟨h.1, h.2.1, fun hp => hr (h.2.2.1 hp), fun hp hq => hd (h.2.2.2 hp (hs hq))⟩

theorem negIf_safe {env : Env} {p d m m1 neg} {n : Nat} {r : Nat → Res} {st : PState} (hm : Mem.Sound m1)
    (hl : m.Later m1) (hd : m1.Filled d)
    (hp : ∀ m', m'.Sound → m.Later m' → m'.Filled d → Returned env F p d m (r n) st m') :
    (negIf neg d (retS (r n) st)).Safe env F G (Went env F p d m) m1 := by
  unfold negIf
  split
  · exact (mul_sober hm hd (-1)).imp fun m' h => hp m' h.1 (hl.trans h.2.1) h.2.2
  · exact hp m1 hm hl hd

theorem kids_find_whole : ∀ {k : Kids} {c : Ch} {n : Node}, k.whole = true → k.find c = some n →
    n.whole = true
  | .nil, _, _, _, h => by cases h
  | .cons d n' rest, c, n, hw, h => by
    rw [Kids.whole, Bool.and_eq_true] at hw
    rw [Kids.find] at h
    split at h
    · cases h; exact hw.1
    · exact kids_find_whole hw.2 h

theorem node_val_whole {n : Node} {x : Val} (h : n.whole = true) (hx : n.val = some x) :
    x.whole = true := by
  cases n with
  | mk v k =>
    cases v with
    | none => cases hx
    | some y => cases hx; rw [Node.whole, Bool.and_eq_true] at h; exact h.1

theorem node_child_whole {n : Node} (h : n.whole = true) : n.child.whole = true := by
  cases n with
  | mk v k => cases v <;> · rw [Node.whole, Bool.and_eq_true] at h; exact h.2

theorem body_safe {env : Env}
    (hrec : ∀ id q sk ty, env id = some q → G id ty = true → sk.Careful F G .nil →
      (elabP sk RecurChildReqs q).Careful F G ty ∧
        (F id = true → (elabP sk RecurChildReqs q).surely F = true))
    {p : Prog} {d b : Ref} {st : PState} {m : Mem} (h : Callable env F G p d st m) :
    (body env p d b st).Safe env F G (Went env F p d m) m := by
  obtain ⟨hm, hp, hd, hr⟩ := h
  cases hr with
  | char =>
    cases st with
    | unit =>
      rw [body]
      refine safe_guarded (returned_failure hm (.refl _)) (returned_partial hm (.refl _) .char) ?_
      intro c
      split
      · exact (assign_sober (v := .num c) hm d rfl).imp fun m' h =>
          returned_success h.1 h.2.1 fun _ => h.2.2
      · exact returned_failure hm (.refl _)
    | _ => rw [body] <;> first | (intro h; cases h; done) | (intros; contradiction)
  | charSymbol =>
    cases st with
    | unit =>
      rw [body]
      refine safe_guarded (returned_failure hm (.refl _)) (returned_partial hm (.refl _) .charSymbol) ?_
      intro c
      split
      · exact returned_failure hm (.refl _)
      · next v hv =>
        rw [Prog.Careful] at hp
        exact (assign_sober hm d (hp _ (List.mem_of_find?_eq_some hv))).imp fun m' h =>
          returned_success h.1 h.2.1 fun _ => h.2.2
    | _ => rw [body] <;> first | (intro h; cases h; done) | (intros; contradiction)
  | strLit =>
    cases st with
    | strLit k =>
      rw [body]
      split
      · exact returned_success hm (.refl _) fun h => by cases h
      · refine safe_guarded (returned_failure hm (.refl _)) (returned_partial hm (.refl _) .strLit) ?_
        intro c
        split
        · exact ⟨hm, .refl _, .strLit⟩
        · exact returned_failure hm (.refl _)
    | _ => rw [body] <;> first | (intro h; cases h; done) | (intros; contradiction)
  | eoi =>
    cases st with
    | unit =>
      rw [body]
      exact safe_guarded (returned_success hm (.refl _) fun h => by cases h)
        (returned_partial hm (.refl _) .eoi) fun c => returned_failure hm (.refl _)
    | _ => rw [body] <;> first | (intro h; cases h; done) | (intros; contradiction)
  | pass =>
    cases st with
    | unit => rw [body]; exact returned_success hm (.refl _) fun h => by cases h
    | _ => rw [body] <;> first | (intro h; cases h; done) | (intros; contradiction)
  | fail =>
    cases st with
    | unit => rw [body]; exact returned_failure hm (.refl _)
    | _ => rw [body] <;> first | (intro h; cases h; done) | (intros; contradiction)
  | @symbol r _ n v h1 h2 =>
    unfold body
    dsimp only
    have hhit : ∀ (n' : Node) (x : Val), n'.whole = true → x.whole = true →
        Cmd.Safe env F G (Went env F (.symbol r) d m)
          (if n'.child.isEmpty then .mem (.assign d x) (retS .SUCCESS (.symbol n' v))
            else .prepare (contS (.symbol n' (some x)))) m := by
      intro n' x hn' hx
      split
      · exact (assign_sober hm d hx).imp fun m' h =>
          returned_success h.1 h.2.1 fun _ => h.2.2
      · exact ⟨hm, .refl _, .symbol hn' fun y hy => by cases hy; exact hx⟩
    refine safe_guarded ?_ (returned_partial hm (.refl _) (.symbol h1 h2)) ?_
    · cases v with
      | none => exact returned_failure hm (.refl _)
      | some x => exact (assign_sober hm d (h2 x rfl)).imp fun m' h =>
          returned_success h.1 h.2.1 fun _ => h.2.2
    · intro c
      cases hf : n.child.find c with
      | none =>
        cases v with
        | none => exact returned_failure hm (.refl _)
        | some x => exact (assign_sober hm d (h2 x rfl)).imp fun m' h =>
            returned_success h.1 h.2.1 fun _ => h.2.2
      | some n' =>
        have hn' := kids_find_whole (node_child_whole h1) hf
        dsimp only
        rw [Cmd.Safe]
        split
        · exact ⟨hm, .refl _, .symbol hn' h2⟩
        · next x hv =>
          have hx := node_val_whole hn' hv
          by_cases hvs : v.isSome = true
          · rw [if_pos hvs]; exact hhit n' x hn' hx
          · rw [if_neg hvs]; exact hhit n' x hn' hx
  | @int bs mn mx _ _ hf =>
    cases st with
    | int n look neg =>
      rw [body]
      dsimp only
      have hen : ∀ (m1 : Mem) (k : Nat) (st : PState), m1.Sound → m.Later m1 → m1.Filled d →
          (negIf neg d (retS (enough k mn) st)).Safe env F G (Went env F (.int bs mn mx) d m) m1 :=
        fun m1 k st a b c => negIf_safe (r := fun k => enough k mn) a b c
          fun m' x y z => returned_enough x y fun _ _ => z
      refine safe_guarded (hen m n _ hm (.refl _) hf) (returned_partial hm (.refl _) (.int hf)) ?_
      intro c
      split
      · exact ⟨hm, .refl _, .int hf⟩
      · split
        · exact ⟨hm, .refl _, .int hf⟩
        · split
          · refine (mulAdd_sober hm hf bs (digitValue bs c)).imp fun m' h => ?_
            show Cmd.Safe env F G _ _ m'
            split
            · exact negIf_safe (r := fun _ => .SUCCESS) (n := 0) h.1 h.2.1 h.2.2
                fun m' x y z => returned_success x y fun _ => z
            · exact ⟨h.1, h.2.1, .int h.2.2⟩
          · exact hen m n _ hm (.refl _) hf
    | _ => rw [body] <;> first | (intro h; cases h; done) | (intros; contradiction)
  | @uint bs mn mx _ _ hf =>
    cases st with
    | uint n =>
      rw [body]
      refine safe_guarded (returned_enough hm (.refl _) fun _ _ => hf)
        (returned_partial hm (.refl _) (.uint hf)) ?_
      intro c
      split
      · refine (mulAdd_sober hm hf bs (digitValue bs c)).imp fun m' h => ?_
        show Cmd.Safe env F G _ _ m'
        split
        · exact returned_success h.1 h.2.1 fun _ => h.2.2
        · exact ⟨h.1, h.2.1, .uint h.2.2⟩
      · exact returned_enough hm (.refl _) fun _ _ => hf
    | _ => rw [body] <;> first | (intro h; cases h; done) | (intros; contradiction)
  | @seq slots ps _ i c p s d' h1 h2 h3 h4 h5 =>
    rw [body]
    simp only [h1, h2, h3]
    rw [Prog.Careful] at hp
    refine ⟨⟨hm, seqDst_ty h3 ▸ carefulSeq_get hp h1 h2, seqDst_sane hd h3, h4⟩, ?_⟩
    intro r c' m' hR
    have hd' := hd.later hR.2.1
    have hnext : r = .SUCCESS → ∀ (j : Nat) (q : Prog) (k : Nat), j < i + 1 → ps[j]? = some q →
        slots[j]? = some (some k) → q.surely F = true → m'.Filled d := by
      intro hr j q k hj hq hk hs
      rcases Nat.lt_succ_iff_lt_or_eq.1 hj with h | h
      · exact (h5 j q k h hq hk hs).later hR.2.1
      · subst h
        rw [h1] at hq
        rw [h2] at hk
        cases hq
        cases hk
        exact seqDst_filled hd' h3 (hR.2.2.2 hr hs)
    cases r with
    | SUCCESS =>
      dsimp only
      cases hp' : ps[i + 1]? with
      | none =>
        refine returned_success hR.1 hR.2.1 fun hs => ?_
        rw [Prog.surely] at hs
        obtain ⟨j, q, k, e1, e2, e3⟩ := someSurely_get hs
        refine hnext rfl j q k ?_ e1 e2 e3
        have h6 : ps.length ≤ i + 1 := List.getElem?_eq_none_iff.1 hp'
        have h7 : j < ps.length := (List.getElem?_eq_some_iff.1 e1).1
        omega
      | some p' =>
        cases hs' : slots[i + 1]? with
        | none =>
          refine returned_success hR.1 hR.2.1 fun hs => ?_
          rw [Prog.surely] at hs
          obtain ⟨j, q, k, e1, e2, e3⟩ := someSurely_get hs
          refine hnext rfl j q k ?_ e1 e2 e3
          have h6 : slots.length ≤ i + 1 := List.getElem?_eq_none_iff.1 hs'
          have h7 : j < slots.length := (List.getElem?_eq_some_iff.1 e2).1
          omega
        | some s' =>
          dsimp only
          cases hd1 : seqDst d s' with
          | none => intro h; cases h
          | some d1 =>
            dsimp only
            refine safe_bind _ (Cmd.Safe.imp ?_ _ (mk_safe p' d1 b m' hR.1
              (seqDst_ty hd1 ▸ carefulSeq_get hp hp' hs') (seqDst_sane hd' hd1)))
            intro c'' m'' hM
            exact ⟨hM.1, hR.2.1.trans hM.2.1, .seq hp' hs' hd1 hM.2.2
              fun j q k a1 a2 a3 a4 => (hnext rfl j q k a1 a2 a3 a4).later hM.2.1⟩
    | FAILURE => exact returned_failure hR.1 hR.2.1
    | PARTIAL =>
      exact returned_partial hR.1 hR.2.1 (.seq h1 h2 h3 (hR.2.2.1 rfl)
        fun j q k a1 a2 a3 a4 => (h5 j q k a1 a2 a3 a4).later hR.2.1)
  | @alt ps _ i c p h1 h2 =>
    rw [body]
    simp only [h1]
    rw [Prog.Careful] at hp
    refine ⟨⟨hm, allCareful_get hp h1, hd, h2⟩, ?_⟩
    intro r c' m' hR
    cases r with
    | SUCCESS =>
      exact returned_success hR.1 hR.2.1 fun hs => hR.2.2.2 rfl (allSurely_get hs h1)
    | PARTIAL => exact returned_partial hR.1 hR.2.1 (.alt h1 (hR.2.2.1 rfl))
    | FAILURE =>
      dsimp only
      cases hp' : ps[i + 1]? with
      | none => exact returned_failure hR.1 hR.2.1
      | some p' =>
        refine safe_bind _ (Cmd.Safe.imp ?_ _ (mk_safe p' d b m' hR.1 (allCareful_get hp hp')
          (hd.later hR.2.1)))
        intro c'' m'' hM
        exact ⟨hM.1, hR.2.1.trans hM.2.1, .alt hp' hM.2.2⟩
  | @rep mn mx p _ n c h1 h2 =>
    rw [body]
    rw [Prog.Careful] at hp
    refine ⟨⟨hm, hp, hd, h1⟩, ?_⟩
    intro r c' m' hR
    cases r with
    | FAILURE =>
      refine returned_enough hR.1 hR.2.1 fun hs hle => ?_
      rw [Prog.surely, Bool.and_eq_true] at hs
      have : mn ≠ 0 := by simpa using hs.1
      exact (h2 (by omega) hs.2).later hR.2.1
    | PARTIAL =>
      exact returned_partial hR.1 hR.2.1 (.rep (hR.2.2.1 rfl) fun a b => (h2 a b).later hR.2.1)
    | SUCCESS =>
      dsimp only
      split
      · refine returned_success hR.1 hR.2.1 fun hs => ?_
        rw [Prog.surely, Bool.and_eq_true] at hs
        exact hR.2.2.2 rfl hs.2
      · refine safe_bind _ (Cmd.Safe.imp ?_ _ (mk_safe p d b m' hR.1 hp (hd.later hR.2.1)))
        intro c'' m'' hM
        exact ⟨hM.1, hR.2.1.trans hM.2.1,
          .rep hM.2.2 fun _ hs => (hR.2.2.2 rfl hs).later hM.2.1⟩
  | @opt p _ c h1 =>
    rw [body]
    rw [Prog.Careful] at hp
    refine ⟨⟨hm, hp, hd, h1⟩, ?_⟩
    intro r c' m' hR
    cases r with
    | SUCCESS => exact returned_success hR.1 hR.2.1 fun hs => by cases hs
    | FAILURE => exact returned_success hR.1 hR.2.1 fun hs => by cases hs
    | PARTIAL => exact returned_partial hR.1 hR.2.1 (.opt (hR.2.2.1 rfl))
  | @not p _ c h1 =>
    rw [body]
    rw [Prog.Careful] at hp
    refine ⟨⟨hm, hp, hd, h1⟩, ?_⟩
    intro r c' m' hR
    cases r with
    | SUCCESS => exact returned_failure hR.1 hR.2.1
    | FAILURE => exact returned_success hR.1 hR.2.1 fun hs => by cases hs
    | PARTIAL => exact returned_partial hR.1 hR.2.1 (.not (hR.2.2.1 rfl))
  | @discard p _ c h1 =>
    rw [body]
    rw [Prog.Careful] at hp
    refine ⟨⟨hm, hp, fun _ => trivial, h1⟩, ?_⟩
    intro r c' m' hR
    exact ⟨hR.1, hR.2.1, fun h => .discard (hR.2.2.1 h), fun _ hs => by cases hs⟩
  | @lexeme p _ c h1 =>
    rw [body]
    rw [Prog.Careful] at hp
    refine ⟨⟨hm, hp, hd, h1⟩, ?_⟩
    intro r c' m' hR
    exact hR.wrap (f := .wrap) .lexeme id id
  | @bindDst p _ c h1 =>
    rw [body]
    rw [Prog.Careful] at hp
    refine ⟨⟨hm, hp, hd, h1⟩, ?_⟩
    intro r c' m' hR
    exact hR.wrap (f := .wrap) .bindDst id id
  | @construct tys p _ buf c h1 h2 h3 =>
    rw [body]
    rw [Prog.Careful] at hp
    refine ⟨⟨hm, h1 ▸ hp, h2, h3⟩, ?_⟩
    intro r c' m' hR
    cases r with
    | SUCCESS =>
      exact (construct_sober hR.1 d ((h2 (by rw [h1]; rfl)).later hR.2.1)).imp fun m'' h =>
        returned_success h.1 (hR.2.1.trans h.2.1) fun _ => h.2.2
    | FAILURE => exact returned_failure hR.1 hR.2.1
    | PARTIAL => exact returned_partial hR.1 hR.2.1 (.construct h1 (h2.later hR.2.1) (hR.2.2.1 rfl))
  | @action a p _ buf c h1 h2 h3 =>
    rw [body]
    rw [Prog.Careful] at hp
    refine ⟨⟨hm, h1 ▸ hp.2.2, h2, h3⟩, ?_⟩
    intro r c' m' hR
    cases r with
    | SUCCESS =>
      have hb : m'.Filled buf := by
        cases hs : a.landing.scalar with
        | false => exact (h2 (by rw [h1]; exact hs)).later hR.2.1
        | true => exact hR.2.2.2 rfl (hp.2.1 hs)
      refine (act_sober hR.1 hp.1 d b hb).imp fun m'' h =>
        returned_success h.1 (hR.2.1.trans h.2.1) fun hs => h.2.2 ?_
      rw [Prog.surely] at hs
      simpa using hs
    | FAILURE => exact returned_failure hR.1 hR.2.1
    | PARTIAL => exact returned_partial hR.1 hR.2.1 (.action h1 (h2.later hR.2.1) (hR.2.2.1 rfl))
  | @exceptNeg op neg _ c h1 =>
    rw [body]
    rw [Prog.Careful] at hp
    refine ⟨⟨hm, hp.2, fun _ => trivial, h1⟩, ?_⟩
    intro r c' m' hR
    cases r with
    | PARTIAL => exact returned_partial hR.1 hR.2.1 (.exceptNeg (hR.2.2.1 rfl))
    | SUCCESS => exact returned_failure hR.1 hR.2.1
    | FAILURE =>
      refine safe_bind _ (Cmd.Safe.imp ?_ _ (mk_safe op d b m' hR.1 hp.1 (hd.later hR.2.1)))
      intro c'' m'' hM
      exact ⟨hM.1, hR.2.1.trans hM.2.1, .exceptOp hM.2.2⟩
  | @exceptOp op neg _ c h1 =>
    rw [body]
    rw [Prog.Careful] at hp
    refine ⟨⟨hm, hp.1, hd, h1⟩, ?_⟩
    intro r c' m' hR
    exact hR.wrap (f := .except true) .exceptOp id id
  | @listOp op sep _ c h1 =>
    rw [body]
    rw [Prog.Careful] at hp
    refine ⟨⟨hm, hp.1, hd, h1⟩, ?_⟩
    intro r c' m' hR
    cases r with
    | PARTIAL => exact returned_partial hR.1 hR.2.1 (.listOp (hR.2.2.1 rfl))
    | FAILURE => exact returned_success hR.1 hR.2.1 fun hs => by cases hs
    | SUCCESS =>
      refine safe_bind (env := env) (F := F) (G := G) _ (Cmd.Safe.imp ?_ _
        (mk_safe sep .nil b m' hR.1 hp.2 fun _ => trivial))
      intro c'' m'' hM
      exact ⟨hM.1, hR.2.1.trans hM.2.1, .listSep hM.2.2⟩
  | @listSep op sep _ c h1 =>
    rw [body]
    rw [Prog.Careful] at hp
    refine ⟨⟨hm, hp.2, fun _ => trivial, h1⟩, ?_⟩
    intro r c' m' hR
    cases r with
    | PARTIAL => exact returned_partial hR.1 hR.2.1 (.listSep (hR.2.2.1 rfl))
    | FAILURE => exact returned_success hR.1 hR.2.1 fun hs => by cases hs
    | SUCCESS =>
      refine safe_bind _ (Cmd.Safe.imp ?_ _ (mk_safe op d b m' hR.1 hp.1 (hd.later hR.2.1)))
      intro c'' m'' hM
      exact ⟨hM.1, hR.2.1.trans hM.2.1, .listOp hM.2.2⟩
  | @withSkipper p _ c h1 =>
    rw [body]
    rw [Prog.Careful] at hp
    refine ⟨⟨hm, hp, hd, h1⟩, ?_⟩
    intro r c' m' hR
    exact hR.wrap (f := .wrap) .withSkipper id id
  | @recurNone id sk _ =>
    rw [body]
    rw [Prog.Careful] at hp
    cases hq : env id with
    | none => intro h; cases h
    | some q =>
      dsimp only
      refine safe_bind _ (Cmd.Safe.imp ?_ _ (mk_safe _ d b m hm (hrec id q sk _ hq hp.1 hp.2).1 hd))
      intro c'' m'' hM
      exact ⟨hM.1, hM.2.1, .recurSome hq hM.2.2⟩
  | @recurSome id sk _ q c hq h1 =>
    rw [body]
    rw [Prog.Careful] at hp
    simp only [hq]
    obtain ⟨h2, h3⟩ := hrec id q sk _ hq hp.1 hp.2
    refine ⟨⟨hm, h2, hd, h1⟩, ?_⟩
    intro r c' m' hR
    exact hR.wrap (f := .recurSome) (.recurSome hq) h3 fun h => h
  | @atomic p _ buf c h1 h2 h3 =>
    rw [body]
    rw [Prog.Careful] at hp
    refine ⟨⟨hm, h1 ▸ hp.2, h2, h3⟩, ?_⟩
    intro r c' m' hR
    cases r with
    | SUCCESS =>
      have hb : m'.Filled buf := by
        cases hs : d.ty.item.scalar with
        | false => exact (h2 (by rw [h1]; exact hs)).later hR.2.1
        | true => exact hR.2.2.2 rfl (hp.1 hs)
      exact (assignFrom_sober hR.1 d hb).imp fun m'' h =>
        returned_success h.1 (hR.2.1.trans h.2.1) fun _ => h.2.2
    | FAILURE => exact returned_failure hR.1 hR.2.1
    | PARTIAL => exact returned_partial hR.1 hR.2.1 (.atomic h1 (h2.later hR.2.1) (hR.2.2.1 rfl))
  | @clean p _ c h1 =>
    rw [body]
    rw [Prog.Careful] at hp
    refine ⟨⟨hm, hp, hd, h1⟩, ?_⟩
    intro r c' m' hR
    cases r with
    | SUCCESS => exact returned_success hR.1 hR.2.1 fun hs => hR.2.2.2 rfl hs
    | FAILURE => exact returned_failure hR.1 hR.2.1
    | PARTIAL => exact returned_partial hR.1 hR.2.1 (.clean (hR.2.2.1 rfl))
  | @skip s p _ done sc c h1 h2 =>
    rw [Prog.Careful] at hp
    cases done with
    | false =>
      rw [body]
      refine ⟨⟨hm, hp.1, fun _ => trivial, h1 rfl⟩, ?_⟩
      intro r c' m' hR
      cases r with
      | PARTIAL => exact returned_partial hR.1 hR.2.1 (.skip (fun _ => hR.2.2.1 rfl) (h2.later hR.2.1))
      | FAILURE =>
        exact ⟨hR.1, hR.2.1, .skip (fun h => by cases h) (h2.later hR.2.1)⟩
      | SUCCESS =>
        refine safe_bind _ (Cmd.Safe.imp ?_ _ (mk_safe s .nil .nil m' hR.1 hp.1 fun _ => trivial))
        intro c'' m'' hM
        exact ⟨hM.1, hR.2.1.trans hM.2.1, .skip (fun _ => hM.2.2) (h2.later (hR.2.1.trans hM.2.1))⟩
    | true =>
      rw [body]
      refine ⟨⟨hm, hp.2, hd, h2⟩, ?_⟩
      intro r c' m' hR
      exact ⟨hR.1, hR.2.1, fun h => .skip (fun h => by cases h) (hR.2.2.1 h),
        fun h hs => hR.2.2.2 h hs⟩

end Abu
