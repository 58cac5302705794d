import Verif.Proofs.Compatible
/-
Values of the right types, continued: parser programs.
-/
namespace Abu

variable {N : NumKind → Prop} {G : Nat → Ty → Ty → Prop}

/-- The type of the destination of a child of a sequence. -/
def Ty.slotTy : Ty → Option Nat → Option Ty
  | .nil, _ => some .nil
  | _, none => some .nil
  | .tup ts, some k => ts[k]?
  | t, some _ => some t

mutual
/-- As `Pat.into`, for programs. -/
def Prog.Into (N : NumKind → Prop) (G : Nat → Ty → Ty → Prop) (B D : Ty) : Prog → Prop
  | .char _ => D.item.Digits fun _ => True
  | .charSymbol m => ∀ e ∈ m, D.Receives e.2
  | .strLit _ => True
  | .symbol root => ∀ v ∈ root.vals, D.Receives v
  | .int .. => D.Digits N
  | .uint .. => D.Digits N
  | .eoi => True
  | .pass => True
  | .fail => True
  | .seq slots ps => slots ≠ [] ∧ ps ≠ [] ∧ Prog.IntoSlots N G B D slots ps
  | .alt ps => ps ≠ [] ∧ Prog.AllInto N G B D ps
  | .rep _ _ p => p.Into N G B D
  | .opt p => p.Into N G B D
  | .not p => p.Into N G B D
  | .discard p => p.Into N G B .nil
  | .lexeme p => p.Into N G B D
  | .bindDst p => p.Into N G D D
  | .construct tys p => p.Into N G B (.tup tys) ∧ D.MadeFrom tys
  | .action a p => p.Into N G B a.landing ∧ a.Typed B D
  | .except op neg => op.Into N G B D ∧ neg.Into N G B .nil
  | .list op sep => op.Into N G B D ∧ sep.Into N G B .nil
  | .withSkipper p => p.Into N G B D
  | .recur id sk => G id B D ∧ sk.Into N G .nil .nil
  | .atomic p => p.Into N G B D.item
  | .clean p => p.Into N G B D
  | .skip s p => s.Into N G .nil .nil ∧ p.Into N G B D
/-- For the children of a sequence. -/
def Prog.IntoSlots (N : NumKind → Prop) (G : Nat → Ty → Ty → Prop) (B D : Ty) :
    List (Option Nat) → List Prog → Prop
  | s :: slots, p :: ps =>
    (∃ t, D.slotTy s = some t ∧ p.Into N G B t) ∧ Prog.IntoSlots N G B D slots ps
  | _, _ => True
/-- For all of a list. -/
def Prog.AllInto (N : NumKind → Prop) (G : Nat → Ty → Ty → Prop) (B D : Ty) : List Prog → Prop
  | [] => True
  | p :: ps => p.Into N G B D ∧ Prog.AllInto N G B D ps
end

theorem allInto_get {B D : Ty} : ∀ {ps : List Prog} {i : Nat} {p : Prog}, Prog.AllInto N G B D ps →
    ps[i]? = some p → p.Into N G B D
  | q :: ps, 0, p, h, hp => by
    simp only [List.getElem?_cons_zero, Option.some.injEq] at hp
    rw [Prog.AllInto] at h
    exact hp ▸ h.1
  | q :: ps, i + 1, p, h, hp => by
    simp only [List.getElem?_cons_succ] at hp
    rw [Prog.AllInto] at h
    exact allInto_get h.2 hp

theorem intoSlots_get {B D : Ty} : ∀ {slots : List (Option Nat)} {ps : List Prog} {i : Nat}
    {p : Prog} {s : Option Nat}, Prog.IntoSlots N G B D slots ps → ps[i]? = some p →
    slots[i]? = some s → ∃ t, D.slotTy s = some t ∧ p.Into N G B t
  | t :: slots, q :: ps, 0, p, s, h, hp, hs => by
    simp only [List.getElem?_cons_zero, Option.some.injEq] at hp hs
    rw [Prog.IntoSlots] at h
    exact hp ▸ hs ▸ h.1
  | t :: slots, q :: ps, i + 1, p, s, h, hp, hs => by
    simp only [List.getElem?_cons_succ] at hp hs
    rw [Prog.IntoSlots] at h
    exact intoSlots_get h.2 hp hs

/-! ### References -/

theorem valueType_item (d : Ref) : d.valueType = d.ty.item := by
  cases d with
  | nil => rfl
  | «at» o p t => cases t <;> rfl

theorem part_append : ∀ (path : List Nat) {s t u : Ty} {k : Nat}, s.part path = some t →
    t.part [k] = some u → s.part (path ++ [k]) = some u
  | [], s, t, u, k, h, h' => by cases h; exact h'
  | i :: path, s, t, u, k, h, h' => by
    cases s with
    | tup ts =>
      rw [Ty.part] at h
      rw [List.cons_append, Ty.part]
      cases hi : ts[i]? with
      | none => rw [hi] at h; cases h
      | some x => rw [hi] at h; exact part_append path h h'
    | _ => cases h

/-- The destination of a child of a sequence. -/
theorem seqDst_typed {Δ : List Ty} {d : Ref} (hd : d.Typed Δ) {s : Option Nat} {t : Ty}
    (h : d.ty.slotTy s = some t) : ∃ d', seqDst d s = some d' ∧ d'.Typed Δ ∧ d'.ty = t := by
  cases d with
  | nil => cases h; cases s <;> exact ⟨.nil, rfl, trivial, rfl⟩
  | «at» o path ty =>
    cases s with
    | none =>
      cases ty with
      | nil => cases hd.1
      | _ => cases h; exact ⟨.nil, rfl, trivial, rfl⟩
    | some k =>
      cases ty with
      | nil => cases hd.1
      | tup ts =>
        have h : ts[k]? = some t := h
        refine ⟨wrapDst o (path ++ [k]) t, by simp only [seqDst, h, Option.map_some], ?_, ?_⟩
        · obtain ⟨_, s, hs, hp⟩ := hd
          have := part_append path (k := k) (u := t) hp (by
            rw [Ty.part, h]; rfl)
          cases t with
          | nil => trivial
          | _ => exact ⟨rfl, s, hs, this⟩
        · cases t <;> rfl
      | _ => cases h; exact ⟨_, rfl, hd, rfl⟩

/-! ### States -/

/-- The buffers of the object have the right types, and so have the values it holds. -/
inductive Held (env : Env) (Δ : List Ty) : Prog → Ty → PState → Prop
  | char {s D st} : Held env Δ (.char s) D st
  | charSymbol {t D st} : Held env Δ (.charSymbol t) D st
  | strLit {s D st} : Held env Δ (.strLit s) D st
  | eoi {D st} : Held env Δ .eoi D st
  | pass {D st} : Held env Δ .pass D st
  | fail {D st} : Held env Δ .fail D st
  | symbol {r D n v} : (∀ x ∈ n.vals, Ty.Receives D x) → (∀ x, v = some x → Ty.Receives D x) →
      Held env Δ (.symbol r) D (.symbol n v)
  | int {b mn mx D st} : Held env Δ (.int b mn mx) D st
  | uint {b mn mx D st} : Held env Δ (.uint b mn mx) D st
  | seq {slots ps D i c p s t} : ps[i]? = some p → slots[i]? = some s → Ty.slotTy D s = some t →
      Held env Δ p t c → Held env Δ (.seq slots ps) D (.seq i c)
  | alt {ps D i c p} : ps[i]? = some p → Held env Δ p D c → Held env Δ (.alt ps) D (.alt i c)
  | rep {mn mx p D n c} : Held env Δ p D c → Held env Δ (.rep mn mx p) D (.rep n c)
  | opt {p D c} : Held env Δ p D c → Held env Δ (.opt p) D (.wrap c)
  | not {p D c} : Held env Δ p D c → Held env Δ (.not p) D (.wrap c)
  | discard {p D c} : Held env Δ p .nil c → Held env Δ (.discard p) D (.wrap c)
  | lexeme {p D c} : Held env Δ p D c → Held env Δ (.lexeme p) D (.wrap c)
  | bindDst {p D c} : Held env Δ p D c → Held env Δ (.bindDst p) D (.wrap c)
  | construct {tys p D buf c} : buf.ty = .tup tys → buf.Typed Δ → Held env Δ p (.tup tys) c →
      Held env Δ (.construct tys p) D (.buffered buf c)
  | action {a p D buf c} : buf.ty = a.landing → buf.Typed Δ → Held env Δ p a.landing c →
      Held env Δ (.action a p) D (.buffered buf c)
  | exceptNeg {op neg D c} : Held env Δ neg .nil c →
      Held env Δ (.except op neg) D (.except false c)
  | exceptOp {op neg D c} : Held env Δ op D c → Held env Δ (.except op neg) D (.except true c)
  | listOp {op sep D c} : Held env Δ op D c → Held env Δ (.list op sep) D (.list false c)
  | listSep {op sep D c} : Held env Δ sep .nil c → Held env Δ (.list op sep) D (.list true c)
  | withSkipper {p D c} : Held env Δ p D c → Held env Δ (.withSkipper p) D (.wrap c)
  | recurNone {id sk D} : Held env Δ (.recur id sk) D .recurNone
  | recurSome {id sk D q c} : env id = some q → Held env Δ (elabP sk RecurChildReqs q) D c →
      Held env Δ (.recur id sk) D (.recurSome c)
  | atomic {p D buf c} : buf.ty = D.item → buf.Typed Δ → Held env Δ p D.item c →
      Held env Δ (.atomic p) D (.buffered buf c)
  | clean {p D c} : Held env Δ p D c → Held env Δ (.clean p) D (.wrap c)
  | skip {s p D done sc c} : (done = false → Held env Δ s .nil sc) → Held env Δ p D c →
      Held env Δ (.skip s p) D (.skip done sc c)

theorem Held.later {env Δ Δ' p D st} (h : Held env Δ p D st) (hl : Δ <+: Δ') :
    Held env Δ' p D st := by
  induction h with
  | char => exact .char
  | charSymbol => exact .charSymbol
  | strLit => exact .strLit
  | eoi => exact .eoi
  | pass => exact .pass
  | fail => exact .fail
  | symbol h1 h2 => exact .symbol h1 h2
  | int => exact .int
  | uint => exact .uint
  | seq h1 h2 h3 _ ih => exact .seq h1 h2 h3 ih
  | alt h1 _ ih => exact .alt h1 ih
  | rep _ ih => exact .rep ih
  | opt _ ih => exact .opt ih
  | not _ ih => exact .not ih
  | discard _ ih => exact .discard ih
  | lexeme _ ih => exact .lexeme ih
  | bindDst _ ih => exact .bindDst ih
  | construct h1 h2 _ ih => exact .construct h1 (h2.later hl) ih
  | action h1 h2 _ ih => exact .action h1 (h2.later hl) ih
  | exceptNeg _ ih => exact .exceptNeg ih
  | exceptOp _ ih => exact .exceptOp ih
  | listOp _ ih => exact .listOp ih
  | listSep _ ih => exact .listSep ih
  | withSkipper _ ih => exact .withSkipper ih
  | recurNone => exact .recurNone
  | recurSome h _ ih => exact .recurSome h ih
  | atomic h1 h2 _ ih => exact .atomic h1 (h2.later hl) ih
  | clean _ ih => exact .clean ih
  | skip _ _ ih1 ih2 => exact .skip (fun h => ih1 h) ih2

/-! ### Commands -/

/-- What a child needs when its `consume` is called. -/
def Admits (N : NumKind → Prop) (G : Nat → Ty → Ty → Prop) (env : Env) (p : Prog) (d b : Ref)
    (st : PState) (Δ : List Ty) (m : Mem) : Prop :=
  m.Typed Δ ∧ p.Into N G b.ty d.ty ∧ d.Typed Δ ∧ b.Typed Δ ∧ Held env Δ p d.ty st

/-- What it ensures when it returns. -/
def Gave (env : Env) (p : Prog) (d : Ref) (Δ : List Ty) (r : Res) (st' : PState) (Δ' : List Ty)
    (m' : Mem) : Prop :=
  m'.Typed Δ' ∧ Δ <+: Δ' ∧ (r = .PARTIAL → Held env Δ' p d.ty st')

/-- The command makes no mistake with types and ends in `Q`. -/
def Cmd.Fit (N : NumKind → Prop) (G : Nat → Ty → Ty → Prop) (env : Env) {α : Type}
    (Q : α → List Ty → Mem → Prop) : Cmd α → List Ty → Mem → Prop
  | .pure a, Δ, m => Q a Δ m
  | .fault e, _, _ => e.Allowed N
  | .isEmpty k, Δ, m => ∀ b, (k b).Fit N G env Q Δ m
  | .isFinal k, Δ, m => ∀ b, (k b).Fit N G env Q Δ m
  | .next k, Δ, m => ∀ c, (k c).Fit N G env Q Δ m
  | .advance k, Δ, m => k.Fit N G env Q Δ m
  | .prepare k, Δ, m => k.Fit N G env Q Δ m
  | .commit k, Δ, m => k.Fit N G env Q Δ m
  | .cancel k, Δ, m => k.Fit N G env Q Δ m
  | .mem o k, Δ, m => Abu.Fit N (fun m' => k.Fit N G env Q Δ m') (m.run o)
  | .alloc t k, Δ, m => (k (m.alloc t).1).Fit N G env Q (growTypes Δ t) (m.alloc t).2
  | .call p d b s k, Δ, m => Admits N G env p d b s Δ m ∧
      ∀ r s' Δ' m', Gave env p d Δ r s' Δ' m' → (k r s').Fit N G env Q Δ' m'

theorem Cmd.Fit.imp {env : Env} {α : Type} {Q Q' : α → List Ty → Mem → Prop}
    (hq : ∀ a Δ m, Q a Δ m → Q' a Δ m) (c : Cmd α) : ∀ {Δ : List Ty} {m : Mem},
    c.Fit N G env Q Δ m → c.Fit N G env Q' Δ m := by
  induction c with
  | pure a => exact hq a _ _
  | fault e => exact id
  | isEmpty k ih => exact fun h b => ih b (h b)
  | isFinal k ih => exact fun h b => ih b (h b)
  | next k ih => exact fun h b => ih b (h b)
  | advance k ih => exact ih
  | prepare k ih => exact ih
  | commit k ih => exact ih
  | cancel k ih => exact ih
  | mem o k ih => exact fun h => Abu.Fit.imp h fun m' h' => ih h'
  | alloc t k ih => exact fun h => ih _ h
  | call p d b s k ih => exact fun h => ⟨h.1, fun r s' Δ' m' h' => ih r s' (h.2 r s' Δ' m' h')⟩

theorem fit_bind {env : Env} {α β : Type} {Q : β → List Ty → Mem → Prop} {f : α → Cmd β}
    (c : Cmd α) : ∀ {Δ : List Ty} {m : Mem},
      c.Fit N G env (fun a Δ' m' => (f a).Fit N G env Q Δ' m') Δ m →
      (c.bind f).Fit N G env Q Δ m := by
  induction c with
  | pure a => exact id
  | fault e => exact id
  | isEmpty k ih => exact fun h b => ih b (h b)
  | isFinal k ih => exact fun h b => ih b (h b)
  | next k ih => exact fun h b => ih b (h b)
  | advance k ih => exact ih
  | prepare k ih => exact ih
  | commit k ih => exact ih
  | cancel k ih => exact ih
  | mem o k ih => exact fun h => Abu.Fit.imp h fun m' h' => ih h'
  | alloc t k ih => exact fun h => ih _ h
  | call p d b s k ih => exact fun h => ⟨h.1, fun r s' Δ' m' h' => ih r s' (h.2 r s' Δ' m' h')⟩

/-- Running it. -/
theorem exec_fit {σ : Type} [DataSource σ] {env : Env}
    {call : Prog → Ref → Ref → PState → World σ Mem → Out σ Mem (Res × PState)}
    (hc : ∀ p d b s (w : World σ Mem) Δ, Admits N G env p d b s Δ w.mem →
      Fit N (fun x => ∃ Δ', Gave env p d Δ x.1.1 x.1.2 Δ' x.2.mem) (call p d b s w))
    {α : Type} {Q : α → List Ty → Mem → Prop} (c : Cmd α) : ∀ {w : World σ Mem} {Δ : List Ty},
      c.Fit N G env Q Δ w.mem → Fit N (fun x => ∃ Δ', Q x.1 Δ' x.2.mem) (exec call c w) := by
  induction c with
  | pure a => exact fun h => ⟨_, h⟩
  | fault e => exact fun h => h
  | isEmpty k ih => exact fun h => ih _ (h _)
  | isFinal k ih => exact fun h => ih _ (h _)
  | next k ih =>
    intro w Δ h
    simp only [exec]
    cases DataSource.next w.ds with
    | none => exact allowed_data
    | some c => exact ih c (h c)
  | advance k ih =>
    intro w Δ h
    simp only [exec]
    cases DataSource.advance w.ds with
    | none => exact allowed_data
    | some ds => exact ih h
  | prepare k ih => exact fun h => ih h
  | commit k ih =>
    intro w Δ h
    simp only [exec]
    cases DataSource.commit w.ds with
    | none => exact allowed_data
    | some ds => exact ih h
  | cancel k ih =>
    intro w Δ h
    simp only [exec]
    cases DataSource.cancel w.ds with
    | none => exact allowed_data
    | some ds => exact ih h
  | mem o k ih =>
    intro w Δ h
    simp only [exec]
    have h1 : Fit N (fun m' => k.Fit N G env Q Δ m') (w.mem.run o) := h
    have h2 : Store.op o w.mem = w.mem.run o := rfl
    rw [h2]
    cases hx : w.mem.run o with
    | error e => rw [hx] at h1; exact h1
    | ok m' => rw [hx] at h1; exact ih h1
  | alloc t k ih => exact fun h => ih _ h
  | call p d b s k ih =>
    intro w Δ h
    simp only [exec]
    have h1 := hc p d b s w Δ h.1
    cases hx : call p d b s w with
    | error e => rw [hx] at h1; exact h1
    | ok x =>
      obtain ⟨⟨r, s'⟩, w'⟩ := x
      rw [hx] at h1
      obtain ⟨Δ', h1⟩ := h1
      exact ih r s' (h.2 r s' Δ' w'.mem h1)

/-! ### Construction -/

/-- Construction succeeds. -/
def NewFit (env : Env) (p : Prog) (D : Ty) (Δ : List Ty) (st : PState) (Δ' : List Ty) (m' : Mem) :
    Prop := m'.Typed Δ' ∧ Δ <+: Δ' ∧ Held env Δ' p D st

theorem mk_fit {env : Env} : (p : Prog) → (d b : Ref) → (Δ : List Ty) → (m : Mem) → m.Typed Δ →
    p.Into N G b.ty d.ty → d.Typed Δ → b.Typed Δ →
    (mk p d b).Fit N G env (NewFit env p d.ty Δ) Δ m
  | .char _, _, _, _, _, hm, _, _, _ => by rw [mk]; exact ⟨hm, List.prefix_refl _, .char⟩
  | .charSymbol _, _, _, _, _, hm, _, _, _ => by rw [mk]; exact ⟨hm, List.prefix_refl _, .charSymbol⟩
  | .strLit _, _, _, _, _, hm, _, _, _ => by rw [mk]; exact ⟨hm, List.prefix_refl _, .strLit⟩
  | .symbol _, _, _, _, _, hm, hp, _, _ => by
    rw [mk]; rw [Prog.Into] at hp
    exact ⟨hm, List.prefix_refl _, .symbol hp (fun _ h => by cases h)⟩
  | .int .., d, _, _, _, hm, hp, hd, _ => by
    rw [mk]; rw [Prog.Into] at hp
    exact (zero_typed hm hd hp).imp fun m' h => ⟨h, List.prefix_refl _, .int⟩
  | .uint .., d, _, _, _, hm, hp, hd, _ => by
    rw [mk]; rw [Prog.Into] at hp
    exact (zero_typed hm hd hp).imp fun m' h => ⟨h, List.prefix_refl _, .uint⟩
  | .eoi, _, _, _, _, hm, _, _, _ => by rw [mk]; exact ⟨hm, List.prefix_refl _, .eoi⟩
  | .pass, _, _, _, _, hm, _, _, _ => by rw [mk]; exact ⟨hm, List.prefix_refl _, .pass⟩
  | .fail, _, _, _, _, hm, _, _, _ => by rw [mk]; exact ⟨hm, List.prefix_refl _, .fail⟩
  | .seq (s :: slots) (p :: ps), d, b, Δ, m, hm, hp, hd, hb => by
    rw [Prog.Into, Prog.IntoSlots] at hp
    obtain ⟨_, _, ⟨t, ht, hp⟩, _⟩ := hp
    obtain ⟨d', hs, hd', rfl⟩ := seqDst_typed hd ht
    rw [mk, hs]
    dsimp only
    refine fit_bind _ (Cmd.Fit.imp ?_ _ (mk_fit p d' b Δ m hm hp hd' hb))
    intro c Δ' m' h
    exact ⟨h.1, h.2.1, .seq rfl rfl ht h.2.2⟩
  | .seq [] _, _, _, _, _, _, hp, _, _ => by rw [Prog.Into] at hp; exact absurd rfl hp.1
  | .seq (_ :: _) [], _, _, _, _, _, hp, _, _ => by rw [Prog.Into] at hp; exact absurd rfl hp.2.1
  | .alt (p :: ps), d, b, Δ, m, hm, hp, hd, hb => by
    rw [mk]
    rw [Prog.Into, Prog.AllInto] at hp
    refine fit_bind _ (Cmd.Fit.imp ?_ _ (mk_fit p d b Δ m hm hp.2.1 hd hb))
    intro c Δ' m' h
    exact ⟨h.1, h.2.1, .alt rfl h.2.2⟩
  | .alt [], _, _, _, _, _, hp, _, _ => by rw [Prog.Into] at hp; exact absurd rfl hp.1
  | .rep mn mx p, d, b, Δ, m, hm, hp, hd, hb => by
    rw [mk]; rw [Prog.Into] at hp
    refine fit_bind _ (Cmd.Fit.imp ?_ _ (mk_fit p d b Δ m hm hp hd hb))
    intro c Δ' m' h
    exact ⟨h.1, h.2.1, .rep h.2.2⟩
  | .opt p, d, b, Δ, m, hm, hp, hd, hb => by
    rw [mk]; rw [Prog.Into] at hp
    refine fit_bind _ (Cmd.Fit.imp ?_ _ (mk_fit p d b Δ m hm hp hd hb))
    intro c Δ' m' h
    exact ⟨h.1, h.2.1, .opt h.2.2⟩
  | .not p, d, b, Δ, m, hm, hp, hd, hb => by
    rw [mk]; rw [Prog.Into] at hp
    refine fit_bind _ (Cmd.Fit.imp ?_ _ (mk_fit p d b Δ m hm hp hd hb))
    intro c Δ' m' h
    exact ⟨h.1, h.2.1, .not h.2.2⟩
  | .discard p, d, b, Δ, m, hm, hp, hd, hb => by
    rw [mk]; rw [Prog.Into] at hp
    refine fit_bind _ (Cmd.Fit.imp ?_ _ (mk_fit p .nil b Δ m hm hp trivial hb))
    intro c Δ' m' h
    exact ⟨h.1, h.2.1, .discard h.2.2⟩
  | .lexeme p, d, b, Δ, m, hm, hp, hd, hb => by
    rw [mk]; rw [Prog.Into] at hp
    refine fit_bind _ (Cmd.Fit.imp ?_ _ (mk_fit p d b Δ m hm hp hd hb))
    intro c Δ' m' h
    exact ⟨h.1, h.2.1, .lexeme h.2.2⟩
  | .bindDst p, d, b, Δ, m, hm, hp, hd, hb => by
    rw [mk]; rw [Prog.Into] at hp
    refine fit_bind _ (Cmd.Fit.imp ?_ _ (mk_fit p d d Δ m hm hp hd hd))
    intro c Δ' m' h
    exact ⟨h.1, h.2.1, .bindDst h.2.2⟩
  | .construct tys p, d, b, Δ, m, hm, hp, hd, hb => by
    rw [mk]; rw [Prog.Into] at hp
    obtain ⟨h1, h2, h3⟩ := alloc_typed hm (.tup tys)
    have hg := growTypes_prefix Δ (.tup tys)
    refine fit_bind _ (Cmd.Fit.imp ?_ _ (mk_fit p _ b _ _ h1 (by rw [h3]; exact hp.1) h2 (hb.later hg)))
    intro c Δ' m' h
    exact ⟨h.1, hg.trans h.2.1, .construct h3 (h2.later h.2.1) (by rw [← h3]; exact h.2.2)⟩
  | .action a p, d, b, Δ, m, hm, hp, hd, hb => by
    rw [mk]; rw [Prog.Into] at hp
    obtain ⟨h1, h2, h3⟩ := alloc_typed hm a.landing
    have hg := growTypes_prefix Δ a.landing
    refine fit_bind _ (Cmd.Fit.imp ?_ _ (mk_fit p _ b _ _ h1 (by rw [h3]; exact hp.1) h2 (hb.later hg)))
    intro c Δ' m' h
    exact ⟨h.1, hg.trans h.2.1, .action h3 (h2.later h.2.1) (by rw [← h3]; exact h.2.2)⟩
  | .except op neg, d, b, Δ, m, hm, hp, hd, hb => by
    rw [mk]; rw [Prog.Into] at hp
    refine fit_bind _ (Cmd.Fit.imp ?_ _ (mk_fit neg .nil b Δ m hm hp.2 trivial hb))
    intro c Δ' m' h
    exact ⟨h.1, h.2.1, .exceptNeg h.2.2⟩
  | .list op sep, d, b, Δ, m, hm, hp, hd, hb => by
    rw [mk]; rw [Prog.Into] at hp
    refine fit_bind _ (Cmd.Fit.imp ?_ _ (mk_fit op d b Δ m hm hp.1 hd hb))
    intro c Δ' m' h
    exact ⟨h.1, h.2.1, .listOp h.2.2⟩
  | .withSkipper p, d, b, Δ, m, hm, hp, hd, hb => by
    rw [mk]; rw [Prog.Into] at hp
    refine fit_bind _ (Cmd.Fit.imp ?_ _ (mk_fit p d b Δ m hm hp hd hb))
    intro c Δ' m' h
    exact ⟨h.1, h.2.1, .withSkipper h.2.2⟩
  | .recur _ _, _, _, _, _, hm, _, _, _ => by rw [mk]; exact ⟨hm, List.prefix_refl _, .recurNone⟩
  | .atomic p, d, b, Δ, m, hm, hp, hd, hb => by
    rw [mk]; rw [Prog.Into] at hp
    obtain ⟨h1, h2, h3⟩ := alloc_typed hm d.valueType
    have h3 := h3.trans (valueType_item d)
    have hg := growTypes_prefix Δ d.valueType
    refine fit_bind _ (Cmd.Fit.imp ?_ _ (mk_fit p _ b _ _ h1 (by rw [h3]; exact hp) h2 (hb.later hg)))
    intro c Δ' m' h
    exact ⟨h.1, hg.trans h.2.1, .atomic h3 (h2.later h.2.1) (by rw [← h3]; exact h.2.2)⟩
  | .clean p, d, b, Δ, m, hm, hp, hd, hb => by
    rw [mk]; rw [Prog.Into] at hp
    refine fit_bind _ (Cmd.Fit.imp ?_ _ (mk_fit p d b Δ m hm hp hd hb))
    intro c Δ' m' h
    exact ⟨h.1, h.2.1, .clean h.2.2⟩
  | .skip s p, d, b, Δ, m, hm, hp, hd, hb => by
    rw [mk]; rw [Prog.Into] at hp
    refine fit_bind _ (Cmd.Fit.imp ?_ _ (mk_fit s .nil .nil Δ m hm hp.1 trivial trivial))
    intro sc Δ1 m1 h
    refine fit_bind _ (Cmd.Fit.imp ?_ _ (mk_fit p d b Δ1 m1 h.1 hp.2 (hd.later h.2.1) (hb.later h.2.1)))
    intro c Δ' m' h'
    exact ⟨h'.1, h.2.1.trans h'.2.1, .skip (fun _ => h.2.2.later h'.2.1) h'.2.2⟩

/-! ### One iteration -/

/-- What an iteration ensures. -/
def Passed (env : Env) (p : Prog) (d : Ref) (Δ : List Ty) : Step → List Ty → Mem → Prop
  | .ret r st', Δ', m' => Gave env p d Δ r st' Δ' m'
  | .cont st', Δ', m' => NewFit env p d.ty Δ st' Δ' m'

theorem fit_guarded {env : Env} {Q : Step → List Ty → Mem → Prop} {st A B} {Δ : List Ty} {m : Mem}
    (hA : A.Fit N G env Q Δ m) (hP : Q (.ret .PARTIAL st) Δ m) (hB : ∀ c, (B c).Fit N G env Q Δ m) :
    (guarded st A B).Fit N G env Q Δ m := by
  intro e
  cases e with
  | true => intro f; cases f with
    | true => exact hA
    | false => exact hP
  | false => exact hB

theorem gave_end {env : Env} {p d Δ Δ' m' st r} (hm : Mem.Typed m' Δ') (hl : Δ <+: Δ')
    (hr : r ≠ .PARTIAL) : Gave env p d Δ r st Δ' m' := ⟨hm, hl, fun h => absurd h hr⟩

theorem enough_ne (a b : Nat) : enough a b ≠ .PARTIAL := by
  unfold enough; split <;> simp

theorem negIf_fit {env : Env} {p d Δ m neg r st} (hm : Mem.Typed m Δ) (hd : d.Typed Δ)
    (hN : d.ty.Digits N) (hr : r ≠ .PARTIAL) :
    (negIf neg d (retS r st)).Fit N G env (Passed env p d Δ) Δ m := by
  unfold negIf
  split
  · exact (mul_typed hm hd hN (-1)).imp fun m' h => gave_end h (List.prefix_refl _) hr
  · exact gave_end hm (List.prefix_refl _) hr

theorem kids_find_vals : ∀ {k : Kids} {c : Ch} {n : Node}, k.find c = some n →
    ∀ x ∈ n.vals, x ∈ k.vals
  | .nil, _, _, h => by cases h
  | .cons d n' rest, c, n, h => by
    rw [Kids.find] at h
    intro x hx
    rw [Kids.vals, List.mem_append]
    split at h
    · cases h; exact .inl hx
    · exact .inr (kids_find_vals h x hx)

theorem node_val_vals {n : Node} {x : Val} (hx : n.val = some x) : x ∈ n.vals := by
  cases n with
  | mk v k =>
    have : v = some x := hx
    subst this
    simp [Node.vals]

theorem node_child_vals {n : Node} {x : Val} (hx : x ∈ n.child.vals) : x ∈ n.vals := by
  cases n with
  | mk v k => rw [Node.vals, List.mem_append]; exact .inr hx

theorem body_fit {env : Env}
    (hrec : ∀ id B D, G id B D → ∃ q, env id = some q ∧ ∀ sk : Prog, sk.Into N G .nil .nil →
      (elabP sk RecurChildReqs q).Into N G B D)
    {p : Prog} {d b : Ref} {st : PState} {Δ : List Ty} {m : Mem} (h : Admits N G env p d b st Δ m) :
    (body env p d b st).Fit N G env (Passed env p d Δ) Δ m := by
  obtain ⟨hm, hp, hd, hb, hr⟩ := h
  have hfail : ∀ st, Passed env p d Δ (.ret .FAILURE st) Δ m := fun st =>
    gave_end hm (List.prefix_refl _) (by simp)
  have hsucc : ∀ st, Passed env p d Δ (.ret .SUCCESS st) Δ m := fun st =>
    gave_end hm (List.prefix_refl _) (by simp)
  have hassign : ∀ (v : Val) st, d.ty.Receives v →
      Fit N (fun m' => Passed env p d Δ (.ret .SUCCESS st) Δ m') (m.assign d v) := fun v st hv =>
    (assign_typed hm hd hv).imp fun m' h => gave_end h (List.prefix_refl _) (by simp)
  cases hr with
  | char =>
    cases st with
    | unit =>
      rw [body]
      rw [Prog.Into] at hp
      refine fit_guarded (hfail _) ⟨hm, List.prefix_refl _, fun _ => .char⟩ ?_
      intro c
      split
      · exact hassign _ _ (num_takes hp c)
      · exact hfail _
    | _ => rw [body] <;> first | exact allowed_stuck | (intros; contradiction)
  | charSymbol =>
    cases st with
    | unit =>
      rw [body]
      rw [Prog.Into] at hp
      refine fit_guarded (hfail _) ⟨hm, List.prefix_refl _, fun _ => .charSymbol⟩ ?_
      intro c
      split
      · exact hfail _
      · next v hv => exact hassign _ _ (hp _ (List.mem_of_find?_eq_some hv))
    | _ => rw [body] <;> first | exact allowed_stuck | (intros; contradiction)
  | strLit =>
    cases st with
    | strLit k =>
      rw [body]
      split
      · exact hsucc _
      · refine fit_guarded (hfail _) ⟨hm, List.prefix_refl _, fun _ => .strLit⟩ ?_
        intro c
        split
        · exact ⟨hm, List.prefix_refl _, .strLit⟩
        · exact hfail _
    | _ => rw [body] <;> first | exact allowed_stuck | (intros; contradiction)
  | eoi =>
    cases st with
    | unit =>
      rw [body]
      exact fit_guarded (hsucc _) ⟨hm, List.prefix_refl _, fun _ => .eoi⟩ fun c => hfail _
    | _ => rw [body] <;> first | exact allowed_stuck | (intros; contradiction)
  | pass =>
    cases st with
    | unit => rw [body]; exact hsucc _
    | _ => rw [body] <;> first | exact allowed_stuck | (intros; contradiction)
  | fail =>
    cases st with
    | unit => rw [body]; exact hfail _
    | _ => rw [body] <;> first | exact allowed_stuck | (intros; contradiction)
  | @symbol r _ n v h1 h2 =>
    unfold body
    dsimp only
    have hhit : ∀ (n' : Node) (x : Val), (∀ y ∈ n'.vals, d.ty.Receives y) → d.ty.Receives x →
        Cmd.Fit N G env (Passed env (.symbol r) d Δ)
          (if n'.child.isEmpty then .mem (.assign d x) (retS .SUCCESS (.symbol n' v))
            else .prepare (contS (.symbol n' (some x)))) Δ m := by
      intro n' x hn' hx
      split
      · exact hassign _ _ hx
      · exact ⟨hm, List.prefix_refl _, .symbol hn' fun y hy => by cases hy; exact hx⟩
    refine fit_guarded ?_ ⟨hm, List.prefix_refl _, fun _ => .symbol h1 h2⟩ ?_
    · cases v with
      | none => exact hfail _
      | some x => exact hassign _ _ (h2 x rfl)
    · intro c
      cases hf : n.child.find c with
      | none =>
        cases v with
        | none => exact hfail _
        | some x => exact hassign _ _ (h2 x rfl)
      | some n' =>
        have hn' : ∀ y ∈ n'.vals, d.ty.Receives y := fun y hy =>
          h1 y (node_child_vals (kids_find_vals hf y hy))
        dsimp only
        rw [Cmd.Fit]
        split
        · exact ⟨hm, List.prefix_refl _, .symbol hn' h2⟩
        · next x hv =>
          have hx := hn' x (node_val_vals hv)
          by_cases hvs : v.isSome = true
          · rw [if_pos hvs]; exact hhit n' x hn' hx
          · rw [if_neg hvs]; exact hhit n' x hn' hx
  | @int bs mn mx _ _ =>
    cases st with
    | int n look neg =>
      rw [body]
      rw [Prog.Into] at hp
      dsimp only
      refine fit_guarded (negIf_fit hm hd hp (enough_ne _ _)) ⟨hm, List.prefix_refl _, fun _ => .int⟩ ?_
      intro c
      split
      · exact ⟨hm, List.prefix_refl _, .int⟩
      · split
        · exact ⟨hm, List.prefix_refl _, .int⟩
        · split
          · refine (mulAdd_typed hm hd hp bs (digitValue bs c)).imp fun m' h => ?_
            show Cmd.Fit N G env _ _ Δ m'
            split
            · exact negIf_fit h hd hp (by simp)
            · exact ⟨h, List.prefix_refl _, .int⟩
          · exact negIf_fit hm hd hp (enough_ne _ _)
    | _ => rw [body] <;> first | exact allowed_stuck | (intros; contradiction)
  | @uint bs mn mx _ _ =>
    cases st with
    | uint n =>
      rw [body]
      rw [Prog.Into] at hp
      have hen : Passed env (.uint bs mn mx) d Δ (.ret (enough n mn) (.uint n)) Δ m :=
        gave_end hm (List.prefix_refl _) (enough_ne _ _)
      refine fit_guarded hen ⟨hm, List.prefix_refl _, fun _ => .uint⟩ ?_
      intro c
      split
      · refine (mulAdd_typed hm hd hp bs (digitValue bs c)).imp fun m' h => ?_
        show Cmd.Fit N G env _ _ Δ m'
        split
        · exact gave_end h (List.prefix_refl _) (by simp)
        · exact ⟨h, List.prefix_refl _, .uint⟩
      · exact hen
    | _ => rw [body] <;> first | exact allowed_stuck | (intros; contradiction)
  | @seq slots ps _ i c p s t h1 h2 h3 h4 =>
    rw [Prog.Into] at hp
    obtain ⟨d', hd0, hd', rfl⟩ := seqDst_typed hd h3
    rw [body]
    simp only [h1, h2, hd0]
    obtain ⟨t, ht, hpt⟩ := intoSlots_get hp.2.2 h1 h2
    rw [h3] at ht
    cases ht
    refine ⟨⟨hm, hpt, hd', hb, h4⟩, ?_⟩
    intro r c' Δ' m' hR
    cases r with
    | SUCCESS =>
      dsimp only
      cases hp' : ps[i + 1]? with
      | none => exact gave_end hR.1 hR.2.1 (by simp)
      | some p' =>
        cases hs' : slots[i + 1]? with
        | none => exact gave_end hR.1 hR.2.1 (by simp)
        | some s' =>
          dsimp only
          obtain ⟨t', ht', hpt'⟩ := intoSlots_get hp.2.2 hp' hs'
          obtain ⟨d1, e1, hd1, rfl⟩ := seqDst_typed (hd.later hR.2.1) ht'
          rw [e1]
          dsimp only
          refine fit_bind _ (Cmd.Fit.imp ?_ _ (mk_fit p' d1 b Δ' m' hR.1 hpt' hd1 (hb.later hR.2.1)))
          intro c'' Δ'' m'' hM
          exact ⟨hM.1, hR.2.1.trans hM.2.1, .seq hp' hs' ht' hM.2.2⟩
    | FAILURE => exact gave_end hR.1 hR.2.1 (by simp)
    | PARTIAL => exact ⟨hR.1, hR.2.1, fun _ => .seq h1 h2 h3 (hR.2.2 rfl)⟩
  | @alt ps _ i c p h1 h2 =>
    rw [body]
    simp only [h1]
    rw [Prog.Into] at hp
    refine ⟨⟨hm, allInto_get hp.2 h1, hd, hb, h2⟩, ?_⟩
    intro r c' Δ' m' hR
    cases r with
    | SUCCESS => exact gave_end hR.1 hR.2.1 (by simp)
    | PARTIAL => exact ⟨hR.1, hR.2.1, fun _ => .alt h1 (hR.2.2 rfl)⟩
    | FAILURE =>
      dsimp only
      cases hp' : ps[i + 1]? with
      | none => exact gave_end hR.1 hR.2.1 (by simp)
      | some p' =>
        refine fit_bind _ (Cmd.Fit.imp ?_ _ (mk_fit p' d b Δ' m' hR.1 (allInto_get hp.2 hp')
          (hd.later hR.2.1) (hb.later hR.2.1)))
        intro c'' Δ'' m'' hM
        exact ⟨hM.1, hR.2.1.trans hM.2.1, .alt hp' hM.2.2⟩
  | @rep mn mx p _ n c h1 =>
    rw [body]
    rw [Prog.Into] at hp
    refine ⟨⟨hm, hp, hd, hb, h1⟩, ?_⟩
    intro r c' Δ' m' hR
    cases r with
    | FAILURE => exact gave_end hR.1 hR.2.1 (enough_ne _ _)
    | PARTIAL => exact ⟨hR.1, hR.2.1, fun _ => .rep (hR.2.2 rfl)⟩
    | SUCCESS =>
      dsimp only
      split
      · exact gave_end hR.1 hR.2.1 (by simp)
      · refine fit_bind _ (Cmd.Fit.imp ?_ _ (mk_fit p d b Δ' m' hR.1 hp (hd.later hR.2.1)
          (hb.later hR.2.1)))
        intro c'' Δ'' m'' hM
        exact ⟨hM.1, hR.2.1.trans hM.2.1, .rep hM.2.2⟩
  | @opt p _ c h1 =>
    rw [body]
    rw [Prog.Into] at hp
    refine ⟨⟨hm, hp, hd, hb, h1⟩, ?_⟩
    intro r c' Δ' m' hR
    cases r with
    | SUCCESS => exact gave_end hR.1 hR.2.1 (by simp)
    | FAILURE => exact gave_end hR.1 hR.2.1 (by simp)
    | PARTIAL => exact ⟨hR.1, hR.2.1, fun _ => .opt (hR.2.2 rfl)⟩
  | @not p _ c h1 =>
    rw [body]
    rw [Prog.Into] at hp
    refine ⟨⟨hm, hp, hd, hb, h1⟩, ?_⟩
    intro r c' Δ' m' hR
    cases r with
    | SUCCESS => exact gave_end hR.1 hR.2.1 (by simp)
    | FAILURE => exact gave_end hR.1 hR.2.1 (by simp)
    | PARTIAL => exact ⟨hR.1, hR.2.1, fun _ => .not (hR.2.2 rfl)⟩
  | @discard p _ c h1 =>
    rw [body]
    rw [Prog.Into] at hp
    refine ⟨⟨hm, hp, trivial, hb, h1⟩, ?_⟩
    intro r c' Δ' m' hR
    exact ⟨hR.1, hR.2.1, fun h => .discard (hR.2.2 h)⟩
  | @lexeme p _ c h1 =>
    rw [body]
    rw [Prog.Into] at hp
    refine ⟨⟨hm, hp, hd, hb, h1⟩, ?_⟩
    intro r c' Δ' m' hR
    exact ⟨hR.1, hR.2.1, fun h => .lexeme (hR.2.2 h)⟩
  | @bindDst p _ c h1 =>
    rw [body]
    rw [Prog.Into] at hp
    refine ⟨⟨hm, hp, hd, hd, h1⟩, ?_⟩
    intro r c' Δ' m' hR
    exact ⟨hR.1, hR.2.1, fun h => .bindDst (hR.2.2 h)⟩
  | @construct tys p _ buf c h1 h2 h3 =>
    rw [body]
    rw [Prog.Into] at hp
    refine ⟨⟨hm, by rw [h1]; exact hp.1, h2, hb, by rw [h1]; exact h3⟩, ?_⟩
    intro r c' Δ' m' hR
    cases r with
    | SUCCESS =>
      exact (construct_typed hR.1 (hd.later hR.2.1) (h2.later hR.2.1) h1 hp.2).imp fun m'' h => gave_end h hR.2.1 (by simp)
    | FAILURE => exact gave_end hR.1 hR.2.1 (by simp)
    | PARTIAL =>
      exact ⟨hR.1, hR.2.1, fun _ => .construct h1 (h2.later hR.2.1) (by rw [← h1]; exact hR.2.2 rfl)⟩
  | @action a p _ buf c h1 h2 h3 =>
    rw [body]
    rw [Prog.Into] at hp
    refine ⟨⟨hm, by rw [h1]; exact hp.1, h2, hb, by rw [h1]; exact h3⟩, ?_⟩
    intro r c' Δ' m' hR
    cases r with
    | SUCCESS =>
      exact (act_typed hR.1 (h2.later hR.2.1) (hd.later hR.2.1) (hb.later hR.2.1) h1 hp.2).imp fun m'' h => gave_end h hR.2.1 (by simp)
    | FAILURE => exact gave_end hR.1 hR.2.1 (by simp)
    | PARTIAL =>
      exact ⟨hR.1, hR.2.1, fun _ => .action h1 (h2.later hR.2.1) (by rw [← h1]; exact hR.2.2 rfl)⟩
  | @exceptNeg op neg _ c h1 =>
    rw [body]
    rw [Prog.Into] at hp
    refine ⟨⟨hm, hp.2, trivial, hb, h1⟩, ?_⟩
    intro r c' Δ' m' hR
    cases r with
    | PARTIAL => exact ⟨hR.1, hR.2.1, fun _ => .exceptNeg (hR.2.2 rfl)⟩
    | SUCCESS => exact gave_end hR.1 hR.2.1 (by simp)
    | FAILURE =>
      refine fit_bind _ (Cmd.Fit.imp ?_ _ (mk_fit op d b Δ' m' hR.1 hp.1 (hd.later hR.2.1)
        (hb.later hR.2.1)))
      intro c'' Δ'' m'' hM
      exact ⟨hM.1, hR.2.1.trans hM.2.1, .exceptOp hM.2.2⟩
  | @exceptOp op neg _ c h1 =>
    rw [body]
    rw [Prog.Into] at hp
    refine ⟨⟨hm, hp.1, hd, hb, h1⟩, ?_⟩
    intro r c' Δ' m' hR
    exact ⟨hR.1, hR.2.1, fun h => .exceptOp (hR.2.2 h)⟩
  | @listOp op sep _ c h1 =>
    rw [body]
    rw [Prog.Into] at hp
    refine ⟨⟨hm, hp.1, hd, hb, h1⟩, ?_⟩
    intro r c' Δ' m' hR
    cases r with
    | PARTIAL => exact ⟨hR.1, hR.2.1, fun _ => .listOp (hR.2.2 rfl)⟩
    | FAILURE => exact gave_end hR.1 hR.2.1 (by simp)
    | SUCCESS =>
      refine fit_bind (env := env) (N := N) (G := G) _ (Cmd.Fit.imp ?_ _
        (mk_fit sep .nil b Δ' m' hR.1 hp.2 trivial (hb.later hR.2.1)))
      intro c'' Δ'' m'' hM
      exact ⟨hM.1, hR.2.1.trans hM.2.1, .listSep hM.2.2⟩
  | @listSep op sep _ c h1 =>
    rw [body]
    rw [Prog.Into] at hp
    refine ⟨⟨hm, hp.2, trivial, hb, h1⟩, ?_⟩
    intro r c' Δ' m' hR
    cases r with
    | PARTIAL => exact ⟨hR.1, hR.2.1, fun _ => .listSep (hR.2.2 rfl)⟩
    | FAILURE => exact gave_end hR.1 hR.2.1 (by simp)
    | SUCCESS =>
      refine fit_bind _ (Cmd.Fit.imp ?_ _ (mk_fit op d b Δ' m' hR.1 hp.1 (hd.later hR.2.1)
        (hb.later hR.2.1)))
      intro c'' Δ'' m'' hM
      exact ⟨hM.1, hR.2.1.trans hM.2.1, .listOp hM.2.2⟩
  | @withSkipper p _ c h1 =>
    rw [body]
    rw [Prog.Into] at hp
    refine ⟨⟨hm, hp, hd, hb, h1⟩, ?_⟩
    intro r c' Δ' m' hR
    exact ⟨hR.1, hR.2.1, fun h => .withSkipper (hR.2.2 h)⟩
  | @recurNone id sk _ =>
    rw [Prog.Into] at hp
    obtain ⟨q, hq, h1⟩ := hrec id _ _ hp.1
    rw [body, hq]
    dsimp only
    refine fit_bind _ (Cmd.Fit.imp ?_ _ (mk_fit _ d b Δ m hm (h1 sk hp.2) hd hb))
    intro c'' Δ'' m'' hM
    exact ⟨hM.1, hM.2.1, .recurSome hq hM.2.2⟩
  | @recurSome id sk _ q c hq h1 =>
    rw [Prog.Into] at hp
    obtain ⟨q', hq', h2⟩ := hrec id _ _ hp.1
    rw [hq] at hq'
    cases hq'
    rw [body]
    simp only [hq]
    refine ⟨⟨hm, h2 sk hp.2, hd, hb, h1⟩, ?_⟩
    intro r c' Δ' m' hR
    exact ⟨hR.1, hR.2.1, fun h => .recurSome hq (hR.2.2 h)⟩
  | @atomic p _ buf c h1 h2 h3 =>
    rw [body]
    rw [Prog.Into] at hp
    refine ⟨⟨hm, by rw [h1]; exact hp, h2, hb, by rw [h1]; exact h3⟩, ?_⟩
    intro r c' Δ' m' hR
    cases r with
    | SUCCESS =>
      exact (assignFrom_typed hR.1 (hd.later hR.2.1) (h2.later hR.2.1) h1).imp fun m'' h => gave_end h hR.2.1 (by simp)
    | FAILURE => exact gave_end hR.1 hR.2.1 (by simp)
    | PARTIAL =>
      exact ⟨hR.1, hR.2.1, fun _ => .atomic h1 (h2.later hR.2.1) (by rw [← h1]; exact hR.2.2 rfl)⟩
  | @clean p _ c h1 =>
    rw [body]
    rw [Prog.Into] at hp
    refine ⟨⟨hm, hp, hd, hb, h1⟩, ?_⟩
    intro r c' Δ' m' hR
    cases r with
    | SUCCESS => exact gave_end hR.1 hR.2.1 (by simp)
    | FAILURE => exact gave_end hR.1 hR.2.1 (by simp)
    | PARTIAL => exact ⟨hR.1, hR.2.1, fun _ => .clean (hR.2.2 rfl)⟩
  | @skip s p _ done sc c h1 h2 =>
    rw [Prog.Into] at hp
    cases done with
    | false =>
      rw [body]
      refine ⟨⟨hm, hp.1, trivial, trivial, h1 rfl⟩, ?_⟩
      intro r c' Δ' m' hR
      cases r with
      | PARTIAL => exact ⟨hR.1, hR.2.1, fun _ => .skip (fun _ => hR.2.2 rfl) (h2.later hR.2.1)⟩
      | FAILURE => exact ⟨hR.1, hR.2.1, .skip (fun h => by cases h) (h2.later hR.2.1)⟩
      | SUCCESS =>
        refine fit_bind _ (Cmd.Fit.imp ?_ _ (mk_fit s .nil .nil Δ' m' hR.1 hp.1 trivial trivial))
        intro c'' Δ'' m'' hM
        exact ⟨hM.1, hR.2.1.trans hM.2.1, .skip (fun _ => hM.2.2) (h2.later (hR.2.1.trans hM.2.1))⟩
    | true =>
      rw [body]
      refine ⟨⟨hm, hp.2, hd, hb, h2⟩, ?_⟩
      intro r c' Δ' m' hR
      exact ⟨hR.1, hR.2.1, fun h => .skip (fun h => by cases h) (hR.2.2 h)⟩

end Abu
