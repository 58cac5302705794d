import Verif.Props.Alternative
import Verif.Props.NilDst
import Verif.Props.Leaf
import Verif.Proofs.Action
import Verif.Proofs.Construct
import Verif.Spec.Gives
/-
The values a grammar computes are those the parser computes: the rules of `Gives`, one by one.
-/
namespace Abu

/-! ### Requirements -/

theorem tidy_plain_unskipped : ∀ (p : Pat) {els elf : Stale} {c ls lf}, p.tidy false els elf c ls lf = true →
    p.unskipped = true
  | .discard p, _, _, _, _, _, h => tidy_plain_unskipped p h
  | .lexeme p, _, _, _, _, _, h => tidy_plain_unskipped p (band_right h)
  | .bindDst p, _, _, _, _, _, h => tidy_plain_unskipped p h
  | .construct _ p, _, _, _, _, _, h => tidy_plain_unskipped p h
  | .action _ p, _, _, _, _, _, h => tidy_plain_unskipped p h
  | .withSkipper .., _, _, _, _, _, h => by cases h
  | .char _, _, _, _, _, _, _ => rfl
  | .charSymbol _, _, _, _, _, _, _ => rfl
  | .strLit _, _, _, _, _, _, _ => rfl
  | .symbol _, _, _, _, _, _, _ => rfl
  | .int .., _, _, _, _, _, _ => rfl
  | .uint .., _, _, _, _, _, _ => rfl
  | .eoi, _, _, _, _, _, _ => rfl
  | .pass, _, _, _, _, _, _ => rfl
  | .fail, _, _, _, _, _, _ => rfl
  | .seq _, _, _, _, _, _, _ => rfl
  | .alt _, _, _, _, _, _, _ => rfl
  | .rep .., _, _, _, _, _, _ => rfl
  | .opt _, _, _, _, _, _, _ => rfl
  | .not _, _, _, _, _, _, _ => rfl
  | .except .., _, _, _, _, _, _ => rfl
  | .list .., _, _, _, _, _, _ => rfl
  | .recur .., _, _, _, _, _, _ => rfl

/-- What `Recur` requires of the pattern it stands for is nothing more. -/
theorem elab_recurChild : ∀ (p : Pat) {els elf : Stale} {c ls lf}, p.tidy false els elf c ls lf = true →
    elabP .fail RecurChildReqs p = topParser p
  | .discard p, _, _, _, _, _, h => congrArg Prog.discard (elab_recurChild p h)
  | .lexeme p, _, _, _, _, _, h => congrArg Prog.lexeme (elab_recurChild p (band_right h))
  | .bindDst p, _, _, _, _, _, h => rfl
  | .construct _ p, _, _, _, _, _, h => rfl
  | .action _ p, _, _, _, _, _, h => rfl
  | .withSkipper .., _, _, _, _, _, h => by cases h
  | .char _, _, _, _, _, _, _ => rfl
  | .charSymbol _, _, _, _, _, _, _ => rfl
  | .strLit _, _, _, _, _, _, _ => rfl
  | .symbol _, _, _, _, _, _, _ => rfl
  | .int .., _, _, _, _, _, _ => rfl
  | .uint .., _, _, _, _, _, _ => rfl
  | .eoi, _, _, _, _, _, _ => rfl
  | .pass, _, _, _, _, _, _ => rfl
  | .fail, _, _, _, _, _, _ => rfl
  | .seq _, _, _, _, _, _, _ => rfl
  | .alt _, _, _, _, _, _, _ => rfl
  | .rep .., _, _, _, _, _, _ => rfl
  | .opt _, _, _, _, _, _, _ => rfl
  | .not _, _, _, _, _, _, _ => rfl
  | .except .., _, _, _, _, _, _ => rfl
  | .list .., _, _, _, _, _, _ => rfl
  | .recur .., _, _, _, _, _, _ => rfl

/-- All fail, each one alone with the object as it was. -/
inductive AllFail (env : Env) (ty : Ty) (u : Val) (t : List Ch) : List Pat → List LogEntry →
    List LogEntry → Prop
  | nil {log} : AllFail env ty u t [] log log
  | cons {p ps log v rest log1 log'} : Alone env p ty u log t .FAILURE v log1 rest →
      AllFail env ty u t ps log1 log' → AllFail env ty u t (p :: ps) log log'

section
variable {env : Env} {els elf : Stale} {ty : Ty} {u v : Val} {log log' : List LogEntry}
  {t rest : List Ch} {r : Res}

/-! ### Unary and binary patterns -/

theorem Alone.lexeme {p : Pat} (h : Alone env p ty u log t r v log' rest) (hq : p.quiet = true)
    (he : env.quiet) : Alone env (.lexeme p) ty u log t r v log' rest := by
  obtain ⟨i', L, M', h1, h2, _, h3, h4, _⟩ := Alone.does (T := t) (i := 0) (M := ⟨[u], log⟩) h hq he
    (o := 0) (q := []) rfl rfl (.at 0 [] ty)
  exact Does.alone (p := .lexeme p) h1.lexeme h3 h4 h2

theorem Alone.bindDst {p : Pat} (h : Alone env p ty u log t r v log' rest) (hq : p.quiet = true)
    (he : env.quiet) : Alone env (.bindDst p) ty u log t r v log' rest := by
  obtain ⟨i', L, M', h1, h2, _, h3, h4, _⟩ := Alone.does (T := t) (i := 0) (M := ⟨[u], log⟩) h hq he
    (o := 0) (q := []) rfl rfl (.at 0 [] ty)
  exact Does.alone (p := .bindDst p) h1.bindDst h3 h4 h2

theorem Alone.recur {q : Pat} {id n} (hid : env id = some q)
    (h : Alone env q ty u log t r v log' rest) (he : env.quiet) (henv : env.tidy false els elf) :
    Alone env (.recur id n) ty u log t r v log' rest := by
  obtain ⟨i', L, M', h1, h2, _, h3, h4, _⟩ := Alone.does (T := t) (i := 0) (M := ⟨[u], log⟩) h
    (he id q hid) he (o := 0) (q := []) rfl rfl (.at 0 [] ty)
  rw [← elab_recurChild q (henv id q hid)] at h1
  exact Does.alone (p := .recur id n) (Does.recur hid h1) h3 h4 h2

theorem Alone.discard {p : Pat} (h : AloneNil env p log t r log' rest) (hq : p.quiet = true)
    (he : env.quiet) : Alone env (.discard p) ty u log t r u log' rest := by
  obtain ⟨i', L, M', h1, h2, _, h3, h4⟩ := AloneNil.does (T := t) (i := 0) (M := ⟨[u], log⟩) h hq he
    rfl (.at 0 [] ty)
  refine Does.alone (p := .discard p) h1.discard ?_ h3 h2
  rw [(h4 0 [] (by simp)).2]
  rfl

theorem AloneNil.of_does {p : Pat} {i' L} {m' : Mem}
    (h : Does env (topParser p) .nil .nil t 0 ⟨[], log⟩ r i' L m') (hl : m'.log = log')
    (hr : t.drop i' = rest) : AloneNil env p log t r log' rest :=
  ⟨m', .of_parses (hr ▸ h.parses), hl⟩

theorem AloneNil.discard {p : Pat} (h : AloneNil env p log t r log' rest) (hq : p.quiet = true)
    (he : env.quiet) : AloneNil env (.discard p) log t r log' rest := by
  obtain ⟨i', L, M', h1, h2, _, h3, _⟩ := AloneNil.does (T := t) (i := 0) (M := ⟨[], log⟩) h hq he
    rfl .nil
  exact AloneNil.of_does (p := .discard p) h1.discard h3 h2

theorem AloneNil.recur {q : Pat} {id n} (hid : env id = some q)
    (h : AloneNil env q log t r log' rest) (he : env.quiet) (henv : env.tidy false els elf) :
    AloneNil env (.recur id n) log t r log' rest := by
  obtain ⟨i', L, M', h1, h2, _, h3, _⟩ := AloneNil.does (T := t) (i := 0) (M := ⟨[], log⟩) h
    (he id q hid) he rfl .nil
  rw [← elab_recurChild q (henv id q hid)] at h1
  exact AloneNil.of_does (p := .recur id n) (Does.recur hid h1) h3 h2

theorem AloneNil.action {p : Pat} {a : Act} (h : Landing env p a.landing log t .SUCCESS v log' rest)
    (hq : p.quiet = true) (he : env.quiet) (hne : v ≠ .indet) (ha : a.param = false) :
    AloneNil env (.action a p) log t .SUCCESS (log' ++ [⟨a.id, v⟩]) rest := by
  obtain ⟨i', L, M', hd, h1, _, h3, h4, _⟩ := Landing.does (T := t) (i := 0) (M := ⟨[], log⟩) h hq
    he rfl .nil
  have hact := act_plain (d := .nil) (b := .nil) ha h3 hne
  have hact' : M'.act a (Mem.alloc ⟨[], log⟩ a.landing).1 .nil .nil =
      .ok ⟨M'.objs, M'.log ++ [⟨a.id, v⟩]⟩ := by
    rw [hact]
    cases a.void <;> rfl
  exact AloneNil.of_does (p := .action a p) (.action hd hact') (by rw [← h4]) h1

theorem AloneNil.action_fail {p : Pat} {a : Act} (h : Landing env p a.landing log t .FAILURE v log' rest)
    (hq : p.quiet = true) (he : env.quiet) : AloneNil env (.action a p) log t .FAILURE log' rest := by
  obtain ⟨i', L, M', hd, h1, _, h3, h4, _⟩ := Landing.does (T := t) (i := 0) (M := ⟨[], log⟩) h hq
    he rfl .nil
  exact AloneNil.of_does (p := .action a p) (.action_fail hd) h4 h1

/-- Without objects and actions. -/
theorem AloneNil.bare {p : Pat} {o : Option (List Ch)} (hf : p.forNil false (fun _ => false) = true)
    (henv : env.tidy false els elf) (hp : p.Loose els elf) (h : PegRest env p t o) :
    ∃ r rest, AloneNil env p log t r log rest ∧ Fits o r rest := by
  have hn : env.forNil false (fun _ => false) := by intro id q h; cases h
  rcases peg_yields henv hp h .nil ⟨[], log⟩ with ⟨r, m', rest, h1, h2⟩ | ⟨e, h1, h2⟩
  · have := ((C48_nothing_is_generated_partial env p _ m' false _ hn hf r rest).1 t h1).2 rfl
    subst this
    exact ⟨r, rest, ⟨_, .of_parses h1, rfl⟩, h2⟩
  · exact absurd h1 ((C48_nil_is_accepted_partial env p _ false _ hn hf e).1 t h2)

theorem Alone.except_neg {op neg : Pat} (h : AloneNil env neg log t .SUCCESS log' rest)
    (hq : neg.quiet = true) (he : env.quiet) (hk : neg.unskipped = true) :
    ∃ rest', Alone env (.except op neg) ty u log t .FAILURE u log' rest' := by
  obtain ⟨i', L, M', h1, h2, _, h3, h4⟩ := AloneNil.does (T := t) (i := 0) (M := ⟨[u], log⟩) h hq he
    rfl (.at 0 [] ty)
  rw [← elab_false neg false] at h1
  obtain ⟨i2, L2, h5, h6⟩ := Does.cleaner (c := false) neg hk (by simp) h1
  refine ⟨_, Does.alone (p := .except op neg) (Does.except_neg h5) ?_ h3 rfl⟩
  rw [(h4 0 [] (by simp)).2]
  rfl

theorem Alone.except_op {op neg : Pat} {log1 rest1} (h : AloneNil env neg log t .FAILURE log1 rest1)
    (h2 : Alone env op ty u log1 t r v log' rest) (hq : neg.quiet = true) (hqo : op.quiet = true)
    (he : env.quiet) (henv : env.tidy false els elf) {ls lf}
    (hp : neg.tidy false els elf true ls lf = true) :
    Alone env (.except op neg) ty u log t r v log' rest := by
  obtain ⟨i', L, M', h1, _, _, h3, h4⟩ := AloneNil.does (T := t) (i := 0) (M := ⟨[u], log⟩) h hq he
    rfl (.at 0 [] ty)
  rw [← elab_false neg false] at h1
  obtain ⟨i2, L2, h5, h6⟩ := Does.cleaner (c := false) neg (tidy_plain_unskipped neg hp) (by simp) h1
  have hi := h5.back henv hp
  subst hi
  have hu : M'.look 0 [] = .ok u := by
    rw [(h4 0 [] (by simp)).2]; rfl
  obtain ⟨i3, L3, M3, g1, g2, _, g3, g4, _⟩ := Alone.does (T := t) (i := 0) (M := M') h2 hqo he
    (o := 0) (q := []) hu h3 (.at 0 [] ty)
  exact Does.alone (p := .except op neg) (Does.except_op h5 g1) g3 g4 g2

theorem Alone.not_fail {p : Pat} {rest'} (h : Alone env p ty u log t .FAILURE v log' rest')
    (hq : p.quiet = true) (he : env.quiet) (ht : p.traceless false = true)
    (henv : env.tidy false els elf) (hp : (Pat.not p).Loose els elf) :
    Alone env (.not p) ty u log t .SUCCESS u log' t := by
  have hv := h.traceless he hq ht
  subst hv
  obtain ⟨i', L, M', h1, h2, _, h3, h4, _⟩ := Alone.does (T := t) (i := 0) (M := ⟨[v], log⟩) h hq he
    (o := 0) (q := []) rfl rfl (.at 0 [] ty)
  obtain ⟨a, L', hL⟩ := cons_of_snoc L 0
  have h5 : Alone env (.not p) ty v log t .SUCCESS v log' _ :=
    Does.alone (p := .not p) (Does.not_fail h1 hL) h3 h4 rfl
  have hr := h5.rest_eq (C20_not_success_partial env els elf henv p t hp (h.recognises .no))
  rw [hr] at h5
  exact h5

theorem Alone.not_succ {p : Pat} (h : Alone env p ty u log t .SUCCESS v log' rest)
    (hq : p.quiet = true) (he : env.quiet) :
    ∃ rest', Alone env (.not p) ty u log t .FAILURE v log' rest' := by
  obtain ⟨i', L, M', h1, h2, _, h3, h4, _⟩ := Alone.does (T := t) (i := 0) (M := ⟨[u], log⟩) h hq he
    (o := 0) (q := []) rfl rfl (.at 0 [] ty)
  obtain ⟨a, L', hL⟩ := cons_of_snoc L 0
  exact ⟨_, Does.alone (p := .not p) (Does.not_succ h1 hL) h3 h4 rfl⟩

/-! ### Optional parts -/

theorem Alone.opt_item {p : Pat} {us : List Val}
    (h : Alone env p ty ty.defaultInit log t .SUCCESS v log' rest) (hh : ty.Holds v)
    (hs : p.single = true) (hk : p.unskipped = true) (hq : p.quiet = true) (he : env.quiet)
    (hn : ty ≠ .nil) (hty : p.assigns = true → ∀ t, ty ≠ .coll t) :
    Alone env (.opt p) (.coll ty) (.coll us) log t .SUCCESS (.coll (us ++ [v])) log' rest := by
  obtain ⟨i1, L, M1, e1, e2, e3, e4⟩ := Alone.item (T := t) (i := 0) (M := ⟨[.coll us], log⟩) (o := 0) (q := [])
    h (by simp) (fun _ => hh) hs hk hq he hn hty false false rfl rfl (.at 0 [] (.coll ty))
  exact Does.alone (p := .opt p) (Does.opt_succ e1) e3 e4 (e2 rfl)

theorem Alone.opt_item_no {p : Pat} {us : List Val} {rest'}
    (h : Alone env p ty ty.defaultInit log t .FAILURE v log' rest')
    (hs : p.single = true) (hk : p.unskipped = true) (hq : p.quiet = true) (he : env.quiet)
    (hn : ty ≠ .nil) (hty : p.assigns = true → ∀ t, ty ≠ .coll t) 
    (henv : env.tidy false els elf) (hp : (Pat.opt p).Loose els elf) :
    Alone env (.opt p) (.coll ty) (.coll us) log t .SUCCESS (.coll us) log' t := by
  obtain ⟨i1, L, M1, e1, e2, e3, e4⟩ := Alone.item (T := t) (i := 0) (M := ⟨[.coll us], log⟩) (o := 0) (q := [])
    h (by simp) (by simp) hs hk hq he hn hty false false rfl rfl (.at 0 [] (.coll ty))
  obtain ⟨a, L', hL⟩ := cons_of_snoc L 0
  have h5 : Alone env (.opt p) (.coll ty) (.coll us) log t .SUCCESS (.coll us) log' _ :=
    Does.alone (p := .opt p) (Does.opt_fail e1 hL) (by simpa [gained] using e3) e4 rfl
  have hr := h5.rest_eq (C22_optional_absent_partial env els elf henv p t hp (h.recognises .no))
  rw [hr] at h5
  exact h5

theorem Ref.valueType_plain {o q} (hty : ∀ t, ty ≠ .coll t) : (Ref.at o q ty).valueType = ty := by
  cases ty with
  | coll t => exact absurd rfl (hty t)
  | _ => rfl

/-- An optional part with a buffer of its own. -/
theorem Does.opt_buffer {p : Pat} {rest'} (h : Alone env p ty ty.defaultInit log t r v log' rest')
    (hr : r ≠ .PARTIAL) (hh : r = .SUCCESS → ty.Holds v) (hq : p.quiet = true) (he : env.quiet) (hn : ty ≠ .nil)
    (hty : ∀ t, ty ≠ .coll t) (u : Val) :
    ∃ i' L M', Does env (.atomic (topParser p)) (.at 0 [] ty) (.at 0 [] ty) t 0 ⟨[u], log⟩ r i' L M' ∧
      M'.look 0 [] = .ok (if r = .SUCCESS then v else u) ∧ M'.log = log' ∧ t.drop i' = rest' := by
  obtain ⟨m', ⟨hp, _⟩, hv', hl'⟩ := h
  obtain ⟨i', L, hd, hrest, _⟩ := hp.does (T := t) (i := 0) rfl
  obtain ⟨M1, h1, h2, h3, h4⟩ := hd.buffered (M := ⟨[u], log⟩) (top_quiet hq) he rfl (.at 0 [] ty)
  have hal := alloc_eq (m := ⟨[u], log⟩) hn
  have hvt := Ref.valueType_plain (o := 0) (q := []) hty
  have h1' : Does env (topParser p) (Mem.alloc ⟨[u], log⟩ (Ref.at 0 [] ty).valueType).1 (.at 0 [] ty) t 0
      (Mem.alloc ⟨[u], log⟩ (Ref.at 0 [] ty).valueType).2 r i' L M1 := by
    rw [hvt, hal]; exact h1
  have hu : M1.look 0 [] = .ok u := h4 0 [] u rfl
  cases r with
  | PARTIAL => exact absurd rfl hr
  | FAILURE => exact ⟨i', L, M1, .atomic_fail h1', by simpa using hu, h3.trans hl', hrest⟩
  | SUCCESS =>
    obtain ⟨M2, e1, e2, e3⟩ := assign_over hty (Ty.convert_of_holds (hh rfl)) hu
    refine ⟨i', L, M2, .atomic h1' ?_, by simpa using e2, (e3.trans h3).trans hl', hrest⟩
    have hrd : M1.read (Mem.alloc ⟨[u], log⟩ (Ref.at 0 [] ty).valueType).1 = .ok v := by
      rw [hvt, hal]; exact h2 v (look_nil.2 hv')
    have hne := holds_ne_indet (hh rfl)
    simp only [Mem.assignFrom, hrd]
    cases v <;> first | exact absurd rfl hne | exact e1

/-- The parser of an optional part, into an object that is not a collection. -/
theorem Does.opt_value {p : Pat} {rest'} (hw : p.whole = true)
    (h : Alone env p ty ty.defaultInit log t r v log' rest') (hr : r ≠ .PARTIAL)
    (hh : r = .SUCCESS → ty.Holds v) (hq : p.quiet = true) (he : env.quiet) (hn : ty ≠ .nil)
    (hty : ∀ t, ty ≠ .coll t) (u : Val) :
    ∃ i' L M', Does env (elabP .fail ⟨true, false, false, false⟩ p) (.at 0 [] ty) (.at 0 [] ty) t 0 ⟨[u], log⟩ r i' L M' ∧
      M'.look 0 [] = .ok (if r = .SUCCESS then v else u) ∧ M'.log = log' ∧ t.drop i' = rest' := by
  have assign : p.assigns = true → p.traceless false = true →
      elabP .fail ⟨true, false, false, false⟩ p = topParser p → 
    ∃ i' L M', Does env (elabP .fail ⟨true, false, false, false⟩ p) (.at 0 [] ty) (.at 0 [] ty) t 0 ⟨[u], log⟩ r i' L M' ∧
      M'.look 0 [] = .ok (if r = .SUCCESS then v else u) ∧ M'.log = log' ∧ t.drop i' = rest' := by
    intro ha ht hel
    rw [hel]
    obtain ⟨v2, h1, h2⟩ := h.restart hr he hq ha hty u
    obtain ⟨i', L, M', e1, e2, _, e3, e4, _⟩ := Alone.does (T := t) (i := 0) (M := ⟨[u], log⟩) h1 hq he
      (o := 0) (q := []) rfl rfl (.at 0 [] ty)
    refine ⟨i', L, M', e1, ?_, e4, e2⟩
    cases r with
    | PARTIAL => exact absurd rfl hr
    | SUCCESS => rw [e3, h2 rfl]; rfl
    | FAILURE => rw [e3, h1.traceless he hq ht]; rfl
  have buffer : p.ATOMIC = false → (∀ q, p ≠ .bindDst q) → 
    ∃ i' L M', Does env (elabP .fail ⟨true, false, false, false⟩ p) (.at 0 [] ty) (.at 0 [] ty) t 0 ⟨[u], log⟩ r i' L M' ∧
      M'.look 0 [] = .ok (if r = .SUCCESS then v else u) ∧ M'.log = log' ∧ t.drop i' = rest' := by
    intro ha hb
    rw [elab_addAtomic ha false hb]
    exact Does.opt_buffer h hr hh hq he hn hty u
  cases p with
  | char s => exact assign rfl rfl rfl
  | symbol s => exact assign rfl rfl rfl
  | action a p => exact assign hw rfl rfl
  | int => exact buffer rfl (by simp)
  | uint => exact buffer rfl (by simp)
  | seq => exact buffer rfl (by simp)
  | recur => exact buffer rfl (by simp)
  | _ => cases hw

theorem Alone.opt_value {p : Pat} (hw : p.whole = true)
    (h : Alone env p ty ty.defaultInit log t .SUCCESS v log' rest) (hh : ty.Holds v)
    (hq : p.quiet = true) (he : env.quiet) (hn : ty ≠ .nil) (hty : ∀ t, ty ≠ .coll t) :
    Alone env (.opt p) ty u log t .SUCCESS v log' rest := by
  obtain ⟨i', L, M', h1, h2, h3, h4⟩ := Does.opt_value hw h (by simp) (fun _ => hh) hq he hn hty u
  exact Does.alone (p := .opt p) (Does.opt_succ h1) h2 h3 h4

theorem Alone.opt_value_no {p : Pat} (hw : p.whole = true) {rest'}
    (h : Alone env p ty ty.defaultInit log t .FAILURE v log' rest')
    (hq : p.quiet = true) (he : env.quiet) (hn : ty ≠ .nil) (hty : ∀ t, ty ≠ .coll t)
    (henv : env.tidy false els elf) (hp : (Pat.opt p).Loose els elf) :
    Alone env (.opt p) ty u log t .SUCCESS u log' t := by
  obtain ⟨i', L, M', h1, h2, h3, h4⟩ := Does.opt_value hw h (by simp) (by simp) hq he hn hty u
  obtain ⟨a, L', hL⟩ := cons_of_snoc L 0
  have h5 : Alone env (.opt p) ty u log t .SUCCESS u log' _ :=
    Does.alone (p := .opt p) (Does.opt_fail h1 hL) h2 h3 rfl
  have hr := h5.rest_eq (C22_optional_absent_partial env els elf henv p t hp (h.recognises .no))
  rw [hr] at h5
  exact h5

/-! ### Alternatives -/

theorem AllFail.traceless {ps : List Pat} (h : AllFail env ty u t ps log log') (he : env.quiet)
    (hq : ∀ p ∈ ps, p.quiet = true) (ht : ∀ p ∈ ps, p.traceless false = true) :
    FailInTurn env ty t ps u log u log' := by
  induction h with
  | nil => exact .nil
  | cons h1 _ ih =>
    have := h1.traceless he (hq _ (by simp)) (ht _ (by simp))
    subst this
    exact .cons h1 (ih (fun p hp => hq p (by simp [hp])) fun p hp => ht p (by simp [hp]))

theorem AllFail.assigns {ps : List Pat} (h : AllFail env ty u t ps log log') (he : env.quiet)
    (hq : ∀ p ∈ ps, p.quiet = true) (ha : ∀ p ∈ ps, p.assigns = true) (hty : ∀ e, ty ≠ .coll e) :
    ∀ u0, ∃ u1, FailInTurn env ty t ps u0 log u1 log' := by
  induction h with
  | nil => exact fun u0 => ⟨u0, .nil⟩
  | cons h1 _ ih =>
    intro u0
    obtain ⟨v2, h2, _⟩ := h1.restart (by simp) he (hq _ (by simp)) (ha _ (by simp)) hty u0
    obtain ⟨u1, h3⟩ := ih (fun p hp => hq p (by simp [hp])) (fun p hp => ha p (by simp [hp])) v2
    exact ⟨u1, .cons h2 h3⟩

theorem FailInTurn.altFails {ps : List Pat} {u log t u1 log1}
    (h : FailInTurn env ty t ps u log u1 log1) (hne : ps ≠ []) (he : env.quiet)
    (hq : ∀ p ∈ ps, p.quiet = true) (henv : env.tidy false els elf)
    (hp : ∀ p ∈ ps, p.tidy false els elf true .any .any = true) (bnd : Ref) :
    ∀ {M : Mem} {E : List Nat}, M.look 0 [] = .ok u → M.log = log →
      ∃ i' L M', AltDoes env (.at 0 [] ty) bnd t (elabPs .fail ⟨false, true, false, false⟩ ps) 0 E M
        .FAILURE i' L M' ∧ M'.look 0 [] = .ok u1 ∧ M'.log = log1 := by
  induction h with
  | nil => exact absurd rfl hne
  | @cons p ps u log u1 log1 rest1 u2 log2 h hs ih =>
    intro M E hM hl
    obtain ⟨i', L, M', h1, h2, _, h3, h4, _⟩ := Alone.does (T := t) (i := 0) h (hq p (by simp)) he hM hl bnd
    rw [← elab_false p false] at h1
    obtain ⟨i2, L2, h5, h6⟩ := Does.cleaner (c := false) p (tidy_plain_unskipped p (hp p (by simp))) (by simp) h1
    have hi := h5.back henv (hp p (by simp))
    subst hi
    simp only [elabPs]
    cases ps with
    | nil =>
      cases hs
      exact ⟨_, _, _, .last h5, h3, h4⟩
    | cons p2 ps =>
      obtain ⟨i3, L3, M3, e1, e2⟩ := ih (by simp) (fun x hx => hq x (List.mem_cons_of_mem _ hx))
        (fun x hx => hp x (List.mem_cons_of_mem _ hx)) h3 h4 (E := L2 ++ E)
      exact ⟨i3, L3, M3, .cons h5 e1, e2⟩

theorem FailInTurn.alone {ps : List Pat} {u1} (h : FailInTurn env ty t ps u log u1 log')
    (hne : ps ≠ []) (he : env.quiet) (hq : ∀ p ∈ ps, p.quiet = true) (henv : env.tidy false els elf)
    (hp : ∀ p ∈ ps, p.tidy false els elf true .any .any = true) :
    ∃ rest, Alone env (.alt ps) ty u log t .FAILURE u1 log' rest := by
  obtain ⟨i', L, M', h1, h2, h3⟩ := h.altFails hne he hq henv hp (.at 0 [] ty) (M := ⟨[u], log⟩) (E := []) rfl rfl
  exact ⟨_, Does.alone (p := .alt ps) h1.does h2 h3 rfl⟩

/-! ### Leaves -/

theorem Receives.alone {p : Pat} {w : Val} {i' : Nat} (hr : Receives ty u w v)
    (h : ∀ m', Mem.assign ⟨[u], log⟩ (.at 0 [] ty) w = .ok m' →
      Parses env p (.at 0 [] ty) ⟨[u], log⟩ t (.ok (.SUCCESS, m', t.drop i'))) :
    Alone env p ty u log t .SUCCESS v log (t.drop i') := by
  obtain ⟨m', h1, h2, h3⟩ := hr.assign (m := ⟨[u], log⟩) (o := 0) (q := []) rfl
  exact ⟨m', .of_parses (h m' h1), look_nil.1 h2, h3⟩

theorem Alone.char {s : CharSet} {c : Ch} (hs : s.isValid c = true) (hr : Receives ty u (.num c) v) :
    Alone env (.char s) ty u log (c :: rest) .SUCCESS v log rest :=
  hr.alone (i' := 1) fun _ hm => Parses.of_run (i := 1) (S1 := []) rfl (run_char (c := c) rfl hs hm)

theorem Alone.char_no {s : CharSet} (hs : ∀ c rest, t = c :: rest → s.isValid c = false) :
    Alone env (.char s) ty u log t .FAILURE u log t := by
  refine ⟨_, .of_parses (Parses.of_run (i := 0) (S1 := []) rfl (run_char_no ?_)), rfl, rfl⟩
  intro c hc
  cases t with
  | nil => cases hc
  | cons d rest => cases hc; exact hs _ _ rfl

theorem Alone.symbol {root : Node} {key : List Ch} {w : Val} (hne : key ≠ []) (hk : root.get key = some w)
    (hl : ∀ key', KeyAt root (key ++ rest) 0 key' → key'.length ≤ key.length)
    (hr : Receives ty u w v) : Alone env (.symbol root) ty u log (key ++ rest) .SUCCESS v log rest := by
  have := hr.alone (env := env) (log := log) (t := key ++ rest) (p := .symbol root) (i' := key.length) fun m' hm => ?_
  · rwa [List.drop_left] at this
  obtain ⟨f, st', fi, hf⟩ := symbol_run (env := env) (root := root) (dst := .at 0 [] ty)
    (m := ⟨[u], log⟩) (t := key ++ rest)
  cases hlo : longest root (key ++ rest) with
  | none => exact absurd (List.prefix_append key rest) (longest_none hlo key hne (by simp [hk]))
  | some x =>
    obtain ⟨k, v'⟩ := x
    obtain ⟨⟨h0, h1, h2⟩, h3⟩ := longest_some hlo
    have hge := h3 key hne (by simp [hk]) (List.prefix_append _ _)
    have hle : k ≤ key.length := by
      have := hl ((key ++ rest).take k) ⟨by
        intro e
        have := congrArg List.length e
        simp only [List.length_take, List.length_nil] at this
        omega, by rw [h2]; rfl, List.take_prefix _ _⟩
      simp only [List.length_take] at this
      omega
    have hk' : k = key.length := by omega
    subst hk'
    rw [List.take_left, hk] at h2
    cases h2
    rw [hlo] at hf
    simp only [symOut, opRun] at hf
    rw [show Store.op (MemOp.assign (.at 0 [] ty) w) (⟨[u], log⟩ : Mem) = Mem.assign ⟨[u], log⟩ (.at 0 [] ty) w from rfl, hm] at hf
    rw [← Nat.zero_add key.length]
    exact Parses.of_run (p := .symbol root) (S1 := []) rfl hf

theorem Alone.symbol_no {root : Node} (hn : ∀ key, ¬ KeyAt root t 0 key) :
    ∃ rest, Alone env (.symbol root) ty u log t .FAILURE u log rest := by
  obtain ⟨f, st', fi, hf⟩ := symbol_run (env := env) (root := root) (dst := .at 0 [] ty)
    (m := ⟨[u], log⟩) (t := t)
  cases hlo : longest root t with
  | some x =>
    obtain ⟨k, v'⟩ := x
    obtain ⟨⟨h0, h1, h2⟩, h3⟩ := longest_some hlo
    refine absurd ?_ (hn (t.take k))
    refine ⟨?_, by rw [h2]; rfl, List.take_prefix _ _⟩
    intro e
    have := congrArg List.length e
    simp only [List.length_take, List.length_nil] at this
    omega
  | none =>
    rw [hlo] at hf
    exact ⟨_, _, .of_parses (Parses.of_run (p := .symbol root) (S1 := []) rfl hf), rfl, rfl⟩

theorem stores_num {k : NumKind} {x : Int} (h : (Ty.num k).Holds (.num x)) :
    Stores ⟨[u], log⟩ (.at 0 [] (.num k)) (.num x) ⟨[.num x], log⟩ :=
  .value (m := ⟨[u], log⟩) (o := 0) (by simp) h rfl

theorem scalar_num {k : NumKind} : (Ref.at 0 [] (.num k)).scalar := by
  intro o p t h; cases h

theorem Alone.wordless {p : Pat} {o : Option (List Ch)} (hw : p.wordless = true) (h : PegRest env p t o) :
    ∃ r rest, Alone env p ty u log t r u log rest ∧ Fits o r rest := by
  cases p with
  | strLit s =>
    cases o with
    | some rest =>
      obtain ⟨j, h, rfl⟩ := h
      cases h with
      | strLit h =>
        obtain ⟨rest, rfl⟩ := h
        rw [Nat.zero_add, List.drop_left]
        exact ⟨_, _, ⟨_, C09_literal_success env s rest _ ⟨[u], log⟩, rfl, rfl⟩, .ok⟩
    | none =>
      cases h with
      | strLitNo h =>
        obtain ⟨rest, h⟩ := C09_literal_failure env s t h (.at 0 [] ty) ⟨[u], log⟩
        exact ⟨_, _, ⟨_, h, rfl, rfl⟩, .no⟩
  | eoi =>
    cases o with
    | some rest =>
      obtain ⟨j, h, rfl⟩ := h
      cases h with
      | eoi h =>
        cases t with
        | nil => exact ⟨_, _, ⟨_, .of_parses (Parses.of_run (n := 1) (i := 0) (S1 := []) rfl rfl), rfl, rfl⟩, .ok⟩
        | cons c t => simp at h
    | none =>
      cases h with
      | eoiNo h =>
        cases t with
        | nil => simp at h
        | cons c t => exact ⟨_, _, ⟨_, .of_parses (Parses.of_run (n := 1) (i := 0) (S1 := []) rfl rfl), rfl, rfl⟩, .no⟩
  | pass =>
    cases o with
    | some rest =>
      obtain ⟨j, h, rfl⟩ := h
      cases h
      exact ⟨_, _, ⟨_, .of_parses (Parses.of_run (n := 1) (i := 0) (S1 := []) rfl rfl), rfl, rfl⟩, .ok⟩
    | none => cases h
  | fail =>
    cases o with
    | some rest => obtain ⟨j, h, rfl⟩ := h; cases h
    | none => exact ⟨_, _, ⟨_, .of_parses (Parses.of_run (n := 1) (i := 0) (S1 := []) rfl rfl), rfl, rfl⟩, .no⟩
  | _ => cases hw

end

end Abu
