import Verif.Model.Peek
import Verif.Spec.Peek
import Verif.Proofs.Moves
/-
`peek` against `consume`, for C82.
-/
namespace Abu

/-- The parser classes that have `peek`; `o`: there is an optional part inside. -/
inductive PeekForm : Bool → Prog → Prop
  | eoi : PeekForm false .eoi
  | pass : PeekForm false .pass
  | fail : PeekForm false .fail
  | charSymbol (m) : PeekForm false (.charSymbol m)
  | opt (p) : PeekForm true (.opt p)
  | not {o p} : PeekForm o p → PeekForm o (.not p)
  | lexeme {o p} : PeekForm o p → PeekForm o (.lexeme p)

theorem peekForm_of_some : ∀ (p : Prog) {c}, p.peek = some c → ∃ o, PeekForm o p
  | .eoi, _, _ => ⟨_, .eoi⟩
  | .pass, _, _ => ⟨_, .pass⟩
  | .fail, _, _ => ⟨_, .fail⟩
  | .charSymbol m, _, _ => ⟨_, .charSymbol m⟩
  | .opt p, _, _ => ⟨_, .opt p⟩
  | .not p, _, h => by
    rw [Prog.peek, Option.map_eq_some_iff] at h
    obtain ⟨_, h, _⟩ := h
    obtain ⟨o, h⟩ := peekForm_of_some p h
    exact ⟨o, .not h⟩
  | .lexeme p, _, h => by
    rw [Prog.peek] at h
    obtain ⟨o, h⟩ := peekForm_of_some p h
    exact ⟨o, .lexeme h⟩
  | .char _, _, h => by simp [Prog.peek] at h
  | .strLit _, _, h => by simp [Prog.peek] at h
  | .symbol _, _, h => by simp [Prog.peek] at h
  | .int .., _, h => by simp [Prog.peek] at h
  | .uint .., _, h => by simp [Prog.peek] at h
  | .seq .., _, h => by simp [Prog.peek] at h
  | .alt _, _, h => by simp [Prog.peek] at h
  | .rep .., _, h => by simp [Prog.peek] at h
  | .discard _, _, h => by simp [Prog.peek] at h
  | .bindDst _, _, h => by simp [Prog.peek] at h
  | .construct .., _, h => by simp [Prog.peek] at h
  | .action .., _, h => by simp [Prog.peek] at h
  | .except .., _, h => by simp [Prog.peek] at h
  | .list .., _, h => by simp [Prog.peek] at h
  | .withSkipper _, _, h => by simp [Prog.peek] at h
  | .recur .., _, h => by simp [Prog.peek] at h
  | .atomic _, _, h => by simp [Prog.peek] at h
  | .clean _, _, h => by simp [Prog.peek] at h
  | .skip .., _, h => by simp [Prog.peek] at h

section
variable {σ μ : Type} [DataSource σ] [Store μ]

/-- The answer of `!p`, given that of `p`. -/
def Res.flip : Res → Res
  | .SUCCESS => .FAILURE
  | .FAILURE => .SUCCESS
  | .PARTIAL => .PARTIAL

/-- What `peek` answers, from the data source. -/
def Prog.look (s : σ) : Prog → Option Res
  | .eoi => some <|
    if DataSource.empty s then (if DataSource.final s then .SUCCESS else .PARTIAL) else .FAILURE
  | .pass => some .SUCCESS
  | .fail => some .FAILURE
  | .charSymbol m =>
    if DataSource.empty s then some (if DataSource.final s then .FAILURE else .PARTIAL)
    else (DataSource.next s).map fun c => if (m.find? (fun e => e.1 == c)).isSome then .SUCCESS else .FAILURE
  | .not p => (p.look s).map Res.flip
  | .opt _ => some .SUCCESS
  | .lexeme p => p.look s
  | _ => none

theorem PeekForm.peeks {o} {p : Prog} (h : PeekForm o p) (w : World σ μ) (r : Res) (w' : World σ μ) :
    Peeks p w r w' ↔ p.look w.ds = some r ∧ w' = w := by
  unfold Peeks
  induction h generalizing r w' with
  | eoi =>
    simp only [Prog.peek, Prog.look, Option.some.injEq, exists_eq_left', exec]
    cases DataSource.empty w.ds <;> simp [exec] <;> grind
  | pass => simp [Prog.peek, Prog.look, exec]; grind
  | fail => simp [Prog.peek, Prog.look, exec]; grind
  | charSymbol m =>
    simp only [Prog.peek, Prog.look, Option.some.injEq, exists_eq_left', exec]
    cases DataSource.empty w.ds with
    | true => simp [exec]; grind
    | false =>
      simp only [Bool.false_eq_true, if_false, exec]
      cases DataSource.next w.ds with
      | none => simp [exec]
      | some c =>
        simp only [Option.map_some]
        cases m.find? (fun e => e.1 == c) <;> simp [exec] <;> grind
  | opt p => simp [Prog.peek, Prog.look, exec]; grind
  | @not o p hp ih =>
    simp only [Prog.peek, Prog.look, Option.map_eq_some_iff]
    constructor
    · rintro ⟨_, ⟨c, hc, rfl⟩, h⟩
      rw [exec_bind] at h
      split at h
      next => cases h
      next r0 w0 h0 =>
        obtain ⟨h1, rfl⟩ := (ih r0 w0).1 ⟨c, hc, h0⟩
        refine ⟨⟨r0, h1, ?_⟩, ?_⟩ <;> cases r0 <;> simp [exec] at h <;> simp [Res.flip, h]
    · rintro ⟨⟨r0, h1, rfl⟩, rfl⟩
      obtain ⟨c, hc, h0⟩ := (ih r0 w').2 ⟨h1, rfl⟩
      refine ⟨_, ⟨c, hc, rfl⟩, ?_⟩
      rw [exec_bind, h0]
      cases r0 <;> rfl
  | lexeme hp ih => exact ih r w'

/-- `consume` returns what `peek` says, or `PARTIAL` if there is an optional part. -/
theorem PeekForm.agrees {o} {p : Prog} (h : PeekForm o p) {env : Env} {n dst bnd st} {w w' : World σ μ}
    {r r' st'} (hl : p.look w.ds = some r) (hr : run env n p dst bnd st w = .ok ((r', st'), w')) :
    r' = r ∨ o = true ∧ r' = .PARTIAL := by
  induction h generalizing n dst bnd st r r' st' w' with
  | eoi =>
    cases n with
    | zero => cases hr
    | succ n =>
      cases st <;> simp only [run, body, guarded, exec] at hr <;> try cases hr
      simp only [Prog.look, Option.some.injEq] at hl
      subst hl
      cases he : DataSource.empty w.ds <;> simp only [he, if_true, Bool.false_eq_true, if_false, exec] at hr ⊢
      · cases hn : DataSource.next w.ds <;> simp only [hn] at hr <;> cases hr
        exact .inl rfl
      · cases hf : DataSource.final w.ds <;>
          simp only [hf, if_true, Bool.false_eq_true, if_false, exec] at hr ⊢ <;> cases hr <;> exact .inl rfl
  | pass =>
    cases n with
    | zero => cases hr
    | succ n => cases st <;> cases hr; cases hl; exact .inl rfl
  | fail =>
    cases n with
    | zero => cases hr
    | succ n => cases st <;> cases hr; cases hl; exact .inl rfl
  | charSymbol m =>
    cases n with
    | zero => cases hr
    | succ n =>
      cases st <;> simp only [run, body, guarded, exec] at hr <;> try cases hr
      simp only [Prog.look] at hl
      cases he : DataSource.empty w.ds <;>
        simp only [he, if_true, Bool.false_eq_true, if_false, exec] at hr hl
      · cases hn : DataSource.next w.ds with
        | none => simp [hn] at hl
        | some c =>
          simp only [hn, Option.map_some, Option.some.injEq] at hr hl
          subst hl
          cases hm : m.find? (fun e => e.1 == c) with
          | none => simp only [hm, exec] at hr; cases hr; exact .inl rfl
          | some v =>
            simp only [hm, exec] at hr
            cases ho : Store.op (MemOp.assign dst v.2) w.mem <;> simp only [ho] at hr <;> cases hr
            exact .inl rfl
      · cases hf : DataSource.final w.ds <;>
          simp only [hf, if_true, Bool.false_eq_true, if_false, exec] at hr hl <;> cases hr <;> cases hl <;>
          exact .inl rfl
  | opt p =>
    cases hl
    cases n with
    | zero => cases hr
    | succ n =>
      obtain ⟨c, rfl⟩ : ∃ c, st = .wrap c := by
        cases st with
        | wrap c => exact ⟨c, rfl⟩
        | _ => simp [run, body, exec] at hr
      simp only [run, body, exec] at hr
      cases hc : run env n p dst bnd c w with
      | error e => simp [hc] at hr
      | ok x =>
        obtain ⟨⟨r0, s0⟩, w0⟩ := x
        simp only [hc] at hr
        cases r0 <;> simp only [exec] at hr
        · cases hr; exact .inl rfl
        · cases hm : DataSource.commit w0.ds <;> simp only [hm] at hr <;> cases hr
          exact .inl rfl
        · cases hr; exact .inr ⟨rfl, rfl⟩
  | @not o p hp ih =>
    simp only [Prog.look, Option.map_eq_some_iff] at hl
    obtain ⟨r1, hl, rfl⟩ := hl
    cases n with
    | zero => cases hr
    | succ n =>
      obtain ⟨c, rfl⟩ : ∃ c, st = .wrap c := by
        cases st with
        | wrap c => exact ⟨c, rfl⟩
        | _ => simp [run, body, exec] at hr
      simp only [run, body, exec] at hr
      cases hc : run env n p dst bnd c w with
      | error e => simp [hc] at hr
      | ok x =>
        obtain ⟨⟨r0, s0⟩, w0⟩ := x
        have := ih hl hc
        simp only [hc] at hr
        cases r0 <;> simp only [exec] at hr
        · cases hm : DataSource.commit w0.ds <;> simp only [hm] at hr <;> cases hr
          rcases this with rfl | ⟨_, h⟩
          · exact .inl rfl
          · cases h
        · cases hm : DataSource.commit w0.ds <;> simp only [hm] at hr <;> cases hr
          rcases this with rfl | ⟨_, h⟩
          · exact .inl rfl
          · cases h
        · cases hr
          rcases this with rfl | ⟨h, _⟩
          · exact .inl rfl
          · exact .inr ⟨h, rfl⟩
  | @lexeme o p hp ih =>
    simp only [Prog.look] at hl
    cases n with
    | zero => cases hr
    | succ n =>
      obtain ⟨c, rfl⟩ : ∃ c, st = .wrap c := by
        cases st with
        | wrap c => exact ⟨c, rfl⟩
        | _ => simp [run, body, exec] at hr
      simp only [run, body, exec] at hr
      cases hc : run env n p dst bnd c w with
      | error e => simp [hc] at hr
      | ok x =>
        obtain ⟨⟨r0, s0⟩, w0⟩ := x
        simp only [hc, exec] at hr
        cases hr
        exact ih hl hc

theorem PeekForm.look_some {o} {p : Prog} (h : PeekForm o p) {s : σ} {u} (hs : Reads s u) :
    ∃ r, p.look s = some r := by
  induction h with
  | eoi => exact ⟨_, rfl⟩
  | pass => exact ⟨_, rfl⟩
  | fail => exact ⟨_, rfl⟩
  | opt p => exact ⟨_, rfl⟩
  | charSymbol m =>
    cases hs with
    | done he => exact ⟨_, by rw [Prog.look, if_pos he]⟩
    | read he hn => exact ⟨_, by rw [Prog.look, if_neg (by simp [he]), hn]; rfl⟩
  | not _ ih =>
    obtain ⟨r, h⟩ := ih
    exact ⟨_, by rw [Prog.look, h]; rfl⟩
  | lexeme _ ih => exact ih

/-- With an optional part the answer is always the same, and never `PARTIAL`. -/
theorem PeekForm.look_optional {p : Prog} (h : PeekForm true p) (s s' : σ) : p.look s = p.look s' := by
  generalize ho : true = o at h
  induction h with
  | eoi => cases ho
  | pass => rfl
  | fail => rfl
  | opt p => rfl
  | charSymbol m => cases ho
  | not _ ih => simp only [Prog.look, ih ho]
  | lexeme _ ih => exact ih ho

end

theorem Cursor.empty_feed (c : Cursor) (h : DataSource.empty c = false) (b f) :
    DataSource.empty (c.feed b f) = false := by
  simp only [DataSource.empty, Cursor.feed, decide_eq_false_iff_not, List.length_append] at h ⊢
  omega

theorem Cursor.next_feed (c : Cursor) (h : DataSource.empty c = false) (b f) :
    DataSource.next (c.feed b f) = DataSource.next c := by
  simp only [DataSource.empty, Cursor.feed, DataSource.next, decide_eq_false_iff_not] at h ⊢
  exact List.getElem?_append_left (by omega)

theorem Cursor.look_feed {o} {p : Prog} (h : PeekForm o p) {c c' : Cursor} {b f r}
    (hc : c.addBuffer b f = some c') (hl : p.look c = some r) (hr : r ≠ .PARTIAL) : p.look c' = some r := by
  unfold Cursor.addBuffer at hc
  split at hc
  next => cases hc
  next hf =>
    cases hc
    have hf : DataSource.final c = false := by
      change c.final = false
      simpa using hf
    induction h generalizing r with
    | eoi =>
      simp only [Prog.look, Option.some.injEq] at hl ⊢
      cases he : DataSource.empty c <;> simp only [he, hf, if_true, Bool.false_eq_true, if_false] at hl
      · rw [c.empty_feed he b f]; simpa using hl
      · exact absurd hl.symm hr
    | pass => exact hl
    | fail => exact hl
    | opt p => exact hl
    | charSymbol m =>
      simp only [Prog.look] at hl ⊢
      cases he : DataSource.empty c <;> simp only [he, hf, if_true, Bool.false_eq_true, if_false] at hl
      · rw [c.empty_feed he b f, c.next_feed he b f]; simpa using hl
      · exact absurd (Option.some.inj hl).symm hr
    | not _ ih =>
      simp only [Prog.look, Option.map_eq_some_iff] at hl ⊢
      obtain ⟨r0, hl, rfl⟩ := hl
      exact ⟨r0, ih hl (by rintro rfl; exact hr rfl), rfl⟩
    | lexeme _ ih => exact ih hl hr

/-- An answer of `peek` is the one that `consume` comes to. -/
theorem PeekForm.session {o} {p : Prog} (hp : PeekForm o p) {env dst st} {w : World Cursor Mem} {ops v}
    (h : Session Cursor.addBuffer env p dst st w ops v) {r r' m rest} (hl : p.look w.ds = some r)
    (hr : r ≠ .PARTIAL) (hv : v = .ok (r', m, rest)) : r' = r ∨ r' = .PARTIAL := by
  induction h with
  | nil => cases hv; exact .inr rfl
  | addBad => cases hv
  | add ha _ ih => exact ih (Cursor.look_feed hp ha hl hr) hv
  | error => cases hv
  | verdict he hn _ =>
    cases hv
    obtain ⟨_, n, he⟩ := he
    rcases hp.agrees hl he with h | ⟨_, h⟩
    · exact .inl h
    · exact .inr h
  | more he _ ih =>
    obtain ⟨_, n, he⟩ := he
    rcases hp.agrees hl he with h | ⟨rfl, _⟩
    · exact absurd h.symm hr
    · exact ih ((hp.look_optional _ _).trans hl) hv

/-- The parser of a pattern, without adapters. -/
theorem Req.needs_none (r : Req) {p : Pat} (ha : p.ATOMIC = true) (hc : p.FAILS_CLEANLY = true) :
    r.needsAtomic p = false ∧ r.needsClean p = false := by
  simp [Req.needsAtomic, Req.needsClean, ha, hc]

theorem peek_adapt {sk raw : Prog} {a c : Bool} :
    (adapt sk a c raw).peek.isSome = true ↔
      sk.isFail = true ∧ a = false ∧ c = false ∧ raw.peek.isSome = true := by
  unfold adapt
  cases sk.isFail <;> cases a <;> cases c <;> simp [Prog.peek]

/-- What has `peek`, and whether there is an optional part. -/
theorem peekForm_pat {p : Pat} (h : p.Peekable) (sk : Prog) (hs : sk.isFail = true) (r : Req) :
    ∃ o, PeekForm o (elabP sk r p) ∧ (o = true → p.AboutOptional) := by
  have key : ∀ raw, adapt (r.skipper sk) false false raw = raw := by
    intro raw
    have : (r.skipper sk).isFail = true := by unfold Req.skipper; split <;> simp_all [Prog.isFail]
    simp [adapt, this]
  induction h generalizing sk r with
  | eoi => exact ⟨false, by rw [elabP, key]; exact .eoi, nofun⟩
  | pass => exact ⟨false, by rw [elabP, key]; exact .pass, nofun⟩
  | fail => exact ⟨false, by rw [elabP, key]; exact .fail, nofun⟩
  | charSymbol m => exact ⟨false, by rw [elabP, key]; exact .charSymbol m, nofun⟩
  | opt p =>
    refine ⟨true, ?_, fun _ => .opt p⟩
    rw [elabP, (r.needs_none rfl rfl).1, (r.needs_none rfl rfl).2, key]
    exact .opt _
  | @not p _ ih =>
    obtain ⟨o, h, ho⟩ := ih sk hs { r.derive with ATOMIC := false, FAILS_CLEANLY := false } (by
      intro raw
      have : (Req.skipper { r.derive with ATOMIC := false, FAILS_CLEANLY := false } sk).isFail = true := by
        simp [Req.skipper, Req.derive, hs]
      simp [adapt, this])
    refine ⟨o, ?_, fun h => .not (ho h)⟩
    rw [elabP, (r.needs_none rfl rfl).1, (r.needs_none rfl rfl).2, key]
    exact .not h
  | @lexeme p _ ih =>
    obtain ⟨o, h, ho⟩ := ih .fail rfl (r.lower (.lexeme p)) (by
      intro raw
      have : (Req.skipper (r.lower (.lexeme p)) .fail).isFail = true := by unfold Req.skipper; split <;> rfl
      simp [adapt, this])
    refine ⟨o, ?_, fun h => .lexeme (ho h)⟩
    rw [elabP, (r.needs_none rfl rfl).1, (r.needs_none rfl rfl).2, key]
    exact .lexeme h

theorem peekable_of_peek : ∀ (p : Pat) (sk : Prog) (r : Req), (elabP sk r p).peek.isSome = true → p.Peekable
  | .eoi, _, _, _ => .eoi
  | .pass, _, _, _ => .pass
  | .fail, _, _, _ => .fail
  | .charSymbol m, _, _, _ => .charSymbol m
  | .opt p, _, _, _ => .opt p
  | .not p, sk, r, h => by
    simp only [elabP, peek_adapt, Prog.peek, Option.isSome_map] at h
    exact .not (peekable_of_peek p _ _ h.2.2.2)
  | .lexeme p, sk, r, h => by
    simp only [elabP, peek_adapt, Prog.peek] at h
    exact .lexeme (peekable_of_peek p _ _ h.2.2.2)
  | .char _, _, _, h => by simp [elabP, peek_adapt, Prog.peek] at h
  | .strLit _, _, _, h => by simp [elabP, peek_adapt, Prog.peek] at h
  | .symbol _, _, _, h => by simp [elabP, peek_adapt, Prog.peek] at h
  | .int _ _ _, _, _, h => by simp [elabP, peek_adapt, Prog.peek] at h
  | .uint _ _ _, _, _, h => by simp [elabP, peek_adapt, Prog.peek] at h
  | .seq _, _, _, h => by simp [elabP, peek_adapt, Prog.peek] at h
  | .alt _, _, _, h => by simp [elabP, peek_adapt, Prog.peek] at h
  | .rep _ _ _, _, _, h => by simp [elabP, peek_adapt, Prog.peek] at h
  | .discard _, _, _, h => by simp [elabP, peek_adapt, Prog.peek] at h
  | .bindDst _, _, _, h => by simp [elabP, peek_adapt, Prog.peek] at h
  | .construct _ _, _, _, h => by simp [elabP, peek_adapt, Prog.peek] at h
  | .action _ _, _, _, h => by simp [elabP, peek_adapt, Prog.peek] at h
  | .except _ _, _, _, h => by simp [elabP, peek_adapt, Prog.peek] at h
  | .list _ _, _, _, h => by simp [elabP, peek_adapt, Prog.peek] at h
  | .withSkipper _ _, _, _, h => by simp [elabP, peek_adapt, Prog.peek] at h
  | .recur _ _, _, _, h => by simp [elabP, peek_adapt, Prog.peek] at h

theorem no_peek_adapt {sk raw : Prog} {a c : Bool} (h : sk.isFail = false) : (adapt sk a c raw).peek = none := by
  simp [adapt, h, Prog.peek]

theorem no_peek_skipper {r : Req} (hr : r.recurChild = false) {sk : Prog} (h : sk.isFail = false) :
    (r.skipper sk).isFail = false := by
  simp [Req.skipper, hr, h]

/-- Under a skipper there is none. -/
theorem no_peek (p : Pat) {sk : Prog} (h : sk.isFail = false) {r : Req} (hr : r.recurChild = false) :
    (elabP sk r p).peek = none := by
  cases p <;> rw [elabP] <;> exact no_peek_adapt (no_peek_skipper hr h)

theorem isFail_adapt {a c : Bool} {raw : Prog} (h : raw.isFail = false) : (adapt .fail a c raw).isFail = false := by
  cases a <;> cases c <;> simp [adapt, Prog.isFail] <;> exact h

theorem isFail_elab {s : Pat} (hs : s ≠ .fail) : (elabP .fail SkipReqs s).isFail = false := by
  cases s with
  | fail => exact absurd rfl hs
  | _ => rw [elabP]; exact isFail_adapt rfl

theorem PeekForm.raw {o a c} {sk raw : Prog} (h : PeekForm o (adapt sk a c raw)) : PeekForm o raw := by
  unfold adapt at h
  generalize sk.isFail = b at h
  cases b <;> cases a <;> cases c <;> first | exact h | cases h

theorem PeekForm.aboutOptional : ∀ (p : Pat) {sk : Prog} {r : Req}, PeekForm true (elabP sk r p) →
    p.AboutOptional
  | .opt p, _, _, _ => .opt p
  | .not p, _, _, h => by
    rw [elabP] at h
    cases PeekForm.raw h with
    | not h => exact .not (PeekForm.aboutOptional p h)
  | .lexeme p, _, _, h => by
    rw [elabP] at h
    cases PeekForm.raw h with
    | lexeme h => exact .lexeme (PeekForm.aboutOptional p h)
  | .char _, _, _, h => by rw [elabP] at h; cases PeekForm.raw h
  | .strLit _, _, _, h => by rw [elabP] at h; cases PeekForm.raw h
  | .symbol _, _, _, h => by rw [elabP] at h; cases PeekForm.raw h
  | .int _ _ _, _, _, h => by rw [elabP] at h; cases PeekForm.raw h
  | .uint _ _ _, _, _, h => by rw [elabP] at h; cases PeekForm.raw h
  | .seq _, _, _, h => by rw [elabP] at h; cases PeekForm.raw h
  | .alt _, _, _, h => by rw [elabP] at h; cases PeekForm.raw h
  | .rep _ _ _, _, _, h => by rw [elabP] at h; cases PeekForm.raw h
  | .discard _, _, _, h => by rw [elabP] at h; cases PeekForm.raw h
  | .bindDst _, _, _, h => by rw [elabP] at h; cases PeekForm.raw h
  | .construct _ _, _, _, h => by rw [elabP] at h; cases PeekForm.raw h
  | .action _ _, _, _, h => by rw [elabP] at h; cases PeekForm.raw h
  | .except _ _, _, _, h => by rw [elabP] at h; cases PeekForm.raw h
  | .list _ _, _, _, h => by rw [elabP] at h; cases PeekForm.raw h
  | .withSkipper _ _, _, _, h => by rw [elabP] at h; cases PeekForm.raw h
  | .recur _ _, _, _, h => by rw [elabP] at h; cases PeekForm.raw h
  | .eoi, _, _, h => by rw [elabP] at h; cases PeekForm.raw h
  | .pass, _, _, h => by rw [elabP] at h; cases PeekForm.raw h
  | .fail, _, _, h => by rw [elabP] at h; cases PeekForm.raw h
  | .charSymbol _, _, _, h => by rw [elabP] at h; cases PeekForm.raw h

theorem PeekForm.isSome {o} {p : Prog} (h : PeekForm o p) : p.peek.isSome = true := by
  induction h with
  | not _ ih => simpa [Prog.peek] using ih
  | lexeme _ ih => exact ih
  | _ => rfl

theorem PeekForm.look_sim {o} {p : Prog} (h : PeekForm o p) {hs} {s : ContainerSeq} {c : Cursor}
    (hc : ContainerSeq.Sim hs s c) : p.look s = p.look c := by
  induction h with
  | eoi => simp only [Prog.look, hc.empty_eq, hc.final_eq]
  | charSymbol m => simp only [Prog.look, hc.empty_eq, hc.final_eq, hc.next_eq]
  | not _ ih => simp only [Prog.look, ih]
  | lexeme _ ih => exact ih
  | _ => rfl

end Abu
