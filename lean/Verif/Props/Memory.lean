import Verif.Proofs.NoTrace
import Verif.Proofs.Eval
/-
C30, C33: what parsers leave alone.
-/
namespace Abu

/-! ### C30 -/

/-- C30, for patterns in which lookahead operands do not write: whenever a parser of the items of
a repetition or list, or of the operand of an optional, that is anywhere inside the parser of a
pattern, is used and fails, all objects have the values they had before it was constructed.
`env.quiet` and `quiet`: no action writes through the bound destination. -/
theorem C30_failed_item_leaves_no_trace_partial {σ : Type} [DataSource σ] (env : Env) (p : Pat)
    (r : Req) (s : Option Pat) (sk P Q : Prog) (dst bnd : Ref) (w w' : World σ Mem)
    (he : env.quiet) (hp : p.quiet = true) (hl : p.lookaheadsSilent = true)
    (hs : SkipperOf s sk) (hsq : ∀ x, s = some x → x.quiet = true ∧ x.lookaheadsSilent = true)
    (hP : Inside P (elabP sk r p)) (hQ : Iterated Q P)
    (hu : Used env Q dst bnd w .FAILURE w') : w.mem.Extends w'.mem := by
  have h1 : sk.quiet = true ∧ sk.itemsAf = true := by
    cases hs with
    | none => exact ⟨rfl, rfl⟩
    | some x =>
      obtain ⟨h1, h2⟩ := hsq x rfl
      exact ⟨elab_quiet x h1 rfl, itemsAf_elab x h2 rfl⟩
  have hi := hP.itemsAf (itemsAf_elab p hl h1.2)
  have hq := hP.quiet (elab_quiet p hp h1.1)
  exact hu.extends_af (hQ.af hi) (hQ.quiet hq) he

/-- C30 is false in general: the destination of a lookahead operand is the real one, so in
`-(!uint_)` on "5" the operand fails after it has written 5. -/
theorem C30_refuted : Parses (fun _ => none) (.opt (.not uint_)) (.at 0 [] .unsigned)
    ⟨[.num 7], []⟩ [53] (.ok (.SUCCESS, ⟨[.num 5], []⟩, [53])) := parses_of_parseN (n := 12) rfl

/-- `*(uint_ >> ',')` into a vector, second item of "1,2": the item fails having consumed "2". -/
example : ∃ P Q, Inside P (topParser (.rep 0 0 (.seq [uint_, litC 44]))) ∧ Iterated Q P ∧
    Used (fun _ => none) Q (.at 0 [] (.coll .unsigned)) .nil
      (⟨⟨[49, 44, 50], 2, [], true⟩, ⟨[.coll [.num 1]], []⟩⟩ : World Cursor Mem) .FAILURE
      ⟨⟨[49, 44, 50], 2, [], true⟩, ⟨[.coll [.num 1], .num 2], []⟩⟩ :=
  ⟨_, _, .self, .rep, _, _, ⟨[49, 44, 50], 2, [2], true⟩, rfl, .last ⟨by simp, 12, rfl⟩ (by simp)⟩

/-! ### C33 -/

/-- C33, for lookahead of operands that do not write: literals, `eoi`, `pass`, `fail`,
`discard(p)` and `!p` (all of them `silent`), in any context, change no object, whether they
succeed or fail. -/
theorem C33_valueless_patterns_write_nothing_partial {σ : Type} [DataSource σ] (env : Env) (p : Pat)
    (r : Req) (s : Option Pat) (sk : Prog) (dst bnd : Ref) (w w' : World σ Mem) (res : Res)
    (he : env.quiet) (hp : p.quiet = true) (hsil : p.silent r.ATOMIC = true)
    (hs : SkipperOf s sk) (hsq : ∀ x, s = some x → x.quiet = true)
    (hu : Used env (elabP sk r p) dst bnd w res w') : w.mem.Extends w'.mem := by
  have h1 : sk.quiet = true := by
    cases hs with
    | none => rfl
    | some x => exact elab_quiet x (hsq x rfl) rfl
  exact hu.extends_silent (silent_elab p hsil) (elab_quiet p hp h1) he

/-- C33: the patterns the claim lists. -/
theorem C33_covers (c : Ch) (s : List Ch) (p q : Pat) (hq : q.silent false = true) (a : Bool) :
    (litC c).silent a = true ∧ (Pat.strLit s).silent a = true ∧ Pat.eoi.silent a = true ∧
      Pat.pass.silent a = true ∧ Pat.fail.silent a = true ∧ (Pat.discard p).silent a = true ∧
      (Pat.not q).silent a = true :=
  ⟨rfl, rfl, rfl, rfl, rfl, rfl, hq⟩

/-- C33, for `parse`. -/
theorem C33_parse_partial (env : Env) (p : Pat) (dst : Ref) (m m' : Mem) (t rest : List Ch)
    (res : Res) (he : env.quiet) (hp : p.quiet = true) (hsil : p.silent false = true)
    (h : Parses env p dst m t (.ok (res, m', rest))) : m.Extends m' := by
  intro o v hv
  rw [← look_nil] at hv ⊢
  exact h.uses (misses_region o []) (misses_keeps o [] v) (.inr (silent_elab p hsil))
    (.inr ⟨elab_quiet p hp rfl, he.prog⟩) hv

/-- C33, for a parser object, at any time. -/
theorem C33_parser_object_partial (env : Env) (p : Pat) (dst : Ref) (m m' : Mem) (ops : List SOp)
    (rest : List Ch) (res : Res) (he : env.quiet) (hp : p.quiet = true)
    (hsil : p.silent false = true)
    (h : MakeParserRun env p dst m ops (.ok (res, m', rest))) : m.Extends m' := by
  intro o v hv
  rw [← look_nil] at hv ⊢
  exact h.uses (misses_region o []) (misses_keeps o [] v) (.inr (silent_elab p hsil))
    (.inr ⟨elab_quiet p hp rfl, he.prog⟩) hv

/-- C33 is false in general: `!uint_` succeeds on "abc" and sets the destination to 0. -/
theorem C33_refuted : Parses (fun _ => none) (.not uint_) (.at 0 [] .unsigned)
    ⟨[.num 7], []⟩ [97, 98, 99] (.ok (.SUCCESS, ⟨[.num 0], []⟩, [97, 98, 99])) :=
  parses_of_parseN (n := 12) rfl

/-- `!(lit("ab") >> discard(int_))` on "ab?" with a vector as destination. -/
def exSilent : Pat := .not (.seq [.strLit [97, 98], .discard int_])
example : exSilent.silent false = true := by decide
example : Parses (fun _ => none) exSilent (.at 0 [] (.coll .int)) ⟨[.coll [.num 1]], []⟩ [97, 98, 63]
    (.ok (.SUCCESS, ⟨[.coll [.num 1]], []⟩, [97, 98, 63])) := parses_of_parseN (n := 12) rfl

end Abu
