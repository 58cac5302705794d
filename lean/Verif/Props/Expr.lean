import Verif.Proofs.Reading
import Verif.Props.Grammar
/-
C60: expressions of literals, character sets, patterns and operators.
-/
namespace Abu

theorem CExpr.pattern_ok {e : CExpr} {p : Pat} (h : e.pattern = .ok p) :
    ∃ v, e.eval = .ok v ∧ v.toPat = some p := by
  unfold CExpr.pattern at h
  cases hv : e.eval with
  | error x => rw [hv] at h; cases h
  | ok v =>
    rw [hv] at h
    simp only [bind, Except.bind] at h
    cases hp : v.toPat with
    | none => rw [hp] at h; cases h
    | some q => rw [hp] at h; cases h; exact ⟨v, rfl, hp⟩

theorem CExpr.says_same {env : Env} {t : List Ch} {e : CExpr} {p : Pat} (ht : ∀ c ∈ t, IsChar c)
    (hl : e.Legal) (hn : e.noPointer = true) (h : e.pattern = .ok p) : SaysSame env t p e := by
  obtain ⟨v, hv, hp⟩ := CExpr.pattern_ok h
  have hk := eval_kind e hn hv
  obtain ⟨k, hk'⟩ : ∃ k, v.kind = some k := by
    cases v <;> first | (cases hp; done) | exact ⟨_, rfl⟩
  obtain ⟨v', hv', hs⟩ := eval_stands (env := env) ht e hl (hk.trans hk')
  rw [hv] at hv'; cases hv'
  exact hs.pat p hp

/-- C60 (partial: no operator on a string literal alone): the pattern that `parse` gets matches what
the expression says, each literal read as itself and each operator as documented, whatever the
grouping. -/
theorem C60_grammar_as_written_partial (env : Env) (e : CExpr) (p : Pat) (t : List Ch)
    (ht : ∀ c ∈ t, IsChar c) (hl : e.Legal) (hn : e.noPointer = true) (h : e.pattern = .ok p)
    (o : Option (List Ch)) : PegRest env p t o ↔ ReadAsRest env e t o := by
  have hs := CExpr.says_same (env := env) ht hl hn h
  cases o with
  | none => exact hs 0 none
  | some rest => simp only [PegRest, ReadAsRest, hs 0 _]

/-- C60 (partial: also, tidy patterns): and so does the parser. -/
theorem C60_parses_as_written_partial (env : Env) (e : CExpr) (p : Pat) (t : List Ch)
    (ht : ∀ c ∈ t, IsChar c) (hl : e.Legal) (hn : e.noPointer = true) (h : e.pattern = .ok p)
    (els elf : Stale) (henv : env.tidy false els elf)
    (hp : p.tidy false els elf false .any .any = true) (o : Option (List Ch)) :
    (Recognises env p t o → ReadAsRest env e t o) ∧ (ReadAsRest env e t o → Yields env p t o) :=
  ⟨fun hr => (C60_grammar_as_written_partial env e p t ht hl hn h o).1 (recognises_peg henv hp hr),
    fun hr => peg_yields henv hp ((C60_grammar_as_written_partial env e p t ht hl hn h o).2 hr)⟩

/-- C60 (partial: no operator on a string literal alone): what compiles is exactly what the rules on
literals allow: every operator of patterns has a pattern among its operands. -/
theorem C60_what_compiles_partial (e : CExpr) (hl : e.Legal) (hn : e.noPointer = true) :
    (∃ p, e.pattern = .ok p) ↔ ∃ k, e.kind = some k := by
  constructor
  · rintro ⟨p, h⟩
    obtain ⟨v, hv, hp⟩ := CExpr.pattern_ok h
    rw [eval_kind e hn hv]
    cases v <;> first | (cases hp; done) | exact ⟨_, rfl⟩
  · rintro ⟨k, hk⟩
    obtain ⟨v, hv, hs⟩ := eval_stands (env := fun _ => none) (t := []) (by simp) e hl hk
    obtain ⟨p, hp⟩ := CVal.toPat_of_kind (hs.kind.trans hk)
    exact ⟨p, by simp only [CExpr.pattern, hv, bind, Except.bind, hp]⟩

/-- `*"ab" >> eoi`, which is `lit('a') >> eoi`. -/
def exPointer : CExpr := .shr (.star (.str [97, 98])) (.pat .eoi)

/-- C60 is false in general: `*"ab" >> eoi` compiles, reads as a repetition of "ab", and does not
match "abab". -/
theorem C60_refuted : exPointer.pattern = .ok (.seq [litC 97, .eoi]) ∧
    ReadAsRest (fun _ => none) exPointer [97, 98, 97, 98] (some []) ∧
    Recognises (fun _ => none) (.seq [litC 97, .eoi]) [97, 98, 97, 98] none := by
  refine ⟨rfl, ⟨4, ?_, rfl⟩, ⟨.nil, ⟨[], []⟩, .FAILURE, _, _, parses_of_parseN (n := 12) rfl, .no⟩⟩
  refine .shr (.star ?_) (.pat (.eoi (by simp)))
  refine .repMore (j := 2) (by simp) (.str (by decide)) ?_
  refine .repMore (j := 4) (by simp) (.str (by decide)) ?_
  exact .repStop (.strNo (by decide))

/-- Nor does `+"ab" >> eoi`: it is `lit("ab") >> eoi`. -/
theorem C60_refuted_plus : (CExpr.shr (.plus (.str [97, 98])) (.pat .eoi)).pattern =
      .ok (.seq [.strLit [97, 98], .eoi]) ∧
    ReadAsRest (fun _ => none) (.shr (.plus (.str [97, 98])) (.pat .eoi)) [97, 98, 97, 98] (some []) ∧
    Recognises (fun _ => none) (.seq [.strLit [97, 98], .eoi]) [97, 98, 97, 98] none := by
  refine ⟨rfl, ⟨4, ?_, rfl⟩, ⟨.nil, ⟨[], []⟩, .FAILURE, _, _, parses_of_parseN (n := 12) rfl, .no⟩⟩
  refine .shr (.plus ?_) (.pat (.eoi (by simp)))
  refine .repMore (j := 2) (by simp) (.str (by decide)) ?_
  refine .repMore (j := 4) (by simp) (.str (by decide)) ?_
  exact .repStop (.strNo (by decide))

/-- And `"ab" - 'c' >> eoi` is undefined. -/
theorem C60_refuted_minus : (CExpr.shr (.minus (.str [97, 98]) (.chr 99)) (.pat .eoi)).pattern =
    .error .ubDangling := rfl

/-! ### Examples -/

/-- `'a' >> *(set("xy") | '_' | "z") ...` -/
def exExpr : CExpr :=
  .shr (.chr 97) (.bar (.star (.discard (.bar (.bar (.set (setOfCString [120, 121, 0])) (.chr 95))
    (.str [122])))) (.str [98, 99]))

example : exExpr.kind = some .pat ∧ exExpr.noPointer = true := ⟨rfl, rfl⟩
example : exExpr.Legal := by
  simp only [exExpr, CExpr.Legal, IsChar]; decide
example : ∃ p, exExpr.pattern = .ok p ∧ p.tidy false .none .none false .any .any = true :=
  ⟨_, rfl, by decide +kernel⟩

/-- `'a' >> 'b' >> eoi` shifts an integer and does not compile; `'a' >> (eoi >> 'b')` does. -/
example : (CExpr.shr (.shr (.chr 97) (.chr 98)) (.pat .eoi)).pattern = .error .noCompile := rfl
example : (CExpr.shr (.chr 97) (.shr (.pat .eoi) (.chr 98))).pattern =
    .ok (.seq [litC 97, .eoi, litC 98]) := rfl
/-- A character set and a pattern do not mix: `any | eoi`. -/
example : (CExpr.bar (.set .any) (.pat .eoi)).pattern = .error .noCompile := rfl
/-- A string is a set of characters next to a set, a literal next to a pattern. -/
example : ReadAs (fun _ => none) [98] (.bar (.set (.single 97)) (.str [99, 98])) 0 (some 1) :=
  .set rfl rfl (by simp [CExpr.has])
example : ReadAs (fun _ => none) [98] (.bar (.pat (charP 97)) (.str [99, 98])) 0 none :=
  .barNo (by decide) (.pat (.charNo fun c hc => by cases hc; rfl)) (.strNo (by decide))

end Abu
