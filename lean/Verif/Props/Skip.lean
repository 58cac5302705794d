import Verif.Proofs.Skipping
import Verif.Proofs.PegEval
import Verif.Props.Skipper
/-
C36: apply_skipper.
-/
namespace Abu

/-- C36 (partial: tidy patterns, skippers whose parser creates no rollback point when it is
constructed): the verdict of `apply_skipper(p, s)` is the one the grammar gives for `p` with
`discard(*s)` written before it and before each of its sub-patterns outside `lexeme`. The unread
text is the same up to skippable text at its start. -/
theorem C36_skipper_is_prefixing_partial (env : Env) (p s : Pat) (els elf : Stale)
    (henv : env.tidy true els elf) (hp : p.tidy true els elf false .any .any = true)
    (hs : s.tidy false els elf true .none .none = true) (hm : s.noMark true = true)
    (t : List Ch)
    (hskip : ∀ rest, rest <:+ t → ∃ rest', PegRest env (.rep 0 0 s) rest (some rest'))
    (o : Option (List Ch)) (h : Recognises env (.withSkipper p s) t o) :
    ∃ o', PegRest (spacedEnv s env) (spaced s p) t o' ∧ UpToSkipping env s o o' := by
  obtain ⟨N, hN⟩ := skip_function hskip
  obtain ⟨dst, m, r, m', rest, h, hf⟩ := h
  obtain ⟨i', S', rfl, ho⟩ := ghost_skip henv hs hm hN hp h.ghost_id
  cases ho with
  | @ok j _ _ a b c =>
    cases hf
    exact ⟨some (t.drop j), ⟨j, (spaced_iff hN).2 a, rfl⟩, up_to hN b⟩
  | no a b c => cases hf; exact ⟨none, (spaced_iff hN).2 a, .none⟩

/-- C36, conversely: what the grammar says of the pattern with the skipping written out is what
every parse with the skipper recognises. -/
theorem C36_prefixing_is_skipper_partial (env : Env) (p s : Pat) (els elf : Stale)
    (henv : env.tidy true els elf) (hp : p.tidy true els elf false .any .any = true)
    (hs : s.tidy false els elf true .none .none = true) (hm : s.noMark true = true)
    (t : List Ch)
    (hskip : ∀ rest, rest <:+ t → ∃ rest', PegRest env (.rep 0 0 s) rest (some rest'))
    (o' : Option (List Ch)) (h : PegRest (spacedEnv s env) (spaced s p) t o') :
    ∃ o, Yields env (.withSkipper p s) t o ∧ UpToSkipping env s o o' := by
  obtain ⟨N, hN⟩ := skip_function hskip
  have hpn : ∃ x, PegN env t N p (N 0) x ∧ o' = x.map t.drop := by
    cases o' with
    | none => exact ⟨none, (spaced_iff hN).1 h, rfl⟩
    | some rest => obtain ⟨j, h, rfl⟩ := h; exact ⟨some j, (spaced_iff hN).1 h, rfl⟩
  obtain ⟨x, hx, rfl⟩ := hpn
  obtain ⟨r, rest, hg⟩ := skip_ghost henv hs hm hN hp hx
  obtain ⟨i', S', rfl, ho⟩ := ghost_skip henv hs hm hN hp hg
  have : ∃ o, Fits o r (t.drop i') ∧ UpToSkipping env s o (x.map t.drop) := by
    cases ho with
    | ok a b c => cases a.unique hx; exact ⟨_, .ok, up_to hN b⟩
    | no a b c => cases a.unique hx; exact ⟨_, .no, .none⟩
  obtain ⟨o, hf, hu⟩ := this
  refine ⟨o, fun dst m => ?_, hu⟩
  rcases hg.real_id dst m with ⟨m', h⟩ | ⟨e, he, h⟩
  · exact .inl ⟨r, m', _, h, hf⟩
  · exact .inr ⟨e, Err.ofDestination_of he, h⟩

/-- C36: the hypothesis on `*s` holds of every skipper that consumes and whose own loops consume. -/
theorem C36_skipping_ends (env : Env) (consumes : Nat → Bool) (s : Pat) (els elf : Stale)
    (henv : env.tidy true els elf) (hs : s.tidy false els elf true .none .none = true)
    (heats : s.eats consumes = true) (hloops : s.loopsEat consumes = true)
    (hset : ∀ a ∈ s.refs, env a ≠ none) (hle : env.LoopsEat consumes)
    (hleft : WellFounded (LeftCalls env consumes)) (t : List Ch) :
    ∃ rest, PegRest env (.rep 0 0 s) t (some rest) := by
  have hl : (Pat.rep 0 0 s).loopsEat consumes = true := by
    rw [Pat.loopsEat, heats, hloops]; rfl
  obtain ⟨r, rest, hg⟩ := ghost_halts hle hleft ⟨hl, hset⟩ t
  have hrep : (Pat.rep 0 0 s).tidy false els elf false .any .any = true :=
    tidy_mono s (fun h => h) rfl rfl hs
  obtain ⟨o, ho, _⟩ := ghost_peg henv.unskipped hrep hg
  obtain ⟨k, rfl, _⟩ := ho.rep_stopped rfl
  exact ⟨_, k, ho, rfl⟩

/-- `' ' | lit("//") >> *(char_ - '\n') >> '\n'` -/
def blankSkipper : Pat :=
  .alt [.char (.single 32),
    .seq [.strLit [47, 47], .rep 0 0 (.except (.char .any) (.char (.single 10))), .char (.single 10)]]

/-- `item % ','` with `item := '(' >> item % ',' >> ')' | lexeme(+digit)` -/
def listItem : Pat :=
  .alt [.seq [litC 40, .list (.recur 0 false) (litC 44), litC 41],
    .lexeme (.rep 1 0 (.char (.range 48 57)))]
def listEnv : Env := fun id => if id = 0 then some listItem else none
def listTop : Pat := .seq [.list (.recur 0 false) (litC 44), .eoi]

/-- The hypotheses hold of a recursive grammar with a `lexeme` and a skipper for blanks and comments. -/
example : listEnv.tidy true .none .none ∧ listTop.tidy true .none .none false .any .any = true ∧
    blankSkipper.tidy false .none .none true .none .none = true ∧ blankSkipper.noMark true = true := by
  refine ⟨?_, by decide, by decide, by decide⟩
  intro id q h
  unfold listEnv at h
  split at h
  · cases h; decide
  · cases h

example : blankSkipper.eats (fun _ => true) = true ∧ blankSkipper.loopsEat (fun _ => true) = true ∧
    (∀ a ∈ blankSkipper.refs, listEnv a ≠ none) ∧ listEnv.LoopsEat (fun _ => true) ∧
    WellFounded (LeftCalls listEnv (fun _ => true)) := by
  refine ⟨rfl, rfl, by decide, ⟨?_, ?_, ?_⟩, ⟨fun b => ⟨b, ?_⟩⟩⟩
  · intro id q h
    unfold listEnv at h
    split at h
    · cases h; rfl
    · cases h
  · intro id q h _
    unfold listEnv at h
    split at h
    · cases h; rfl
    · cases h
  · intro id q h a ha
    unfold listEnv at h
    split at h
    · cases h
      have : a = 0 := by simpa [listItem, Pat.refs, Pat.refsAll, litC, charP] using ha
      subst this; simp [listEnv]
    · cases h
  · rintro a ⟨q, h, ha⟩
    unfold listEnv at h
    split at h
    · cases h; simp [listItem, Pat.heads, Pat.headsAll, Pat.headsSeq, Pat.eats, litC, charP] at ha
    · cases h

/-- On ` (1 , 23)// x\n, 4 ` -/
example : Recognises listEnv (.withSkipper listTop blankSkipper)
    [32, 40, 49, 32, 44, 32, 50, 51, 41, 47, 47, 32, 120, 10, 44, 32, 52, 32] (some []) :=
  ⟨.nil, ⟨[], []⟩, .SUCCESS, _, _, parses_of_parseN (n := 60) rfl, .ok⟩

/-- C36 is false: with the skipper `lit("#")` the pattern `char_('a') >> char_('b')` does not match
"#a#b". The clean failure adapter of the skipper pops rollback points of the pattern. -/
theorem C36_refuted :
    (Pat.withSkipper (.seq [charP 97, charP 98]) (.discard (.strLit [35]))).accepted DefaultReqs = true ∧
    PegRest (spacedEnv (.discard (.strLit [35])) noEnv)
      (spaced (.discard (.strLit [35])) (.seq [charP 97, charP 98])) [35, 97, 35, 98] (some []) ∧
    Recognises noEnv (.withSkipper (.seq [charP 97, charP 98]) (.discard (.strLit [35])))
      [35, 97, 35, 98] none :=
  ⟨rfl, ⟨4, peg_of_eval (n := 20) rfl, rfl⟩,
    ⟨.nil, ⟨[], []⟩, .FAILURE, _, _, parses_of_parseN (n := 20) rfl, .no⟩⟩

/-- The same with the usual skipper for comments and blanks, `a >> b` on "//\na b": only skippers
whose first alternative is a single character work. -/
theorem C36_refuted_comment :
    (Pat.withSkipper (.seq [charP 97, charP 98]) commentSkipper).accepted DefaultReqs = true ∧
    PegRest (spacedEnv commentSkipper noEnv) (spaced commentSkipper (.seq [charP 97, charP 98]))
      [47, 47, 10, 97, 32, 98] (some []) ∧
    Recognises noEnv (.withSkipper (.seq [charP 97, charP 98]) commentSkipper)
      [47, 47, 10, 97, 32, 98] none :=
  ⟨rfl, ⟨6, peg_of_eval (n := 30) rfl, rfl⟩,
    ⟨.nil, ⟨[], []⟩, .FAILURE, _, _, parses_of_parseN (n := 30) rfl, .no⟩⟩

/-- With the skipper `' '`, `lexeme(-char_('a') >> char_('b'))` does not match " b": the rollback
point of the optional is taken before skipping, and rolling back to it makes the blank part of the
lexeme. -/
theorem C36_refuted_lexeme :
    PegRest (spacedEnv (charP 32) noEnv)
      (spaced (charP 32) (.lexeme (.seq [.opt (charP 97), charP 98]))) [32, 98] (some []) ∧
    Recognises noEnv (.withSkipper (.lexeme (.seq [.opt (charP 97), charP 98])) (charP 32))
      [32, 98] none :=
  ⟨⟨2, peg_of_eval (n := 20) rfl, rfl⟩,
    ⟨.nil, ⟨[], []⟩, .FAILURE, _, _, parses_of_parseN (n := 20) rfl, .no⟩⟩

/-- "Nowhere else" holds only up to the end of the match: after `*char_('a')` with the skipper `' '`
the blanks that follow are gone, though no sub-pattern matched behind them. -/
theorem C36_trailing_skipped :
    PegRest (spacedEnv (charP 32) noEnv) (spaced (charP 32) (.rep 0 0 (charP 97))) [97, 32, 98]
      (some [32, 98]) ∧
    Recognises noEnv (.withSkipper (.rep 0 0 (charP 97)) (charP 32)) [97, 32, 98] (some [98]) :=
  ⟨⟨1, peg_of_eval (n := 20) rfl, rfl⟩,
    ⟨.nil, ⟨[], []⟩, .SUCCESS, _, _, parses_of_parseN (n := 20) rfl, .ok⟩⟩

end Abu
