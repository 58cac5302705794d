import Verif.Proofs.Static
import Verif.Props.Terminate
import Verif.Props.Grammar
/-
C37: the compile-time check of skippers.
-/
namespace Abu

/-- C37: if the skipper `s` passes the compile-time checks of the skip adapter, and none of its
sub-patterns that have to consume is one of those that accept the requirement without meeting it
(`Pat.tracked`), then every successful application of `s` consumes input. -/
theorem C37_skipper_consumes_partial (env : Env) (consumes : Nat → Bool) (s : Pat)
    (hacc : s.accepted SkipReqs = true) (htr : s.tracked consumes = true)
    (henv : env.accepted)
    (hrec : ∀ id q, env id = some q → consumes id = true → q.eats consumes = true)
    (dst bnd : Ref) (w w' : World SingleForward Mem) (hw : w.ds.Valid)
    (h : Applies env (elabP .fail SkipReqs s) dst bnd w .SUCCESS w') :
    w.ds.current < w'.ds.current := by
  have hcomp := comp_accepted (r := SkipReqs) s .fail hacc
  obtain ⟨_, _, hb⟩ := h.big hw hcomp henv.comp
  obtain ⟨L, _, he⟩ := low_ended henv.comp hrec hb hcomp rfl
    (.inr ⟨rfl, .new (Nat.le_refl _) hw.2.1⟩)
  refine he.ate rfl ?_
  rw [elabP_eats]
  exact eats_of_accepted consumes s rfl hacc htr

/-- C37: with such a skipper parsing ends on every text, whatever `p` (whose own loops consume). -/
theorem C37_skipping_terminates_partial (env : Env) (consumes : Nat → Bool) (p s : Pat)
    (hacc : s.accepted SkipReqs = true) (htr : s.tracked consumes = true)
    (hs : s.loopsEat consumes = true) (hp : p.loopsEat consumes = true)
    (hset : ∀ a ∈ p.refs ++ s.refs, env a ≠ none) (henv : env.LoopsEat consumes)
    (hleft : WellFounded (LeftCalls env consumes)) (dst : Ref) (m : Mem) (t : List Ch) :
    (∃ r m' rest, r ≠ .PARTIAL ∧ Parses env (.withSkipper p s) dst m t (.ok (r, m', rest))) ∨
    ∃ e, e.ofMem = true ∧ Parses env (.withSkipper p s) dst m t (.error e) := by
  refine C38_parse_terminates env consumes (.withSkipper p s) ?_ hset henv hleft dst m t
  rw [Pat.loopsEat, hs, hp, eats_of_accepted consumes s rfl hacc htr]
  rfl

/-- `lit("//") >> *(char_ - '\n') >> '\n' | ' '`, the usual skipper for comments and blanks. -/
def commentSkipper : Pat :=
  .alt [.seq [.strLit [47, 47], .rep 0 0 (.except (.char .any) (.char (.single 10))), .char (.single 10)],
    .char (.single 32)]

example : commentSkipper.accepted SkipReqs = true ∧ commentSkipper.tracked (fun _ => false) = true ∧
    commentSkipper.loopsEat (fun _ => false) = true := ⟨rfl, rfl, rfl⟩

example : ∃ w', Applies (fun _ => none) (elabP .fail SkipReqs commentSkipper) .nil .nil
    ⟨SingleForward.make [47, 47, 97, 10, 98], ⟨[], []⟩⟩ .SUCCESS w' ∧ w'.ds.current = 4 :=
  ⟨_, applies_of_run (n := 20) rfl rfl, rfl⟩

/-- The checks do reject `*p` and `pass` as skippers. -/
example : (Pat.rep 0 0 (.char (.single 32))).accepted SkipReqs = false ∧
    Pat.pass.accepted SkipReqs = false ∧
    (Pat.alt [.char (.single 32), .rep 1 0 .pass]).accepted SkipReqs = false := ⟨rfl, rfl, rfl⟩

/-- C37 is false: the skipper `-lit('#')` passes the compile-time checks, and then parsing `a` never
ends: it succeeds without consuming. -/
theorem C37_refuted : ∃ s : Pat,
    (Pat.withSkipper (.char (.single 97)) s).accepted DefaultReqs = true ∧
    ∀ v, ¬ Parses (fun _ => none) (.withSkipper (.char (.single 97)) s) .nil ⟨[], []⟩ [97] v := by
  refine ⟨.opt (litC 35), rfl, never_with_skipper rfl
    (fun w => ∃ S, w = ⟨⟨[97], 0, 0 :: S, true⟩, ⟨[], []⟩⟩) rfl ⟨[], rfl⟩ ?_⟩
  rintro n _ ⟨S, rfl⟩
  match n with
  | 0 => exact .inl rfl
  | 1 => exact .inl rfl
  | 2 => exact .inl rfl
  | n + 3 => exact .inr ⟨_, _, _, rfl, rfl, S, rfl⟩

/-- The same for the skipper `eoi`, at the end of the text. -/
theorem C37_refuted_eoi :
    (Pat.withSkipper (.char (.single 97)) .eoi).accepted DefaultReqs = true ∧
    ∀ v, ¬ Parses (fun _ => none) (.withSkipper (.char (.single 97)) .eoi) .nil ⟨[], []⟩ [] v := by
  refine ⟨rfl, never_with_skipper rfl (fun w => w = ⟨⟨[], 0, [], true⟩, ⟨[], []⟩⟩) rfl rfl ?_⟩
  rintro n _ rfl
  match n with
  | 0 => exact .inl rfl
  | n + 1 => exact .inr ⟨_, _, _, rfl, rfl, rfl⟩

/-- The same for the skipper `!char_('#')`. -/
theorem C37_refuted_not :
    (Pat.withSkipper (.char (.single 97)) (.not (charP 35))).accepted DefaultReqs = true ∧
    ∀ v, ¬ Parses (fun _ => none) (.withSkipper (.char (.single 97)) (.not (charP 35))) .nil
      ⟨[], []⟩ [97] v := by
  refine ⟨rfl, never_with_skipper rfl
    (fun w => ∃ S, w = ⟨⟨[97], 0, 0 :: S, true⟩, ⟨[], []⟩⟩) rfl ⟨[], rfl⟩ ?_⟩
  rintro n _ ⟨S, rfl⟩
  match n with
  | 0 => exact .inl rfl
  | 1 => exact .inl rfl
  | n + 2 => exact .inr ⟨_, _, _, rfl, rfl, S, rfl⟩

/-- The same for the skipper `char_('#') % char_(',')`, which matches the empty list. -/
theorem C37_refuted_list :
    (Pat.withSkipper (.char (.single 97)) (.list (charP 35) (charP 44))).accepted DefaultReqs = true ∧
    ∀ v, ¬ Parses (fun _ => none) (.withSkipper (.char (.single 97)) (.list (charP 35) (charP 44))) .nil
      ⟨[], []⟩ [97] v := by
  refine ⟨rfl, never_with_skipper rfl
    (fun w => ∃ S, w = ⟨⟨[97], 0, 0 :: S, true⟩, ⟨[], []⟩⟩) rfl ⟨[], rfl⟩ ?_⟩
  rintro n _ ⟨S, rfl⟩
  match n with
  | 0 => exact .inl rfl
  | 1 => exact .inl rfl
  | n + 2 => exact .inr ⟨_, _, _, rfl, rfl, S, rfl⟩

/-- The same for the skipper `*char_(' ') >> *char_('#')`: the requirement is not handed down to the
children of a sequence. -/
theorem C37_refuted_sequence :
    (Pat.withSkipper (.char (.single 97)) (.seq [.rep 0 0 (charP 32), .rep 0 0 (charP 35)])).accepted
      DefaultReqs = true ∧
    ∀ v, ¬ Parses (fun _ => none)
      (.withSkipper (.char (.single 97)) (.seq [.rep 0 0 (charP 32), .rep 0 0 (charP 35)])) .nil
      ⟨[], []⟩ [97] v := by
  refine ⟨rfl, never_with_skipper rfl
    (fun w => ∃ S, w = ⟨⟨[97], 0, 0 :: S, true⟩, ⟨[], []⟩⟩) rfl ⟨[], rfl⟩ ?_⟩
  rintro n _ ⟨S, rfl⟩
  match n with
  | 0 => exact .inl rfl
  | 1 => exact .inl rfl
  | 2 => exact .inl rfl
  | 3 => exact .inl rfl
  | 4 => exact .inl rfl
  | n + 5 => exact .inr ⟨_, _, _, rfl, rfl, S, rfl⟩

/-- The same for a skipper that is a symbol table keyed by characters: it never consumes. -/
theorem C37_refuted_char_symbol :
    (Pat.withSkipper (.char (.single 97)) (.charSymbol [(35, .nil)])).accepted DefaultReqs = true ∧
    ∀ v, ¬ Parses (fun _ => none) (.withSkipper (.char (.single 97)) (.charSymbol [(35, .nil)])) .nil
      ⟨[], []⟩ [35, 97] v := by
  refine ⟨rfl, never_with_skipper rfl (fun w => w = ⟨⟨[35, 97], 0, [], true⟩, ⟨[], []⟩⟩) rfl rfl ?_⟩
  rintro n _ rfl
  match n with
  | 0 => exact .inl rfl
  | n + 1 => exact .inr ⟨_, _, _, rfl, rfl, rfl⟩

end Abu
