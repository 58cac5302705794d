import Verif.Model.Factory
/-
The compile-time checks of the library: `static_assert`s that fire when a parser class is
instantiated. Modelled: pass.h:20, repeat.h:21 (all under /repo/include/abulafia/parsers/coroutine)
and, under /repo/include/abulafia, patterns/leaf/numeric/{int,uint}.h:21-22,
parsers/helpers/digit_values.h:25-26; `Pat.sequencesCompile` has the calls of `dst_behavior()` in
sequences, with unary/bind_dst.h:49-51. Not modelled: the check on destination types
nary/sequence.h:58 and the ones that only concern the shape of a template
argument (char_set/or.h, char_set/not.h, patterns/traits.h:58, recur.h:49), which hold for every `Pat`.
-/
namespace Abu

/-- patterns/leaf/numeric/int.h:21-22, uint.h:21-22, parsers/helpers/digit_values.h:25-26 -/
def digitsAccepted (base min max : Nat) : Bool :=
  decide (2 ≤ base) && decide (base ≤ 35) && decide (1 ≤ min) && (decide (min ≤ max) || max == 0)

mutual
/-- Does `Parser<CTX_T, DST_T, REQ_T, PAT_T>` compile, as far as the library's `static_assert`s
go? The requirements are handed down as in `elabP`. The operand of a `Recur` is instantiated under
`RecurChildReqs` (recur.h:28), see `Env.accepted`. -/
def Pat.accepted (r : Req) : Pat → Bool
  | .char _ => true
  | .charSymbol _ => true
  | .strLit _ => true
  | .symbol _ => true
  | .int b mn mx => digitsAccepted b mn mx
  | .uint b mn mx => digitsAccepted b mn mx
  | .eoi => true
  -- leaf/pass.h:20
  | .pass => !r.CONSUMES
  | .fail => true
  -- nary/sequence.h:100-102; without children `std::get<0>` does not compile (119-124)
  | .seq ps => !ps.isEmpty && Pat.allAccepted ⟨false, false, false, false⟩ ps
  -- nary/alternative.h:54-57; without children `std::get<0>` does not compile (66-69)
  | .alt ps =>
    !ps.isEmpty && Pat.allAccepted { (r.lower (.alt ps)).derive with FAILS_CLEANLY := true } ps
  -- unary/repeat.h:21, 28-44
  | .rep mn mx p =>
    (!r.CONSUMES || decide (0 < mn)) && p.accepted ⟨true, mn != mx || mx == 0, r.CONSUMES, false⟩
  -- unary/optional.h:22-38
  | .opt p => p.accepted ⟨true, false, r.CONSUMES, false⟩
  -- unary/not.h:22-27
  | .not p => p.accepted { r.derive with ATOMIC := false, FAILS_CLEANLY := false }
  -- unary/discard.h:25
  | .discard p => p.accepted (r.lower (.discard p))
  -- unary/lexeme.h:22-24
  | .lexeme p => p.accepted (r.lower (.lexeme p))
  -- unary/bind_dst.h:23-29
  | .bindDst p => p.accepted { (r.lower (.bindDst p)).derive with ATOMIC := false }
  -- unary/construct.h:27-31
  | .construct tys p => p.accepted { (r.lower (.construct tys p)).derive with ATOMIC := false }
  -- unary/action.h:153-166
  | .action a p => p.accepted ⟨false, (r.lower (.action a p)).FAILS_CLEANLY, r.CONSUMES, false⟩
  -- binary/except.h:26-39
  | .except op neg =>
    op.accepted { (r.lower (.except op neg)).derive with FAILS_CLEANLY := false } &&
      neg.accepted ⟨false, true, false, false⟩
  -- binary/list.h:27-40
  | .list op sep => op.accepted ⟨true, false, false, false⟩ && sep.accepted ⟨false, false, false, false⟩
  -- with_skipper.h:25-26, adapters/skip.h:37-42
  | .withSkipper p s => p.accepted (r.lower (.withSkipper p s)) && s.accepted SkipReqs
  | .recur _ _ => true
/-- All of them compile. -/
def Pat.allAccepted (r : Req) : List Pat → Bool
  | [] => true
  | p :: ps => p.accepted r && Pat.allAccepted r ps
end

/-- Does `ParserFactory<PAT_T>::dst_behavior()` compile once it is called? -/
def Pat.behaviorCompiles : Pat → Bool
  -- unary/lexeme.h:45-47: there is no `ParserFactory<CHILD_PAT_T>::CHILD_PAT_T`
  | .lexeme _ => false
  -- unary/bind_dst.h:48-54
  | .bindDst p => p.behaviorCompiles && p.dstBehavior != .IGNORE
  | .rep _ _ p => p.behaviorCompiles         -- unary/repeat.h:88-90
  | .opt p => p.behaviorCompiles             -- unary/optional.h:71-73
  | .except op _ => op.behaviorCompiles      -- binary/except.h:74-76
  | .list op _ => op.behaviorCompiles        -- binary/list.h:102-104
  | .withSkipper p _ => p.behaviorCompiles   -- with_skipper.h:44-46
  | _ => true

mutual
/-- Do the calls of `dst_behavior()` compile? Sequences call it for each of their children
(nary/sequence.h:25-29, 52-53, whatever the destination), nothing else does. -/
def Pat.sequencesCompile : Pat → Bool
  | .seq ps => Pat.allSequencesCompile ps && ps.all Pat.behaviorCompiles
  | .alt ps => Pat.allSequencesCompile ps
  | .rep _ _ p => p.sequencesCompile
  | .opt p => p.sequencesCompile
  | .not p => p.sequencesCompile
  | .discard p => p.sequencesCompile
  | .lexeme p => p.sequencesCompile
  | .bindDst p => p.sequencesCompile
  | .construct _ p => p.sequencesCompile
  | .action _ p => p.sequencesCompile
  | .except op neg => op.sequencesCompile && neg.sequencesCompile
  | .list op sep => op.sequencesCompile && sep.sequencesCompile
  | .withSkipper p s => p.sequencesCompile && s.sequencesCompile
  | _ => true
/-- In all of them. -/
def Pat.allSequencesCompile : List Pat → Bool
  | [] => true
  | p :: ps => p.sequencesCompile && Pat.allSequencesCompile ps
end

/-- The operands of the `Recur` objects compile (recur.h:28). -/
def Env.accepted (env : Env) : Prop := ∀ id q, env id = some q → q.accepted RecurChildReqs = true

end Abu
