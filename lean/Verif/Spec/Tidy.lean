import Verif.Model.Factory
/-
A decidable criterion on patterns under which the parsers recognise what the grammar says. It
excludes the situations in which the parsers misbehave:

* a stale rollback point left by an `Optional` that succeeds (parsers/coroutine/unary/optional.h:
  53-62) is popped by the wrong parser,
* `Int<BASE, MIN, 1>`, which claims to fail cleanly (parsers/coroutine/leaf/numeric/int.h:95) but
  does not, where this matters,
* `CharSymbol`, which does not consume (parsers/coroutine/leaf/char_symbol.h:43-51),
* digit counts that the `static_assert`s of `Int` and `UInt` exclude anyway,
* sequences and alternatives without any element (never built by the operators),
* `WithSkipper` (treated apart).
-/
namespace Abu

/-- Does constructing the parser of the pattern create no rollback point? `c`: it is required to
fail cleanly. -/
def Pat.noMark (c : Bool) : Pat → Bool
  | .strLit _ => !c
  | .symbol _ => !c
  | .int _ _ mx => !c || mx == 1
  | .uint _ _ mx => !c || mx == 1
  | .seq (p :: _) => !c && p.noMark false
  | .seq [] => false
  | .alt (p :: _) => p.noMark true
  | .alt [] => false
  | .rep mn mx p => !c && p.noMark (mn != mx || mx == 0)
  | .opt _ => false
  | .not _ => false
  | .list _ _ => false
  | .discard p => p.noMark c
  | .lexeme p => p.noMark c
  | .bindDst p => p.noMark c
  | .construct _ p => p.noMark c
  | .action _ p => p.noMark c
  | .withSkipper .. => false
  | .except _ neg => !c && neg.noMark true
  | .recur .. => !c
  | _ => true

/-- Rollback points that a parser may leave behind: none; only such as lead back to where it
started; any. Those that lead back to where the parser started do no harm to an enclosing parser
that started at the same place: it does not matter which of them it pops. -/
inductive Stale
  | none
  | start
  | any
  deriving DecidableEq

/-- Is the first no more than the second? -/
def Stale.le : Stale → Stale → Bool
  | .none, _ => true
  | .start, .none => false
  | .start, _ => true
  | .any, .any => true
  | .any, _ => false

/-- What both allow. -/
def Stale.meet : Stale → Stale → Stale
  | .none, _ => .none
  | _, .none => .none
  | .start, _ => .start
  | _, .start => .start
  | .any, .any => .any

/-- What a part that need not begin where the whole begins may leave behind. -/
def Stale.later : Stale → Stale
  | .any => .any
  | _ => .none

/-- What may be left behind by a parser that fails, if an adapter then has to go back to where it
started. -/
def Stale.under (c : Bool) (l : Stale) : Stale := if c then l.meet .start else l

mutual
/-- `p.tidy sk els elf c ls lf`: may the pattern be used in a place where

* `sk`: there is a skipper,
* `c`: it has to restore the position when it fails,
* `ls`: it may leave these stale rollback points behind when it succeeds,
* `lf`: it may leave these stale rollback points behind when it fails,

given what the patterns used through `Recur` may when they succeed (`els`) or fail (`elf`)? -/
def Pat.tidy (sk : Bool) (els elf : Stale) (c : Bool) (ls lf : Stale) : Pat → Bool
  | .charSymbol _ => false
  | .int _ mn mx => (mx == 0 || decide (mn ≤ mx)) && (!c || mx != 1)
  | .uint _ mn mx => mx == 0 || decide (mn ≤ mx)
  | .seq ps => !ps.isEmpty && Pat.tidySeq sk els elf ls (lf.under c) ps
  | .alt ps => !ps.isEmpty && Pat.tidyAlt sk els elf ls lf ps
  | .rep mn mx p =>
    p.tidy sk els elf (mn != mx || mx == 0)
      (if mn ≤ 1 then ls.later else (ls.meet (lf.under c)).later)
      (if mn = 0 then ls.later else (ls.meet (lf.under c)).later)
  | .opt p => Stale.start.le ls && p.tidy sk els elf false ls .start
  | .not p => p.tidy sk els elf false (lf.meet .start) (ls.meet .start)
  | .discard p => p.tidy sk els elf c ls lf
  | .lexeme p =>
    (!sk || p.noMark (c && p.FAILS_CLEANLY)) && p.tidy false els elf c ls lf
  | .bindDst p => p.tidy sk els elf c ls lf
  | .construct _ p => p.tidy sk els elf c ls lf
  | .action _ p => p.tidy sk els elf c ls lf
  | .except op neg =>
    op.tidy sk els elf false ls (lf.under c) &&
      neg.tidy sk els elf true (lf.under c) (ls.meet (lf.under c))
  | .list op sep =>
    op.tidy sk els elf false ls.later .none &&
      sep.tidy sk els elf false (ls.later.meet .start) (ls.later.meet .start)
  | .withSkipper _ _ => false
  | .recur .. => els.le ls && elf.le (lf.under c)
  | _ => true
/-- All parts of a sequence; stale rollback points left by successful parts other than the last
are still there when a later part fails. -/
def Pat.tidySeq (sk : Bool) (els elf ls lf : Stale) : List Pat → Bool
  | [] => true
  | p :: ps => p.tidy sk els elf false (if ps.isEmpty then ls else ls.meet lf) lf &&
      Pat.tidySeq sk els elf ls.later lf.later ps
/-- All alternatives; each begins where the alternative begins. -/
def Pat.tidyAlt (sk : Bool) (els elf ls lf : Stale) : List Pat → Bool
  | [] => true
  | p :: ps => p.tidy sk els elf true ls (if ps.isEmpty then lf else ls.meet lf) &&
      Pat.tidyAlt sk els elf ls lf ps
end

/-- The criterion for the patterns used through `Recur`. -/
def Env.tidy (env : Env) (sk : Bool) (els elf : Stale) : Prop :=
  ∀ id q, env id = some q → q.tidy sk els elf false els elf = true

end Abu
