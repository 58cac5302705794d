import Verif.Model.Checked
/-
The `int` counters of parser objects: `digit_count_` (leaf/numeric/uint.h:58, int.h:81) and
`count_` (unary/repeat.h:49), which `Machine.lean` takes for unbounded.

The same machine, in which an iteration that leaves a counter beyond `lim`, the largest value of
its type, is undefined behaviour. Simplification: the check is made at the end of the iteration,
after the destination was written or the next child constructed.
-/
namespace Abu

/-- The counter of a parser object: numeric/uint.h:58, numeric/int.h:81, unary/repeat.h:49. -/
def PState.counter : PState → Nat
  | .uint n => n
  | .int n _ _ => n
  | .rep n _ => n
  | _ => 0

/-- The state an iteration leaves the object in. -/
def Step.state : Step → PState
  | .ret _ st => st
  | .cont st => st

section
variable {σ μ : Type} [DataSource σ] [Store μ]

/-- `run`, with the increments of counters checked: numeric/uint.h:45, numeric/int.h:62,
unary/repeat.h:71. -/
def runCnt (lim : Nat) (env : Env) :
    Nat → Prog → Ref → Ref → PState → World σ μ → Out σ μ (Res × PState)
  | 0, _, _, _, _, _ => .error .fuel
  | n + 1, p, dst, bnd, st, w =>
    match exec (runCnt lim env n) (body env p dst bnd st) w with
    | .error e => .error e
    | .ok (s, w') =>
      if lim < s.state.counter then .error .ubCounter
      else
        match s with
        | .ret r st' => .ok ((r, st'), w')
        | .cont st' => runCnt lim env n p dst bnd st' w'

end

/-- operations/parse.h:29-41, with checked counters. -/
abbrev ParsesCnt (lim : Nat) (env : Env) (p : Pat) (dst : Ref) (m : Mem) (t : List Ch)
    (v : Verdict) : Prop :=
  ParsesBy (runCnt lim env) p dst m t v

/-- operations/make_parser.h:43-51, with checked counters. -/
abbrev MakeParserRunCnt (lim : Nat) (env : Env) (p : Pat) (dst : Ref) (m : Mem)
    (ops : List SOp) (v : Verdict) : Prop :=
  MakeParserRunBy (runCnt lim env) p dst m ops v

end Abu
