import Verif.Model.Factory
import Verif.Model.DataSource
import Verif.Model.Digits
/-
Parser objects: constructors and `consume` of every class under
/repo/include/abulafia/parsers/coroutine.

The body of each `consume` is a program in a small command language (`Cmd`); a loop
(`while (1)`, or the tail calls `consume_from<ID + 1>`) is cut into iterations: an iteration
either returns or continues in a new state of the parser object.
-/
namespace Abu

/-- result.h:14 -/
inductive Res
  | SUCCESS
  | FAILURE
  | PARTIAL
  deriving DecidableEq, Repr

/-- The data members of a parser object. -/
inductive PState
  /-- classes without data members -/
  | unit
  /-- leaf/string_literal.h:24: `next_expected_`, as an offset -/
  | strLit (k : Nat)
  /-- leaf/string_symbol.h:26-27: `next_`, and the value of `current_valid_` -/
  | symbol (next : Node) (valid : Option Val)
  /-- leaf/numeric/uint.h:58 -/
  | uint (count : Nat)
  /-- leaf/numeric/int.h:81-83 -/
  | int (count : Nat) (look neg : Bool)
  /-- nary/sequence.h:108: index and content of the variant -/
  | seq (i : Nat) (c : PState)
  /-- nary/alternative.h:63: index and content of the variant -/
  | alt (i : Nat) (c : PState)
  /-- unary/repeat.h:49-50 -/
  | rep (count : Nat) (c : PState)
  /-- a class whose only member is its child -/
  | wrap (c : PState)
  /-- a class with a buffer and a child (atomic.h:49-50, action.h:175-176, construct.h:33-34) -/
  | buffered (buf : Ref) (c : PState)
  /-- adapters/skip.h:69-71 -/
  | skip (done : Bool) (s c : PState)
  /-- binary/except.h:45: index and content of the variant -/
  | except (inOp : Bool) (c : PState)
  /-- binary/list.h:46: index and content of the variant -/
  | list (inSep : Bool) (c : PState)
  /-- recur.h:30: null `child_parser_` -/
  | recurNone
  /-- recur.h:30: `child_parser_` -/
  | recurSome (c : PState)

/-- Commands of constructors and `consume` functions. -/
inductive Cmd (α : Type) : Type
  | pure (a : α)
  | fault (e : Err)
  /-- `ctx.data().empty()` -/
  | isEmpty (k : Bool → Cmd α)
  /-- `ctx.data().final_buffer()` -/
  | isFinal (k : Bool → Cmd α)
  /-- `ctx.data().next()` -/
  | next (k : Ch → Cmd α)
  /-- `ctx.data().advance()` -/
  | advance (k : Cmd α)
  /-- `ctx.data().prepare_rollback()` -/
  | prepare (k : Cmd α)
  /-- `ctx.data().commit_rollback()` -/
  | commit (k : Cmd α)
  /-- `ctx.data().cancel_rollback()` -/
  | cancel (k : Cmd α)
  /-- an operation on a destination -/
  | mem (o : MemOp) (k : Cmd α)
  /-- a new member object -/
  | alloc (ty : Ty) (k : Ref → Cmd α)
  /-- `child.consume(ctx, dst, pat)` -/
  | call (p : Prog) (dst bnd : Ref) (st : PState) (k : Res → PState → Cmd α)

namespace Cmd

/-- Sequential composition. -/
def bind {α β : Type} : Cmd α → (α → Cmd β) → Cmd β
  | .pure a, f => f a
  | .fault e, _ => .fault e
  | .isEmpty k, f => .isEmpty fun b => (k b).bind f
  | .isFinal k, f => .isFinal fun b => (k b).bind f
  | .next k, f => .next fun c => (k c).bind f
  | .advance k, f => .advance (k.bind f)
  | .prepare k, f => .prepare (k.bind f)
  | .commit k, f => .commit (k.bind f)
  | .cancel k, f => .cancel (k.bind f)
  | .mem o k, f => .mem o (k.bind f)
  | .alloc t k, f => .alloc t fun r => (k r).bind f
  | .call p d b s k, f => .call p d b s fun r s => (k r s).bind f

instance : Monad Cmd where
  pure := .pure
  bind := .bind

end Cmd

/-- nary/sequence.h:51-63 `choose_dst_accessor::access`; `none`: does not compile
(`std::get` out of range). -/
def seqDst (dst : Ref) (slot : Option Nat) : Option Ref :=
  match dst, slot with
  | .nil, _ => some .nil
  | _, none => some .nil
  | .at obj path (.tup ts), some k => ts[k]?.map fun t => wrapDst obj (path ++ [k]) t
  | d, some _ => some d

/-- Construct: the constructor of the parser class `p` with destination `dst`, in a context
with bound destination `bnd`. -/
def mk : Prog → Ref → Ref → Cmd PState
  | .char _, _, _ => .pure .unit            -- leaf/character.h:24
  | .charSymbol _, _, _ => .pure .unit      -- leaf/char_symbol.h:26
  | .strLit _, _, _ => .pure (.strLit 0)    -- leaf/string_literal.h:27-28
  | .symbol r, _, _ => .pure (.symbol r none) -- leaf/string_symbol.h:30
  | .int .., dst, _ => .mem (.zero dst) (.pure (.int 0 true false)) -- numeric/int.h:28, 81-83
  | .uint .., dst, _ => .mem (.zero dst) (.pure (.uint 0)) -- numeric/uint.h:28, 58
  | .eoi, _, _ => .pure .unit               -- leaf/eoi.h:25
  | .pass, _, _ => .pure .unit              -- leaf/pass.h:27
  | .fail, _, _ => .pure .unit              -- leaf/fail.h:25
  -- nary/sequence.h:119-124
  | .seq (s :: _) (p :: _), dst, bnd =>
    match seqDst dst s with
    | none => .fault .noCompile
    | some d => (mk p d bnd).bind fun c => .pure (.seq 0 c)
  | .seq _ _, _, _ => .fault .noCompile
  -- nary/alternative.h:66-69
  | .alt (p :: _), dst, bnd => (mk p dst bnd).bind fun c => .pure (.alt 0 c)
  | .alt [], _, _ => .fault .noCompile
  -- unary/repeat.h:53-54
  | .rep _ _ p, dst, bnd => (mk p dst bnd).bind fun c => .pure (.rep 0 c)
  -- unary/optional.h:44-47
  | .opt p, dst, bnd => (mk p dst bnd).bind fun c => .prepare (.pure (.wrap c))
  -- unary/not.h:33-36
  | .not p, dst, bnd => (mk p dst bnd).bind fun c => .prepare (.pure (.wrap c))
  -- unary/discard.h:30-31
  | .discard p, _, bnd => (mk p .nil bnd).bind fun c => .pure (.wrap c)
  -- unary/lexeme.h:29-30
  | .lexeme p, dst, bnd => (mk p dst bnd).bind fun c => .pure (.wrap c)
  -- unary/bind_dst.h:34-36
  | .bindDst p, dst, _ => (mk p dst dst).bind fun c => .pure (.wrap c)
  -- unary/construct.h:33-38
  | .construct tys p, _, bnd =>
    .alloc (.tup tys) fun buf => (mk p buf bnd).bind fun c => .pure (.buffered buf c)
  -- unary/action.h:175-180
  | .action a p, _, bnd =>
    .alloc a.landing fun land => (mk p land bnd).bind fun c => .pure (.buffered land c)
  -- binary/except.h:48-49
  | .except _ neg, _, bnd => (mk neg .nil bnd).bind fun c => .pure (.except false c)
  -- binary/list.h:49-52
  | .list op _, dst, bnd => (mk op dst bnd).bind fun c => .prepare (.pure (.list false c))
  -- with_skipper.h:29-31
  | .withSkipper p, dst, bnd => (mk p dst bnd).bind fun c => .pure (.wrap c)
  -- recur.h:33-36
  | .recur _ _, _, _ => .pure .recurNone
  -- adapters/atomic.h:26, 37-38, 49
  | .atomic p, dst, bnd =>
    .alloc dst.valueType fun buf => (mk p buf bnd).bind fun c => .pure (.buffered buf c)
  -- adapters/clean_failure.h:37-40
  | .clean p, dst, bnd => (mk p dst bnd).bind fun c => .prepare (.pure (.wrap c))
  -- adapters/skip.h:44-46; the skip parser has Nil as destination and bound destination
  | .skip s p, dst, bnd =>
    (mk s .nil .nil).bind fun sc => (mk p dst bnd).bind fun c => .pure (.skip false sc c)

/-- End of one iteration of `consume`. -/
inductive Step
  | ret (r : Res) (st : PState)
  | cont (st : PState)

/-- `return r` leaving the object in state `st`. -/
abbrev retS (r : Res) (st : PState) : Cmd Step := .pure (.ret r st)
/-- Next iteration. -/
abbrev contS (st : PState) : Cmd Step := .pure (.cont st)

/-- The `empty()`/`final_buffer()` test at the start of every leaf parser's iteration. -/
def guarded (st : PState) (atEnd : Cmd Step) (onChar : Ch → Cmd Step) : Cmd Step :=
  .isEmpty fun e =>
    if e then .isFinal fun f => if f then atEnd else retS .PARTIAL st
    else .next onChar

/-- `return digit_count_ >= DIGITS_MIN ? SUCCESS : FAILURE`. Simplification: the `int` counter
is unbounded; `Counters.lean` has its overflow, and C66 says when the two agree. -/
def enough (count min : Nat) : Res := if min ≤ count then .SUCCESS else .FAILURE

/-- numeric/int.h:34-36, 66-68, 72-74 -/
def negIf (neg : Bool) (dst : Ref) (k : Cmd Step) : Cmd Step :=
  if neg then .mem (.neg dst) k else k

/-- One iteration of `consume` of the class `p`, for an object in state `st`. Simplification: for
non-resumable data sources `Seq` and `Alt` start at child 0 instead of the current one
(nary/sequence.h:127-134); `Dispatch.lean` has that, and C54 says the two agree. -/
def body (env : Env) : Prog → Ref → Ref → PState → Cmd Step
  -- leaf/character.h:26-38
  | .char s, dst, _, .unit =>
    guarded .unit (retS .FAILURE .unit) fun c =>
      if s.isValid c then .mem (.assign dst (.num c)) (.advance (retS .SUCCESS .unit))
      else retS .FAILURE .unit
  -- leaf/char_symbol.h:28-41
  | .charSymbol m, dst, _, .unit =>
    guarded .unit (retS .FAILURE .unit) fun c =>
      match m.find? (fun e => e.1 == c) with
      | none => retS .FAILURE .unit
      | some (_, v) => .mem (.assign dst v) (retS .SUCCESS .unit)
  -- leaf/string_literal.h:30-48
  | .strLit s, _, _, .strLit k =>
    match s[k]? with
    | none => retS .SUCCESS (.strLit k)
    | some e =>
      guarded (.strLit k) (retS .FAILURE (.strLit k)) fun c =>
        if c = e then .advance (contS (.strLit (k + 1))) else retS .FAILURE (.strLit k)
  -- leaf/string_symbol.h:32-81
  | .symbol _, dst, _, .symbol n v =>
    let st := PState.symbol n v
    let stop : Cmd Step := match v with
      | some x => .mem (.assign dst x) (.commit (retS .SUCCESS st))
      | none => retS .FAILURE st
    guarded st stop fun c =>
      match n.child.find c with
      | none => stop
      | some n' =>
        .advance <|
          match n'.val with
          | none => contS (.symbol n' v)
          | some x =>
            let hit : Cmd Step :=
              if n'.child.isEmpty then .mem (.assign dst x) (retS .SUCCESS (.symbol n' v))
              else .prepare (contS (.symbol n' (some x)))
            if v.isSome then .cancel hit else hit
  -- leaf/numeric/uint.h:30-55
  | .uint b mn mx, dst, _, .uint n =>
    guarded (.uint n) (retS (enough n mn) (.uint n)) fun c =>
      if digitValid b c then
        .mem (.mulAdd b (digitValue b c) dst) <| .advance <|
          if n + 1 = mx then retS .SUCCESS (.uint (n + 1)) else contS (.uint (n + 1))
      else retS (enough n mn) (.uint n)
  -- leaf/numeric/int.h:30-78
  | .int b mn mx, dst, _, .int n look neg =>
    let st := PState.int n look neg
    guarded st (negIf neg dst (retS (enough n mn) st)) fun c =>
      if n = 0 ∧ look = true ∧ c = 45 then .advance (contS (.int n false true))
      else if n = 0 ∧ look = true ∧ c = 43 then .advance (contS (.int n false neg))
      else
        let look' := look && n != 0
        if digitValid b c then
          .mem (.mulAdd b (digitValue b c) dst) <| .advance <|
            if n + 1 = mx then negIf neg dst (retS .SUCCESS (.int (n + 1) look' neg))
            else contS (.int (n + 1) look' neg)
        else negIf neg dst (retS (enough n mn) (.int n look' neg))
  -- leaf/eoi.h:27-34
  | .eoi, _, _, .unit =>
    guarded .unit (retS .SUCCESS .unit) fun _ => retS .FAILURE .unit
  -- leaf/pass.h:29
  | .pass, _, _, .unit => retS .SUCCESS .unit
  -- leaf/fail.h:27
  | .fail, _, _, .unit => retS .FAILURE .unit
  -- nary/sequence.h:137-167
  | .seq slots ps, dst, bnd, .seq i c =>
    match ps[i]?, slots[i]? with
    | some p, some s =>
      match seqDst dst s with
      | none => .fault .noCompile
      | some d =>
        .call p d bnd c fun r c' =>
          match r with
          | .SUCCESS =>
            match ps[i + 1]?, slots[i + 1]? with
            | some p', some s' =>
              match seqDst dst s' with
              | none => .fault .noCompile
              | some d' => (mk p' d' bnd).bind fun c'' => contS (.seq (i + 1) c'')
            | _, _ => retS .SUCCESS (.seq i c')
          | r => retS r (.seq i c')
    | _, _ => .fault .stuck
  -- nary/alternative.h:82-108
  | .alt ps, dst, bnd, .alt i c =>
    match ps[i]? with
    | some p =>
      .call p dst bnd c fun r c' =>
        match r with
        | .FAILURE =>
          match ps[i + 1]? with
          | some p' => (mk p' dst bnd).bind fun c'' => contS (.alt (i + 1) c'')
          | none => retS .FAILURE (.alt i c')
        | r => retS r (.alt i c')
    | none => .fault .stuck
  -- unary/repeat.h:56-81
  | .rep mn mx p, dst, bnd, .rep n c =>
    .call p dst bnd c fun r c' =>
      match r with
      | .FAILURE => retS (enough n mn) (.rep n c')
      | .PARTIAL => retS .PARTIAL (.rep n c')
      | .SUCCESS =>
        if mx ≠ 0 ∧ n + 1 = mx then retS .SUCCESS (.rep (n + 1) c')
        else (mk p dst bnd).bind fun c'' => contS (.rep (n + 1) c'')
  -- unary/optional.h:49-62
  | .opt p, dst, bnd, .wrap c =>
    .call p dst bnd c fun r c' =>
      match r with
      | .SUCCESS => retS .SUCCESS (.wrap c')
      | .FAILURE => .commit (retS .SUCCESS (.wrap c'))
      | .PARTIAL => retS .PARTIAL (.wrap c')
  -- unary/not.h:38-56
  | .not p, dst, bnd, .wrap c =>
    .call p dst bnd c fun r c' =>
      match r with
      | .SUCCESS => .commit (retS .FAILURE (.wrap c'))
      | .FAILURE => .commit (retS .SUCCESS (.wrap c'))
      | .PARTIAL => retS .PARTIAL (.wrap c')
  -- unary/discard.h:33-35
  | .discard p, _, bnd, .wrap c => .call p .nil bnd c fun r c' => retS r (.wrap c')
  -- unary/lexeme.h:32-34
  | .lexeme p, dst, bnd, .wrap c => .call p dst bnd c fun r c' => retS r (.wrap c')
  -- unary/bind_dst.h:38-41
  | .bindDst p, dst, _, .wrap c => .call p dst dst c fun r c' => retS r (.wrap c')
  -- unary/construct.h:40-48
  | .construct _ p, dst, bnd, .buffered buf c =>
    .call p buf bnd c fun r c' =>
      match r with
      | .SUCCESS => .mem (.construct dst buf) (retS .SUCCESS (.buffered buf c'))
      | r => retS r (.buffered buf c')
  -- unary/action.h:182-189
  | .action a p, dst, bnd, .buffered land c =>
    .call p land bnd c fun r c' =>
      match r with
      | .SUCCESS => .mem (.act a land dst bnd) (retS .SUCCESS (.buffered land c'))
      | r => retS r (.buffered land c')
  -- binary/except.h:51-67
  | .except op neg, dst, bnd, .except false c =>
    .call neg .nil bnd c fun r c' =>
      match r with
      | .PARTIAL => retS .PARTIAL (.except false c')
      | .SUCCESS => retS .FAILURE (.except false c')
      | .FAILURE => (mk op dst bnd).bind fun c'' => contS (.except true c'')
  | .except op _, dst, bnd, .except true c =>
    .call op dst bnd c fun r c' => retS r (.except true c')
  -- binary/list.h:54-95
  | .list op sep, dst, bnd, .list false c =>
    .call op dst bnd c fun r c' =>
      match r with
      | .SUCCESS => .cancel <| .prepare <| (mk sep .nil bnd).bind fun c'' => contS (.list true c'')
      | .FAILURE => .commit (retS .SUCCESS (.list false c'))
      | .PARTIAL => retS .PARTIAL (.list false c')
  | .list op sep, dst, bnd, .list true c =>
    .call sep .nil bnd c fun r c' =>
      match r with
      | .SUCCESS => (mk op dst bnd).bind fun c'' => contS (.list false c'')
      | .FAILURE => .commit (retS .SUCCESS (.list true c'))
      | .PARTIAL => retS .PARTIAL (.list true c')
  -- with_skipper.h:33-37
  | .withSkipper p, dst, bnd, .wrap c => .call p dst bnd c fun r c' => retS r (.wrap c')
  -- recur.h:38-44
  | .recur id sk, dst, bnd, .recurNone =>
    match env id with
    | none => .fault .ubRecur
    | some q => (mk (elabP sk RecurChildReqs q) dst bnd).bind fun c => contS (.recurSome c)
  | .recur id sk, dst, bnd, .recurSome c =>
    match env id with
    | none => .fault .ubRecur
    | some q =>
      .call (elabP sk RecurChildReqs q) dst bnd c fun r c' => retS r (.recurSome c')
  -- adapters/atomic.h:40-46
  | .atomic p, dst, bnd, .buffered buf c =>
    .call p buf bnd c fun r c' =>
      match r with
      | .SUCCESS => .mem (.move dst buf) (retS .SUCCESS (.buffered buf c'))
      | r => retS r (.buffered buf c')
  -- adapters/clean_failure.h:42-56
  | .clean p, dst, bnd, .wrap c =>
    .call p dst bnd c fun r c' =>
      match r with
      | .SUCCESS => .cancel (retS .SUCCESS (.wrap c'))
      | .FAILURE => .commit (retS .FAILURE (.wrap c'))
      | .PARTIAL => retS .PARTIAL (.wrap c')
  -- adapters/skip.h:48-66
  | .skip s _, _, _, .skip false sc c =>
    .call s .nil .nil sc fun r sc' =>
      match r with
      | .SUCCESS => (mk s .nil .nil).bind fun sc'' => contS (.skip false sc'' c)
      | .FAILURE => contS (.skip true sc' c)
      | .PARTIAL => retS .PARTIAL (.skip false sc' c)
  | .skip _ p, dst, bnd, .skip true sc c =>
    .call p dst bnd c fun r c' => retS r (.skip true sc c')
  | _, _, _, _ => .fault .stuck

/-- What parsing acts on: a data source and a memory. -/
structure World (σ μ : Type) where
  ds : σ
  mem : μ

/-- Result of running a command: an error, or a value and the world after it. -/
abbrev Out (σ μ α : Type) := Except Err (α × World σ μ)

section
variable {σ μ : Type} [DataSource σ] [Store μ]

/-- Run a command; `call` runs `consume` of children. -/
def exec (call : Prog → Ref → Ref → PState → World σ μ → Out σ μ (Res × PState)) {α : Type} :
    Cmd α → World σ μ → Out σ μ α
  | .pure a, w => .ok (a, w)
  | .fault e, _ => .error e
  | .isEmpty k, w => exec call (k (DataSource.empty w.ds)) w
  | .isFinal k, w => exec call (k (DataSource.final w.ds)) w
  | .next k, w =>
    match DataSource.next w.ds with
    | none => .error .ubData
    | some c => exec call (k c) w
  | .advance k, w =>
    match DataSource.advance w.ds with
    | none => .error .ubData
    | some ds => exec call k { w with ds }
  | .prepare k, w => exec call k { w with ds := DataSource.prepare w.ds }
  | .commit k, w =>
    match DataSource.commit w.ds with
    | none => .error .ubData
    | some ds => exec call k { w with ds }
  | .cancel k, w =>
    match DataSource.cancel w.ds with
    | none => .error .ubData
    | some ds => exec call k { w with ds }
  | .mem o k, w =>
    match Store.op o w.mem with
    | .error e => .error e
    | .ok mem => exec call k { w with mem }
  | .alloc t k, w =>
    exec call (k (Store.alloc t w.mem).1) { w with mem := (Store.alloc t w.mem).2 }
  | .call p d b s k, w =>
    match call p d b s w with
    | .error e => .error e
    | .ok ((r, s'), w') => exec call (k r s') w'

/-- `consume`, with a bound on the number of iterations and nested calls; `Err.fuel` when the
bound is exceeded. -/
def run (env : Env) : Nat → Prog → Ref → Ref → PState → World σ μ → Out σ μ (Res × PState)
  | 0, _, _, _, _, _ => .error .fuel
  | n + 1, p, dst, bnd, st, w =>
    match exec (run env n) (body env p dst bnd st) w with
    | .error e => .error e
    | .ok (.ret r st', w') => .ok ((r, st'), w')
    | .ok (.cont st', w') => run env n p dst bnd st' w'

/-- Construction of a parser object: no calls are involved. -/
def construct (p : Prog) (dst bnd : Ref) (w : World σ μ) : Out σ μ PState :=
  exec (fun _ _ _ _ _ => .error .stuck) (mk p dst bnd) w

/-- `consume` from a parser state ends with the given outcome. It diverges when there is no
such outcome. -/
def Evals (env : Env) (p : Prog) (dst bnd : Ref) (st : PState) (w : World σ μ)
    (out : Out σ μ (Res × PState)) : Prop :=
  out ≠ .error .fuel ∧ ∃ n, run env n p dst bnd st w = out

/-- `consume` never returns. -/
def Diverges (env : Env) (p : Prog) (dst bnd : Ref) (st : PState) (w : World σ μ) : Prop :=
  ∀ n, run env n p dst bnd st w = .error .fuel

end
end Abu
