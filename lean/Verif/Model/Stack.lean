import Verif.Model.Checked
/-
The call stack, which `Machine.lean` takes for unbounded.

Parsers are written by recursive descent: the `consume` of a parser object calls the `consume` of
its children (and of its skipper), and calls through `Recur` (parsers/coroutine/recur.h:40-46)
nest as deeply as the text does. The same machine, in which `d` is the number of calls to `consume`
there is still room for below the current one; one call more is undefined behaviour.

Destructors nest as well: that of a parser object destroys its children, those of `Recur`
(parsers/coroutine/recur.h:30, a `std::unique_ptr`) included, so an object that has followed a
nested text takes that many nested destructor calls to destroy, wherever it is destroyed: when its
parent replaces it by the next child (`child_parser_ = …`, unary/repeat.h:78, where assignments nest
in the same way), or at the end.
`runDes` is `runStk` that also demands room for destroying every object that is used.

Simplification: all calls count the same. What one call takes (its own frame, those of `visit_val`
and of `consume_from`, which goes from one child to the next by calling itself
(nary/sequence.h:127-165), of the data source, of the destination and of an action) depends on the
pattern but not on the text. A constructor constructs the children, but not those of `Recur`
(parsers/coroutine/recur.h:33-36): the calls it nests are those of destroying the object again.
-/
namespace Abu

section
variable {σ μ : Type} [DataSource σ] [Store μ]

/-- `run`, with the calls of `consume` counted. -/
def runStk (env : Env) : Nat → Mach σ μ
  | _, 0, _, _, _, _, _ => .error .fuel
  | d, n + 1, p, dst, bnd, st, w =>
    let call := match d with
      | 0 => fun _ _ _ _ _ => .error .ubStack
      | d + 1 => runStk env d n
    match exec call (body env p dst bnd st) w with
    | .error e => .error e
    | .ok (.ret r st', w') => .ok ((r, st'), w')
    | .ok (.cont st', w') => runStk env d n p dst bnd st' w'
  termination_by structural _ n => n

/-- How many calls of destructors the destructor of a parser object nests: the children it holds at
the time (parsers/coroutine/nary/sequence.h:108, nary/alternative.h:63, unary/*.h, binary/*.h,
recur.h:30, adapters/*.h). -/
def PState.height : PState → Nat
  | .seq _ c => c.height + 1
  | .alt _ c => c.height + 1
  | .rep _ c => c.height + 1
  | .wrap c => c.height + 1
  | .buffered _ c => c.height + 1
  | .except _ c => c.height + 1
  | .list _ c => c.height + 1
  | .recurSome c => c.height + 1
  | .skip _ s c => max s.height c.height + 1
  | _ => 0

/-- `runStk`, with room asked for the destructors of the objects before and after each iteration:
an object is destroyed by the one that calls it, so there is the same room for both. -/
def runDes (env : Env) : Nat → Mach σ μ
  | _, 0, _, _, _, _, _ => .error .fuel
  | d, n + 1, p, dst, bnd, st, w =>
    let call := match d with
      | 0 => fun _ _ _ _ _ => .error .ubStack
      | d + 1 => runDes env d n
    if d < st.height then .error .ubStack
    else match exec call (body env p dst bnd st) w with
      | .error e => .error e
      | .ok (.ret r st', w') => if d < st'.height then .error .ubStack else .ok ((r, st'), w')
      | .ok (.cont st', w') => runDes env d n p dst bnd st' w'
  termination_by structural _ n => n

end

/-- operations/parse.h:29-41, on a stack with room for `d` calls of `consume` or of
destructors below the first. -/
abbrev ParsesStk (d : Nat) (env : Env) (p : Pat) (dst : Ref) (m : Mem) (t : List Ch)
    (v : Verdict) : Prop :=
  ParsesBy (runDes env d) p dst m t v

/-- operations/make_parser.h:43-51, on a stack with room for `d` calls below each `consume`, and
below the destructor, of the parser object. -/
abbrev MakeParserRunStk (d : Nat) (env : Env) (p : Pat) (dst : Ref) (m : Mem)
    (ops : List SOp) (v : Verdict) : Prop :=
  MakeParserRunBy (runDes env d) p dst m ops v

end Abu
