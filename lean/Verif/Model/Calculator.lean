import Verif.Model.Factory
/-
The calculator of /repo/examples/math_expression/main.cpp. It evaluates an expression while parsing
it, into an `int`.
-/
namespace Abu

/-- The value of an `int` expression with mathematical value `x`. The behaviour of the lambda is
undefined if it is not in range; modelled as an unusable value, see `Val.overwrite`. -/
def intResult (x : Int) : Val := if (NumKind.signed 32).inRange x then .num x else .indet

/-- main.cpp:29-42: the `switch` of `make_binop`; `lhs`: the value of the bound destination. There
is no `default`. -/
def binop (op lhs rhs : Int) : Val :=
  if op = 43 then intResult (lhs + rhs)
  else if op = 45 then intResult (lhs - rhs)
  else if op = 42 then intResult (lhs * rhs)
  else if op = 47 then (if rhs = 0 then .indet else intResult (lhs.tdiv rhs))
  else .num lhs

/-- main.cpp:19 `assign` -/
def assignAct : Act := ⟨0, .int, true, true, fun _ v _ => (.nil, v)⟩

/-- main.cpp:24-43 `make_binop`. With an unusable value it computes an unusable one. -/
def binopAct : Act :=
  ⟨1, .tup [.char, .int], true, true, fun _ v b =>
    (.nil, match v, b with
      | .tup [.num op, .num rhs], .num lhs => binop op lhs rhs
      | _, _ => .indet)⟩

/-- main.cpp:46 `abu::int_ | ('(' >> expr >> ')')`; `expr` (main.cpp:45) is number 0. A `char` operand
is `lit` of it (patterns/leaf/char_literal.h:33-36). -/
def calcPrimary : Pat :=
  .altOp int_ (.seqOp (.seqOp (litC 40) (.recur 0 false)) (litC 41))

/-- main.cpp:48-49 and 51-52: `bind_dst(p[assign] >> *(char_(ops) >> p)[make_binop])` -/
def calcLevel (ops : List Ch) (p : Pat) : Pat :=
  .bindDst (.seqOp (.action assignAct p)
    (.star (.action binopAct (.seqOp (.char (setOfCString ops)) p))))

/-- main.cpp:48-49 `muldiv`; `"*/"` -/
def calcMuldiv : Pat := calcLevel [42, 47, 0] calcPrimary

/-- main.cpp:51-52 `addsub`; `"+-"` -/
def calcAddsub : Pat := calcLevel [43, 45, 0] calcMuldiv

/-- main.cpp:54 `ABU_Recur_define(expr, expr_t, addsub)` -/
def calcEnv : Env := fun i => if i = 0 then some calcAddsub else none

/-- main.cpp:56 `apply_skipper(expr, lit(' '))` -/
def calculator : Pat := .withSkipper (.recur 0 false) (litC 32)

end Abu
