import Verif.Model.Calculator
import Verif.Model.Api
/-
The program around the calculator, `main` of /repo/examples/math_expression/main.cpp.
-/
namespace Abu

/-- main.cpp:66 `std::getline(std::cin, expr)`: what is in `expr` then, and what is left of the input.
The newline is taken and not stored; at the end of the input `expr` is empty. -/
def getLine : List Ch → List Ch × List Ch
  | [] => ([], [])
  | c :: s => if c = 10 then ([], s) else (c :: (getLine s).1, (getLine s).2)

/-- What is written to `std::cout`. -/
inductive Printed
  /-- main.cpp:64 `enter a mathematical expression:` -/
  | prompt
  /-- main.cpp:74 -/
  | value (v : Int)
  /-- main.cpp:76 `expression parse failure` -/
  | failure

/-- main.cpp:59-80: with the input `inp`, the program prints `out` and ends, or (`some e`) its behaviour is
undefined after that. `dst` (main.cpp:70) is object 0 of a memory of its own in every round. -/
inductive CalcMain : List Ch → List Printed → Option Err → Prop
  /-- main.cpp:67-69 -/
  | quit {inp} : (getLine inp).1 = [] → CalcMain inp [.prompt] none
  /-- main.cpp:71 -/
  | error {inp e} : (getLine inp).1 ≠ [] →
      Parses calcEnv calculator (.at 0 [] .int) ⟨[.num 0], []⟩ (getLine inp).1 (.error e) →
      CalcMain inp [.prompt] (some e)
  /-- main.cpp:73-74 -/
  | value {inp m rest v out e} : (getLine inp).1 ≠ [] →
      Parses calcEnv calculator (.at 0 [] .int) ⟨[.num 0], []⟩ (getLine inp).1 (.ok (.SUCCESS, m, rest)) →
      m.objs[0]? = some (.num v) → CalcMain (getLine inp).2 out e →
      CalcMain inp (.prompt :: .value v :: out) e
  /-- main.cpp:73-74, if `dst` holds no number; C43 says that this does not happen -/
  | unset {inp m rest} : (getLine inp).1 ≠ [] →
      Parses calcEnv calculator (.at 0 [] .int) ⟨[.num 0], []⟩ (getLine inp).1 (.ok (.SUCCESS, m, rest)) →
      (∀ v, m.objs[0]? ≠ some (.num v)) → CalcMain inp [.prompt] (some .ubUninit)
  /-- main.cpp:75-77 -/
  | failure {inp r m rest out e} : (getLine inp).1 ≠ [] →
      Parses calcEnv calculator (.at 0 [] .int) ⟨[.num 0], []⟩ (getLine inp).1 (.ok (r, m, rest)) →
      r ≠ .SUCCESS → CalcMain (getLine inp).2 out e →
      CalcMain inp (.prompt :: .failure :: out) e

end Abu
