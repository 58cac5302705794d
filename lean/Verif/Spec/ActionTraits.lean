import Verif.Model.ActionTraits
/-
Vocabulary for C84.
-/
namespace Abu

/-- What docs/guide/05_actions.md says becomes of a function: without parameters, it is called without
arguments; a parameter behaves as the destination of the operand (line 15), so that the operand is parsed into
an object of its type, which the function is given; what it returns is assigned, if it returns something
(line 25). -/
structure ActFn.AsDocumented (f : ActFn) (u : ActUse) : Prop where
  none : f.params = [] → u.args = []
  one : ∀ m t, f.params = [.plain m t] → u.landing = t ∧ u.args = [.value t]
  result : u.void = true ↔ f.result = Option.none

/-- The functions that can be actions, and what becomes of them. -/
inductive ActFn.Form : ActFn → ActUse → Prop
  /-- `R f()` -/
  | function {r} : Form (.pointer false [] r) ⟨.nil, r.isNone, []⟩
  /-- `R f(T)` -/
  | functionValue {t r} : t ≠ .nil → Form (.pointer false [(.value, t)] r) ⟨t, r.isNone, [.value t]⟩
  /-- `[]() -> R` -/
  | lambda {r} : Form (.object true false [] r) ⟨.nil, r.isNone, []⟩
  /-- `[](T) -> R` -/
  | lambdaValue {t r} : t ≠ .nil →
      Form (.object true false [.plain .value t] r) ⟨t, r.isNone, [.value t]⟩
  /-- `[](T, auto) -> R` -/
  | lambdaBoth {t r} :
      Form (.object true false [.plain .value t, .auto] r) ⟨t, r.isNone, [.value t, .bound]⟩
  /-- `[](auto) -> R` -/
  | lambdaBound {n r} : Form (.object true n [.auto] r) ⟨.nil, r.isNone, [.bound]⟩
  /-- `[](Nil) -> R`, `[](Nil const&) -> R`, `[](Nil&&) -> R` -/
  | lambdaNil {n m r} : m ≠ .ref → Form (.object true n [.plain m .nil] r) ⟨.nil, r.isNone, [.bound]⟩
  /-- `R f(Nil)`, `R f(Nil const&)`, `R f(Nil&&)` -/
  | functionNil {n m r} : m ≠ .ref → Form (.pointer n [(m, .nil)] r) ⟨.nil, r.isNone, [.bound]⟩

end Abu
