import Verif.Model.Api
/-
Vocabulary to talk about what `parse` recognises, leaving aside what it writes.
-/
namespace Abu

/-- Outcomes of recognition: `some rest`, success leaving `rest` unread, or `none`, failure. -/
inductive Fits : Option (List Ch) → Res → List Ch → Prop
  | ok {rest} : Fits (some rest) .SUCCESS rest
  | no {rest} : Fits none .FAILURE rest

/-- Errors that have to do with the destinations and the arguments of actions rather than with
the input. -/
def Err.ofDestination (e : Err) : Prop :=
  e = .ubOverflow ∨ e = .ubUninit ∨ e = .ubDangling ∨ e = .noCompile

/-- Some parse of the text gives this outcome. -/
def Recognises (env : Env) (p : Pat) (t : List Ch) (o : Option (List Ch)) : Prop :=
  ∃ dst m r m' rest, Parses env p dst m t (.ok (r, m', rest)) ∧ Fits o r rest

/-- Every parse of the text, with any destination and any contents of memory, gives this outcome,
unless the destination has an error of its own. -/
def Yields (env : Env) (p : Pat) (t : List Ch) (o : Option (List Ch)) : Prop :=
  ∀ dst m, (∃ r m' rest, Parses env p dst m t (.ok (r, m', rest)) ∧ Fits o r rest) ∨
    ∃ e, e.ofDestination ∧ Parses env p dst m t (.error e)

/-- A relation between texts, applied `n` times. -/
inductive Times (R : List Ch → List Ch → Prop) : Nat → List Ch → List Ch → Prop
  | zero {t} : Times R 0 t t
  | succ {n t t1 t2} : R t t1 → Times R n t1 t2 → Times R (n + 1) t t2

/-- Relations between texts applied one after the other. -/
inductive InTurn {α : Type} (R : α → List Ch → List Ch → Prop) : List α → List Ch → List Ch → Prop
  | nil {t} : InTurn R [] t t
  | cons {a as t t1 t2} : R a t t1 → InTurn R as t1 t2 → InTurn R (a :: as) t t2

end Abu
