import Verif.Spec.Answers
import Verif.Spec.Memory
/-
Vocabulary to talk about what a pattern does to one destination object, and how the parts of
composite patterns share a composite destination.
-/
namespace Abu

/-- `p` alone: parsing the text `t` with `p` into an object of type `ty` holding `v`, after the
action calls `log`, has result `r`, leaves `v'` in the object, `log'` as the list of action calls
and `rest` unread. -/
def Alone (env : Env) (p : Pat) (ty : Ty) (v : Val) (log : List LogEntry) (t : List Ch) (r : Res)
    (v' : Val) (log' : List LogEntry) (rest : List Ch) : Prop :=
  ∃ m', Answers env p (.at 0 [] ty) ⟨[v], log⟩ t (.ok (r, m', rest)) ∧ m'.objs[0]? = some v' ∧
    m'.log = log'

/-- Likewise without a destination. -/
def AloneNil (env : Env) (p : Pat) (log : List LogEntry) (t : List Ch) (r : Res)
    (log' : List LogEntry) (rest : List Ch) : Prop :=
  ∃ m', Answers env p .nil ⟨[], log⟩ t (.ok (r, m', rest)) ∧ m'.log = log'

/-- Patterns parsed one after the other, each one alone: those that produce a value into the
successive objects of types `ts` holding the values `vs`, the others without a destination; up to
the first one that fails. The values afterwards are `ws`. -/
inductive EachAlone (env : Env) : List Pat → List Ty → List Val → List LogEntry → List Ch → Res →
    List Val → List LogEntry → List Ch → Prop
  | nil {ts vs log t} : EachAlone env [] ts vs log t .SUCCESS vs log t
  | value {p ps ty ts v vs log t v' log1 t1 r ws log2 t2} : p.valued = true →
      Alone env p ty v log t .SUCCESS v' log1 t1 →
      EachAlone env ps ts vs log1 t1 r ws log2 t2 →
      EachAlone env (p :: ps) (ty :: ts) (v :: vs) log t r (v' :: ws) log2 t2
  | ignore {p ps ts vs log t log1 t1 r ws log2 t2} : p.valued = false →
      AloneNil env p log t .SUCCESS log1 t1 →
      EachAlone env ps ts vs log1 t1 r ws log2 t2 →
      EachAlone env (p :: ps) ts vs log t r ws log2 t2
  | valueFails {p ps ty ts v vs log t v' log1 t1} : p.valued = true →
      Alone env p ty v log t .FAILURE v' log1 t1 →
      EachAlone env (p :: ps) (ty :: ts) (v :: vs) log t .FAILURE (v' :: vs) log1 t1
  | ignoreFails {p ps ts vs log t log1 t1} : p.valued = false →
      AloneNil env p log t .FAILURE log1 t1 →
      EachAlone env (p :: ps) ts vs log t .FAILURE vs log1 t1

/-- Patterns parsed one after the other into the same object, which is not a tuple. -/
inductive EachInto (env : Env) (ty : Ty) : List Pat → Val → List LogEntry → List Ch → Res →
    Val → List LogEntry → List Ch → Prop
  | nil {v log t} : EachInto env ty [] v log t .SUCCESS v log t
  | value {p ps v log t v1 log1 t1 r v2 log2 t2} : p.valued = true →
      Alone env p ty v log t .SUCCESS v1 log1 t1 →
      EachInto env ty ps v1 log1 t1 r v2 log2 t2 →
      EachInto env ty (p :: ps) v log t r v2 log2 t2
  | ignore {p ps v log t log1 t1 r v2 log2 t2} : p.valued = false →
      AloneNil env p log t .SUCCESS log1 t1 →
      EachInto env ty ps v log1 t1 r v2 log2 t2 →
      EachInto env ty (p :: ps) v log t r v2 log2 t2
  | valueFails {p ps v log t v1 log1 t1} : p.valued = true →
      Alone env p ty v log t .FAILURE v1 log1 t1 →
      EachInto env ty (p :: ps) v log t .FAILURE v1 log1 t1
  | ignoreFails {p ps v log t log1 t1} : p.valued = false →
      AloneNil env p log t .FAILURE log1 t1 →
      EachInto env ty (p :: ps) v log t .FAILURE v log1 t1

/-- The operand of an action, alone, parsing into the parameter of the action, which has type `ty`:
its value is `v` afterwards. -/
inductive Landing (env : Env) (p : Pat) (ty : Ty) (log : List LogEntry) (t : List Ch) (r : Res) :
    Val → List LogEntry → List Ch → Prop
  | nil {log' rest} : ty = .nil → AloneNil env p log t r log' rest →
      Landing env p ty log t r .nil log' rest
  | value {v log' rest} : ty ≠ .nil → Alone env p ty ty.defaultInit log t r v log' rest →
      Landing env p ty log t r v log' rest

/-- An object of type `ty` holding `u` holds `u'` after it received the value `v` as a
destination. -/
inductive Receives : Ty → Val → Val → Val → Prop
  | value {ty u v} : (∀ t, ty ≠ .coll t) → ty.Holds v → Receives ty u v v
  | element {ty us v} : ty.Holds v → Receives (.coll ty) (.coll us) v (.coll (us ++ [v]))

/-- The object of type `ty` built from constructor arguments: of a class, by its constructor; a
tuple, of the arguments; a number, which can hold it, from one number. -/
inductive MadeFrom : Ty → List Val → Val → Prop
  | object {n args} : MadeFrom (.user n) args (.obj n args)
  | tuple {ts args} : MadeFrom (.tup ts) args (.tup args)
  | number {k i} : (Ty.num k).Holds (.num i) → MadeFrom (.num k) [.num i] (.num i)

mutual
/-- Patterns whose success is one assignment to the destination, whatever it held before. -/
def Pat.assigns : Pat → Bool
  | .char _ => true
  | .charSymbol _ => true
  | .symbol _ => true
  | .int .. => true
  | .uint .. => true
  | .action a _ => !a.void
  | .lexeme p => p.assigns
  | .except p _ => p.assigns
  | .alt ps => Pat.allAssign ps
  | _ => false
/-- For all of a list. -/
def Pat.allAssign : List Pat → Bool
  | [] => true
  | p :: ps => p.assigns && Pat.allAssign ps
end

/-- Not a pattern with its own skipper, nor one inside unary patterns only. -/
def Pat.unskipped : Pat → Bool
  | .discard p => p.unskipped
  | .lexeme p => p.unskipped
  | .bindDst p => p.unskipped
  | .construct _ p => p.unskipped
  | .action _ p => p.unskipped
  | .withSkipper .. => false
  | _ => true

/-- Patterns that produce one value: an assignment, or a value built up in the destination that is
complete on success. Not among them: patterns that produce nothing or may produce nothing,
alternatives with operands that build up a value, which may leave part of it behind when they fail,
and `construct`, which does not work on elements of collections. -/
def Pat.single : Pat → Bool
  | .seq _ => true
  | .rep .. => true
  | .list .. => true
  | .recur .. => true
  | .bindDst _ => true
  | .lexeme p => p.single
  | .except p _ => p.single
  | p => p.assigns

/-- The pattern matches several times in a row, each time alone and into a new object of type `ty`:
the values are `vs`. -/
inductive Matches (env : Env) (p : Pat) (ty : Ty) : List LogEntry → List Ch → List Val →
    List LogEntry → List Ch → Prop
  | nil {log t} : Matches env p ty log t [] log t
  | cons {log t v log1 t1 vs log2 t2} : Alone env p ty ty.defaultInit log t .SUCCESS v log1 t1 →
      ty.Holds v → Matches env p ty log1 t1 vs log2 t2 → Matches env p ty log t (v :: vs) log2 t2

/-- Separator and item in turn, any number of times, each one alone, the items into new objects of
type `ty`: the values are `vs`. -/
inductive Separated (env : Env) (op sep : Pat) (ty : Ty) : List LogEntry → List Ch → List Val →
    List LogEntry → List Ch → Prop
  | nil {log t} : Separated env op sep ty log t [] log t
  | cons {log t log1 t1 v log2 t2 vs log3 t3} : AloneNil env sep log t .SUCCESS log1 t1 →
      Alone env op ty ty.defaultInit log1 t1 .SUCCESS v log2 t2 → ty.Holds v →
      Separated env op sep ty log2 t2 vs log3 t3 → Separated env op sep ty log t (v :: vs) log3 t3

/-- Separator and item do not both match, one after the other. -/
inductive NoMore (env : Env) (op sep : Pat) (ty : Ty) : List LogEntry → List Ch → List LogEntry → Prop
  | sep {log t log1 t1} : AloneNil env sep log t .FAILURE log1 t1 → NoMore env op sep ty log t log1
  | item {log t log1 t1 v log2 t2} : AloneNil env sep log t .SUCCESS log1 t1 →
      Alone env op ty ty.defaultInit log1 t1 .FAILURE v log2 t2 → NoMore env op sep ty log t log2

/-- Why a repetition of `p` stops after `n` matches: the bound is reached, or `p` fails. -/
inductive Stops (env : Env) (p : Pat) (ty : Ty) (mx n : Nat) : List LogEntry → List Ch →
    List LogEntry → Prop
  | max {log t} : mx ≠ 0 → n = mx → Stops env p ty mx n log t log
  | fails {log t w log' t'} : (mx = 0 ∨ n < mx) →
      Alone env p ty ty.defaultInit log t .FAILURE w log' t' → Stops env p ty mx n log t log'

/-- Success when there are not less than `mn`. -/
def reach (mn n : Nat) : Res := if mn ≤ n then .SUCCESS else .FAILURE

/-- Patterns tried one after the other on the same text and into the same object of type `ty`, each
one alone: all fail. -/
inductive FailInTurn (env : Env) (ty : Ty) (t : List Ch) : List Pat → Val → List LogEntry → Val →
    List LogEntry → Prop
  | nil {u log} : FailInTurn env ty t [] u log u log
  | cons {p ps u log u1 log1 rest u2 log2} : Alone env p ty u log t .FAILURE u1 log1 rest →
      FailInTurn env ty t ps u1 log1 u2 log2 → FailInTurn env ty t (p :: ps) u log u2 log2

end Abu
