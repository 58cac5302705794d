import Verif.Spec.Alone
import Verif.Spec.Grammar
import Verif.Spec.NilDst
import Verif.Spec.Number
/-
The values a grammar computes: for every pattern the value its match puts into an object, from the
values of its parts, and the calls of actions in order. There is no parser object, no data source, no
rollback point, no memory and no temporary object here.
-/
namespace Abu

/-- Patterns that say nothing about values whatever they are given. -/
def Pat.wordless : Pat → Bool
  | .strLit _ => true
  | .eoi => true
  | .pass => true
  | .fail => true
  | _ => false

/-- Patterns whose value, when optional, goes to a single object as a whole. -/
def Pat.whole : Pat → Bool
  | .char _ => true
  | .symbol _ => true
  | .int .. => true
  | .uint .. => true
  | .seq _ => true
  | .recur .. => true
  | .action a _ => !a.void
  | _ => false

mutual
/-- `Gives env p ty u log t o log'`: matching the text `t` with `p` into an object of type `ty` that
holds `u`, after the calls `log`: a match leaves the value `v` in the object and `rest` of the text
(`o = some (v, rest)`), or there is none (`o = none`); `log'` are the calls afterwards. -/
inductive Gives (env : Env) : Pat → Ty → Val → List LogEntry → List Ch → Option (Val × List Ch) →
    List LogEntry → Prop
  /-- a character, itself -/
  | char {s : CharSet} {ty u u' log c rest} : s.isValid c = true → Receives ty u (.num c) u' →
      Gives env (.char s) ty u log (c :: rest) (some (u', rest)) log
  | charNo {s : CharSet} {ty u log t} : (∀ c rest, t = c :: rest → s.isValid c = false) →
      Gives env (.char s) ty u log t none log
  /-- a symbol, the value of the longest key -/
  | symbol {root : Node} {ty u u' log key v rest} : key ≠ [] → root.get key = some v →
      (∀ key', KeyAt root (key ++ rest) 0 key' → key'.length ≤ key.length) → Receives ty u v u' →
      Gives env (.symbol root) ty u log (key ++ rest) (some (u', rest)) log
  | symbolNo {root : Node} {ty u log t} : (∀ key, ¬ KeyAt root t 0 key) →
      Gives env (.symbol root) ty u log t none log
  /-- a number, that which the digits stand for -/
  | uint {B mn mx k u log ds rs rest} : 2 ≤ B → B ≤ 35 → LongestRun B mx ds rs rest →
      mn ≤ ds.length → (Ty.num k).Holds (.num (positional B rs)) →
      Gives env (.uint B mn mx) (.num k) u log (ds ++ rest) (some (.num (positional B rs), rest)) log
  | uintNo {B mn mx k u log ds rs rest} : 2 ≤ B → B ≤ 35 → LongestRun B mx ds rs rest →
      ds.length < mn → (Ty.num k).Holds (.num (positional B rs)) →
      Gives env (.uint B mn mx) (.num k) u log (ds ++ rest) none log
  | int {B mn mx k u log sg neg ds rs rest} : 2 ≤ B → B ≤ 35 → Sign sg neg →
      (sg = [] → ∀ c l', ds ++ rest = c :: l' → c ≠ 43 ∧ c ≠ 45) → LongestRun B mx ds rs rest →
      mn ≤ ds.length → (Ty.num k).Holds (.num (withSign neg (positional B rs))) →
      (Ty.num k).Holds (.num (positional B rs)) →
      Gives env (.int B mn mx) (.num k) u log (sg ++ (ds ++ rest))
        (some (.num (withSign neg (positional B rs)), rest)) log
  | intNo {B mn mx k u log sg neg ds rs rest} : 2 ≤ B → B ≤ 35 → Sign sg neg →
      (sg = [] → ∀ c l', ds ++ rest = c :: l' → c ≠ 43 ∧ c ≠ 45) → LongestRun B mx ds rs rest →
      ds.length < mn → (Ty.num k).Holds (.num (withSign neg (positional B rs))) →
      (Ty.num k).Holds (.num (positional B rs)) →
      Gives env (.int B mn mx) (.num k) u log (sg ++ (ds ++ rest)) none log
  /-- literals leave the object alone -/
  | wordless {p ty u log t rest} : Pat.wordless p = true → PegRest env p t (some rest) →
      Gives env p ty u log t (some (u, rest)) log
  | wordlessNo {p ty u log t} : Pat.wordless p = true → PegRest env p t none →
      Gives env p ty u log t none log
  | discard {p ty u log t rest log'} : GivesNil env p log t (some rest) log' →
      Gives env (.discard p) ty u log t (some (u, rest)) log'
  | discardNo {p ty u log t log'} : GivesNil env p log t none log' →
      Gives env (.discard p) ty u log t none log'
  /-- a sequence into a tuple: the parts that have a value into the slots, in order -/
  | seq {ps ts vs ws log t rest log'} : ps ≠ [] → (∀ ty ∈ ts, ty ≠ Ty.nil) →
      GivesEach env ps ts vs log t (some (ws, rest)) log' →
      Gives env (.seq ps) (.tup ts) (.tup vs) log t (some (.tup ws, rest)) log'
  | seqNo {ps ts vs log t log'} : ps ≠ [] → (∀ ty ∈ ts, ty ≠ Ty.nil) →
      GivesEach env ps ts vs log t none log' →
      Gives env (.seq ps) (.tup ts) (.tup vs) log t none log'
  /-- a sequence into something else: all its parts into it, in order -/
  | seqInto {ps ty u v log t rest log'} : ps ≠ [] → (∀ ts, ty ≠ Ty.tup ts) →
      GivesInto env ty ps u log t (some (v, rest)) log' →
      Gives env (.seq ps) ty u log t (some (v, rest)) log'
  | seqIntoNo {ps ty u log t log'} : ps ≠ [] → (∀ ts, ty ≠ Ty.tup ts) →
      GivesInto env ty ps u log t none log' → Gives env (.seq ps) ty u log t none log'
  /-- alternatives: that of the first one that matches -/
  | alt {ps q qs ty u log t log1 o log'} :
      (∀ p ∈ ps, Pat.traceless false p = true) ∨
        ((∀ p ∈ ps ++ [q], Pat.assigns p = true) ∧ ∀ e, ty ≠ Ty.coll e) →
      GivesNone env ty u t ps log log1 → o ≠ none → Gives env q ty u log1 t o log' →
      Gives env (.alt (ps ++ q :: qs)) ty u log t o log'
  | altNo {ps ty u log t log'} : ps ≠ [] →
      (∀ p ∈ ps, Pat.traceless false p = true) ∨
        ((∀ p ∈ ps, Pat.assigns p = true) ∧ ∀ e, ty ≠ Ty.coll e) →
      GivesNone env ty u t ps log log' → Gives env (.alt ps) ty u log t none log'
  /-- a repetition: all that the matches give, one after the other -/
  | repMax {p mn mx ty us vs log t log' rest} : Pat.single p = true → ty ≠ Ty.nil →
      (Pat.assigns p = true → ∀ e, ty ≠ Ty.coll e) → mn ≤ mx → mx ≠ 0 →
      GivesMany env p ty log t vs log' rest → vs.length = mx →
      Gives env (.rep mn mx p) (.coll ty) (.coll us) log t (some (.coll (us ++ vs), rest)) log'
  | rep {p mn mx ty us vs log t log1 rest log'} : Pat.single p = true → ty ≠ Ty.nil →
      (Pat.assigns p = true → ∀ e, ty ≠ Ty.coll e) → (mx = 0 ∨ mn ≤ mx) →
      GivesMany env p ty log t vs log1 rest → mn ≤ vs.length → (mx = 0 ∨ vs.length < mx) →
      Gives env p ty ty.defaultInit log1 rest none log' →
      Gives env (.rep mn mx p) (.coll ty) (.coll us) log t (some (.coll (us ++ vs), rest)) log'
  | repNo {p mn mx ty us vs log t log1 rest log'} : Pat.single p = true → ty ≠ Ty.nil →
      (Pat.assigns p = true → ∀ e, ty ≠ Ty.coll e) → (mx = 0 ∨ mn ≤ mx) →
      GivesMany env p ty log t vs log1 rest → vs.length < mn →
      Gives env p ty ty.defaultInit log1 rest none log' →
      Gives env (.rep mn mx p) (.coll ty) (.coll us) log t none log'
  /-- a list: all that the items give -/
  | listNil {op sep ty us log t log'} : Pat.single op = true → ty ≠ Ty.nil →
      (Pat.assigns op = true → ∀ e, ty ≠ Ty.coll e) →
      Gives env op ty ty.defaultInit log t none log' →
      Gives env (.list op sep) (.coll ty) (.coll us) log t (some (.coll us, t)) log'
  | listSep {op sep ty us v vs log t log0 t0 log1 rest log'} : Pat.single op = true → ty ≠ Ty.nil →
      (Pat.assigns op = true → ∀ e, ty ≠ Ty.coll e) →
      Gives env op ty ty.defaultInit log t (some (v, t0)) log0 → ty.Holds v →
      GivesSep env op sep ty log0 t0 vs log1 rest → GivesNil env sep log1 rest none log' →
      Gives env (.list op sep) (.coll ty) (.coll us) log t (some (.coll (us ++ v :: vs), rest)) log'
  | listItem {op sep ty us v vs log t log0 t0 log1 rest log2 t2 log'} : Pat.single op = true →
      ty ≠ Ty.nil → (Pat.assigns op = true → ∀ e, ty ≠ Ty.coll e) →
      Gives env op ty ty.defaultInit log t (some (v, t0)) log0 → ty.Holds v →
      GivesSep env op sep ty log0 t0 vs log1 rest → GivesNil env sep log1 rest (some t2) log2 →
      Gives env op ty ty.defaultInit log2 t2 none log' →
      Gives env (.list op sep) (.coll ty) (.coll us) log t (some (.coll (us ++ v :: vs), rest)) log'
  /-- an optional part: one more element of a collection, or none -/
  | optItem {p ty us v log t rest log'} : Pat.single p = true → ty ≠ Ty.nil →
      (Pat.assigns p = true → ∀ e, ty ≠ Ty.coll e) →
      Gives env p ty ty.defaultInit log t (some (v, rest)) log' → ty.Holds v →
      Gives env (.opt p) (.coll ty) (.coll us) log t (some (.coll (us ++ [v]), rest)) log'
  | optItemNo {p ty us log t log'} : Pat.single p = true → ty ≠ Ty.nil →
      (Pat.assigns p = true → ∀ e, ty ≠ Ty.coll e) →
      Gives env p ty ty.defaultInit log t none log' →
      Gives env (.opt p) (.coll ty) (.coll us) log t (some (.coll us, t)) log'
  /-- an optional part: its value, or the object is left alone -/
  | opt {p ty u v log t rest log'} : Pat.whole p = true → ty ≠ Ty.nil → (∀ e, ty ≠ Ty.coll e) →
      Gives env p ty ty.defaultInit log t (some (v, rest)) log' → ty.Holds v →
      Gives env (.opt p) ty u log t (some (v, rest)) log'
  | optNo {p ty u log t log'} : Pat.whole p = true → ty ≠ Ty.nil → (∀ e, ty ≠ Ty.coll e) →
      Gives env p ty ty.defaultInit log t none log' →
      Gives env (.opt p) ty u log t (some (u, t)) log'
  /-- lookahead -/
  | not {p ty u log t log'} : Pat.traceless false p = true → Gives env p ty u log t none log' →
      Gives env (.not p) ty u log t (some (u, t)) log'
  | notNo {p ty u v log t rest log'} : Gives env p ty u log t (some (v, rest)) log' →
      Gives env (.not p) ty u log t none log'
  | except {op neg ty u log t log1 o log'} : GivesNil env neg log t none log1 →
      Gives env op ty u log1 t o log' → Gives env (.except op neg) ty u log t o log'
  | exceptNo {op neg ty u log t rest log'} : GivesNil env neg log t (some rest) log' →
      Gives env (.except op neg) ty u log t none log'
  | lexeme {p ty u log t o log'} : Gives env p ty u log t o log' →
      Gives env (.lexeme p) ty u log t o log'
  | bindDst {p ty u log t o log'} : Gives env p ty u log t o log' →
      Gives env (.bindDst p) ty u log t o log'
  | recur {id n q ty u log t o log'} : env id = some q → Gives env q ty u log t o log' →
      Gives env (.recur id n) ty u log t o log'
  /-- `p.as<...>()`: the object made from the values of the parts -/
  | construct {tys p ty u v args log t rest log'} :
      Gives env p (.tup tys) (.tup (Ty.valueInits tys)) log t (some (.tup args, rest)) log' →
      MadeFrom ty args v → Gives env (.construct tys p) ty u log t (some (v, rest)) log'
  | constructNo {tys p ty u log t log'} :
      Gives env p (.tup tys) (.tup (Ty.valueInits tys)) log t none log' →
      Gives env (.construct tys p) ty u log t none log'
  /-- an action: what the function returns -/
  | action {a p ty u u' v log t rest log'} : Act.param a = false → Act.void a = false →
      GivesArg env p a.landing log t (some (v, rest)) log' → v ≠ .indet →
      Receives ty u (a.fn log' v .nil).1 u' →
      Gives env (.action a p) ty u log t (some (u', rest)) (log' ++ [⟨a.id, v⟩])
  | actionVoid {a p ty u v log t rest log'} : Act.param a = false → Act.void a = true →
      GivesArg env p a.landing log t (some (v, rest)) log' → v ≠ .indet →
      Gives env (.action a p) ty u log t (some (u, rest)) (log' ++ [⟨a.id, v⟩])
  | actionNo {a p ty u log t log'} : GivesArg env p a.landing log t none log' →
      Gives env (.action a p) ty u log t none log'
/-- The same without an object. -/
inductive GivesNil (env : Env) : Pat → List LogEntry → List Ch → Option (List Ch) →
    List LogEntry → Prop
  /-- no objects, no actions -/
  | bare {p log t o} : Pat.forNil false (fun _ => false) p = true → PegRest env p t o →
      GivesNil env p log t o log
  | discard {p log t o log'} : GivesNil env p log t o log' → GivesNil env (.discard p) log t o log'
  | recur {id n q log t o log'} : env id = some q → GivesNil env q log t o log' →
      GivesNil env (.recur id n) log t o log'
  | action {a p v log t rest log'} : Act.param a = false →
      GivesArg env p a.landing log t (some (v, rest)) log' → v ≠ .indet →
      GivesNil env (.action a p) log t (some rest) (log' ++ [⟨a.id, v⟩])
  | actionNo {a p log t log'} : GivesArg env p a.landing log t none log' →
      GivesNil env (.action a p) log t none log'
/-- The argument of an action with a parameter of type `ty`. -/
inductive GivesArg (env : Env) : Pat → Ty → List LogEntry → List Ch → Option (Val × List Ch) →
    List LogEntry → Prop
  | nil {p log t rest log'} : GivesNil env p log t (some rest) log' →
      GivesArg env p .nil log t (some (.nil, rest)) log'
  | nilNo {p log t log'} : GivesNil env p log t none log' → GivesArg env p .nil log t none log'
  | value {p ty log t o log'} : ty ≠ .nil → Gives env p ty ty.defaultInit log t o log' →
      GivesArg env p ty log t o log'
/-- The parts of a sequence, those that have a value in the successive slots. -/
inductive GivesEach (env : Env) : List Pat → List Ty → List Val → List LogEntry → List Ch →
    Option (List Val × List Ch) → List LogEntry → Prop
  | nil {ts vs log t} : GivesEach env [] ts vs log t (some (vs, t)) log
  | value {p ps ty ts v vs log t v' t1 log1 ws rest log'} : Pat.valued p = true →
      Gives env p ty v log t (some (v', t1)) log1 →
      GivesEach env ps ts vs log1 t1 (some (ws, rest)) log' →
      GivesEach env (p :: ps) (ty :: ts) (v :: vs) log t (some (v' :: ws, rest)) log'
  | valueNo {p ps ty ts v vs log t log'} : Pat.valued p = true →
      Gives env p ty v log t none log' →
      GivesEach env (p :: ps) (ty :: ts) (v :: vs) log t none log'
  | laterNo {p ps ty ts v vs log t v' t1 log1 log'} : Pat.valued p = true →
      Gives env p ty v log t (some (v', t1)) log1 → GivesEach env ps ts vs log1 t1 none log' →
      GivesEach env (p :: ps) (ty :: ts) (v :: vs) log t none log'
  | ignore {p ps ts vs log t t1 log1 o log'} : Pat.valued p = false →
      GivesNil env p log t (some t1) log1 → GivesEach env ps ts vs log1 t1 o log' →
      GivesEach env (p :: ps) ts vs log t o log'
  | ignoreNo {p ps ts vs log t log'} : Pat.valued p = false → GivesNil env p log t none log' →
      GivesEach env (p :: ps) ts vs log t none log'
/-- The parts of a sequence, those that have a value in the same object. -/
inductive GivesInto (env : Env) : Ty → List Pat → Val → List LogEntry → List Ch →
    Option (Val × List Ch) → List LogEntry → Prop
  | nil {ty u log t} : GivesInto env ty [] u log t (some (u, t)) log
  | value {ty p ps u log t v t1 log1 o log'} : Pat.valued p = true →
      Gives env p ty u log t (some (v, t1)) log1 → GivesInto env ty ps v log1 t1 o log' →
      GivesInto env ty (p :: ps) u log t o log'
  | valueNo {ty p ps u log t log'} : Pat.valued p = true → Gives env p ty u log t none log' →
      GivesInto env ty (p :: ps) u log t none log'
  | ignore {ty p ps u log t t1 log1 o log'} : Pat.valued p = false →
      GivesNil env p log t (some t1) log1 → GivesInto env ty ps u log1 t1 o log' →
      GivesInto env ty (p :: ps) u log t o log'
  | ignoreNo {ty p ps u log t log'} : Pat.valued p = false → GivesNil env p log t none log' →
      GivesInto env ty (p :: ps) u log t none log'
/-- None of the patterns matches. -/
inductive GivesNone (env : Env) : Ty → Val → List Ch → List Pat → List LogEntry → List LogEntry → Prop
  | nil {ty u t log} : GivesNone env ty u t [] log log
  | cons {ty u t p ps log log1 log'} : Gives env p ty u log t none log1 →
      GivesNone env ty u t ps log1 log' → GivesNone env ty u t (p :: ps) log log'
/-- Matches one after the other, each into a new object. -/
inductive GivesMany (env : Env) : Pat → Ty → List LogEntry → List Ch → List Val →
    List LogEntry → List Ch → Prop
  | nil {p ty log t} : GivesMany env p ty log t [] log t
  | cons {p ty log t v t1 log1 vs log' rest} : Gives env p ty ty.defaultInit log t (some (v, t1)) log1 →
      ty.Holds v → GivesMany env p ty log1 t1 vs log' rest →
      GivesMany env p ty log t (v :: vs) log' rest
/-- Separators and items in turn. -/
inductive GivesSep (env : Env) : Pat → Pat → Ty → List LogEntry → List Ch → List Val →
    List LogEntry → List Ch → Prop
  | nil {op sep ty log t} : GivesSep env op sep ty log t [] log t
  | cons {op sep ty log t t1 log1 v t2 log2 vs log' rest} : GivesNil env sep log t (some t1) log1 →
      Gives env op ty ty.defaultInit log1 t1 (some (v, t2)) log2 → ty.Holds v →
      GivesSep env op sep ty log2 t2 vs log' rest →
      GivesSep env op sep ty log t (v :: vs) log' rest
end

end Abu
