import Verif.Spec.Gives
/-
The values a grammar computes when the characters of a set are skipped: as in `Spec/Gives.lean`,
but before every token the text is taken up after those characters. Between tokens nothing else is
said about them.
-/
namespace Abu

/-- The text after the characters of the set that it begins with. -/
def skipped (S : CharSet) (t : List Ch) : List Ch := t.dropWhile S.isValid

/-- The patterns inside of which nothing is skipped. -/
def Pat.token : Pat → Bool
  | .char _ => true
  | .strLit _ => true
  | .symbol _ => true
  | .int .. => true
  | .uint .. => true
  | .eoi => true
  | .pass => true
  | .fail => true
  | .lexeme _ => true
  | _ => false

mutual
/-- `GivesSk env S p ty u log t o log'`: matching the text `t` with `p`, skipping the characters of
`S`, into an object of type `ty` that holds `u`, after the calls `log`. -/
inductive GivesSk (env : Env) (S : CharSet) : Pat → Ty → Val → List LogEntry → List Ch →
    Option (Val × List Ch) → List LogEntry → Prop
  /-- a token, after what is skipped -/
  | token {p ty u log t o log'} : Pat.token p = true → Gives env p ty u log (skipped S t) o log' →
      GivesSk env S p ty u log t o log'
  | discard {p ty u log t rest log'} : GivesSkNil env S p log t (some rest) log' →
      GivesSk env S (.discard p) ty u log t (some (u, rest)) log'
  | discardNo {p ty u log t log'} : GivesSkNil env S p log t none log' →
      GivesSk env S (.discard p) ty u log t none log'
  | seq {ps ts vs ws log t rest log'} : ps ≠ [] → (∀ ty ∈ ts, ty ≠ Ty.nil) →
      GivesSkEach env S ps ts vs log t (some (ws, rest)) log' →
      GivesSk env S (.seq ps) (.tup ts) (.tup vs) log t (some (.tup ws, rest)) log'
  | seqNo {ps ts vs log t log'} : ps ≠ [] → (∀ ty ∈ ts, ty ≠ Ty.nil) →
      GivesSkEach env S ps ts vs log t none log' →
      GivesSk env S (.seq ps) (.tup ts) (.tup vs) log t none log'
  | seqInto {ps ty u v log t rest log'} : ps ≠ [] → (∀ ts, ty ≠ Ty.tup ts) →
      GivesSkInto env S ty ps u log t (some (v, rest)) log' →
      GivesSk env S (.seq ps) ty u log t (some (v, rest)) log'
  | seqIntoNo {ps ty u log t log'} : ps ≠ [] → (∀ ts, ty ≠ Ty.tup ts) →
      GivesSkInto env S ty ps u log t none log' → GivesSk env S (.seq ps) ty u log t none log'
  | alt {ps q qs ty u log t log1 v rest log'} :
      (∀ p ∈ ps, Pat.traceless false p = true) ∨
        ((∀ p ∈ ps ++ [q], Pat.assigns p = true) ∧ ∀ e, ty ≠ Ty.coll e) →
      GivesSkNone env S ty u t ps log log1 → GivesSk env S q ty u log1 t (some (v, rest)) log' →
      GivesSk env S (.alt (ps ++ q :: qs)) ty u log t (some (v, rest)) log'
  | altNo {ps ty u log t log'} : ps ≠ [] →
      (∀ p ∈ ps, Pat.traceless false p = true) ∨
        ((∀ p ∈ ps, Pat.assigns p = true) ∧ ∀ e, ty ≠ Ty.coll e) →
      GivesSkNone env S ty u t ps log log' → GivesSk env S (.alt ps) ty u log t none log'
  | repMax {p mn mx ty us vs log t log' rest} : Pat.single p = true → ty ≠ Ty.nil →
      (Pat.assigns p = true → ∀ e, ty ≠ Ty.coll e) → mn ≤ mx → mx ≠ 0 →
      GivesSkMany env S p ty log t vs log' rest → vs.length = mx →
      GivesSk env S (.rep mn mx p) (.coll ty) (.coll us) log t (some (.coll (us ++ vs), rest)) log'
  | rep {p mn mx ty us vs log t log1 rest log'} : Pat.single p = true → ty ≠ Ty.nil →
      (Pat.assigns p = true → ∀ e, ty ≠ Ty.coll e) → (mx = 0 ∨ mn ≤ mx) →
      GivesSkMany env S p ty log t vs log1 rest → mn ≤ vs.length → (mx = 0 ∨ vs.length < mx) →
      GivesSk env S p ty ty.defaultInit log1 rest none log' →
      GivesSk env S (.rep mn mx p) (.coll ty) (.coll us) log t (some (.coll (us ++ vs), rest)) log'
  | repNo {p mn mx ty us vs log t log1 rest log'} : Pat.single p = true → ty ≠ Ty.nil →
      (Pat.assigns p = true → ∀ e, ty ≠ Ty.coll e) → (mx = 0 ∨ mn ≤ mx) →
      GivesSkMany env S p ty log t vs log1 rest → vs.length < mn →
      GivesSk env S p ty ty.defaultInit log1 rest none log' →
      GivesSk env S (.rep mn mx p) (.coll ty) (.coll us) log t none log'
  | listNil {op sep ty us log t log'} : Pat.single op = true → ty ≠ Ty.nil →
      (Pat.assigns op = true → ∀ e, ty ≠ Ty.coll e) →
      GivesSk env S op ty ty.defaultInit log t none log' →
      GivesSk env S (.list op sep) (.coll ty) (.coll us) log t (some (.coll us, t)) log'
  | listSep {op sep ty us v vs log t log0 t0 log1 rest log'} : Pat.single op = true → ty ≠ Ty.nil →
      (Pat.assigns op = true → ∀ e, ty ≠ Ty.coll e) →
      GivesSk env S op ty ty.defaultInit log t (some (v, t0)) log0 → ty.Holds v →
      GivesSkSep env S op sep ty log0 t0 vs log1 rest → GivesSkNil env S sep log1 rest none log' →
      GivesSk env S (.list op sep) (.coll ty) (.coll us) log t (some (.coll (us ++ v :: vs), rest)) log'
  | listItem {op sep ty us v vs log t log0 t0 log1 rest log2 t2 log'} : Pat.single op = true →
      ty ≠ Ty.nil → (Pat.assigns op = true → ∀ e, ty ≠ Ty.coll e) →
      GivesSk env S op ty ty.defaultInit log t (some (v, t0)) log0 → ty.Holds v →
      GivesSkSep env S op sep ty log0 t0 vs log1 rest → GivesSkNil env S sep log1 rest (some t2) log2 →
      GivesSk env S op ty ty.defaultInit log2 t2 none log' →
      GivesSk env S (.list op sep) (.coll ty) (.coll us) log t (some (.coll (us ++ v :: vs), rest)) log'
  | not {p ty u log t log'} : Pat.traceless false p = true → GivesSk env S p ty u log t none log' →
      GivesSk env S (.not p) ty u log t (some (u, t)) log'
  | notNo {p ty u v log t rest log'} : GivesSk env S p ty u log t (some (v, rest)) log' →
      GivesSk env S (.not p) ty u log t none log'
  | except {op neg ty u log t log1 o log'} : GivesSkNil env S neg log t none log1 →
      GivesSk env S op ty u log1 t o log' → GivesSk env S (.except op neg) ty u log t o log'
  | exceptNo {op neg ty u log t rest log'} : GivesSkNil env S neg log t (some rest) log' →
      GivesSk env S (.except op neg) ty u log t none log'
  | bindDst {p ty u log t o log'} : GivesSk env S p ty u log t o log' →
      GivesSk env S (.bindDst p) ty u log t o log'
  | recur {id n q ty u log t o log'} : env id = some q → GivesSk env S q ty u log t o log' →
      GivesSk env S (.recur id n) ty u log t o log'
  | construct {tys p ty u v args log t rest log'} :
      GivesSk env S p (.tup tys) (.tup (Ty.valueInits tys)) log t (some (.tup args, rest)) log' →
      MadeFrom ty args v → GivesSk env S (.construct tys p) ty u log t (some (v, rest)) log'
  | constructNo {tys p ty u log t log'} :
      GivesSk env S p (.tup tys) (.tup (Ty.valueInits tys)) log t none log' →
      GivesSk env S (.construct tys p) ty u log t none log'
  | action {a p ty u u' v log t rest log'} : Act.param a = false → Act.void a = false →
      GivesSkArg env S p a.landing log t (some (v, rest)) log' → v ≠ .indet →
      Receives ty u (a.fn log' v .nil).1 u' →
      GivesSk env S (.action a p) ty u log t (some (u', rest)) (log' ++ [⟨a.id, v⟩])
  | actionVoid {a p ty u v log t rest log'} : Act.param a = false → Act.void a = true →
      GivesSkArg env S p a.landing log t (some (v, rest)) log' → v ≠ .indet →
      GivesSk env S (.action a p) ty u log t (some (u, rest)) (log' ++ [⟨a.id, v⟩])
  | actionNo {a p ty u log t log'} : GivesSkArg env S p a.landing log t none log' →
      GivesSk env S (.action a p) ty u log t none log'
/-- The same without an object. -/
inductive GivesSkNil (env : Env) (S : CharSet) : Pat → List LogEntry → List Ch → Option (List Ch) →
    List LogEntry → Prop
  | token {p log t o log'} : Pat.token p = true → GivesNil env p log (skipped S t) o log' →
      GivesSkNil env S p log t o log'
  | discard {p log t o log'} : GivesSkNil env S p log t o log' →
      GivesSkNil env S (.discard p) log t o log'
  | recur {id n q log t o log'} : env id = some q → GivesSkNil env S q log t o log' →
      GivesSkNil env S (.recur id n) log t o log'
  | seq {ps log t o log'} : ps ≠ [] → GivesSkNils env S ps log t o log' →
      GivesSkNil env S (.seq ps) log t o log'
  | alt {ps q qs log t log1 rest log'} : GivesSkNilNone env S t ps log log1 →
      GivesSkNil env S q log1 t (some rest) log' →
      GivesSkNil env S (.alt (ps ++ q :: qs)) log t (some rest) log'
  | altNo {ps log t log'} : ps ≠ [] → GivesSkNilNone env S t ps log log' →
      GivesSkNil env S (.alt ps) log t none log'
  | action {a p v log t rest log'} : Act.param a = false →
      GivesSkArg env S p a.landing log t (some (v, rest)) log' → v ≠ .indet →
      GivesSkNil env S (.action a p) log t (some rest) (log' ++ [⟨a.id, v⟩])
  | actionNo {a p log t log'} : GivesSkArg env S p a.landing log t none log' →
      GivesSkNil env S (.action a p) log t none log'
/-- Several, one after the other. -/
inductive GivesSkNils (env : Env) (S : CharSet) : List Pat → List LogEntry → List Ch →
    Option (List Ch) → List LogEntry → Prop
  | nil {log t} : GivesSkNils env S [] log t (some t) log
  | cons {p ps log t t1 log1 o log'} : GivesSkNil env S p log t (some t1) log1 →
      GivesSkNils env S ps log1 t1 o log' → GivesSkNils env S (p :: ps) log t o log'
  | consNo {p ps log t log'} : GivesSkNil env S p log t none log' →
      GivesSkNils env S (p :: ps) log t none log'
/-- None of the patterns matches. -/
inductive GivesSkNilNone (env : Env) (S : CharSet) : List Ch → List Pat → List LogEntry →
    List LogEntry → Prop
  | nil {t log} : GivesSkNilNone env S t [] log log
  | cons {t p ps log log1 log'} : GivesSkNil env S p log t none log1 →
      GivesSkNilNone env S t ps log1 log' → GivesSkNilNone env S t (p :: ps) log log'
/-- The argument of an action with a parameter of type `ty`. -/
inductive GivesSkArg (env : Env) (S : CharSet) : Pat → Ty → List LogEntry → List Ch →
    Option (Val × List Ch) → List LogEntry → Prop
  | nil {p log t rest log'} : GivesSkNil env S p log t (some rest) log' →
      GivesSkArg env S p .nil log t (some (.nil, rest)) log'
  | nilNo {p log t log'} : GivesSkNil env S p log t none log' →
      GivesSkArg env S p .nil log t none log'
  | value {p ty log t o log'} : ty ≠ .nil → GivesSk env S p ty ty.defaultInit log t o log' →
      GivesSkArg env S p ty log t o log'
/-- The parts of a sequence, those that have a value in the successive slots. -/
inductive GivesSkEach (env : Env) (S : CharSet) : List Pat → List Ty → List Val → List LogEntry →
    List Ch → Option (List Val × List Ch) → List LogEntry → Prop
  | nil {ts vs log t} : GivesSkEach env S [] ts vs log t (some (vs, t)) log
  | value {p ps ty ts v vs log t v' t1 log1 ws rest log'} : Pat.valued p = true →
      GivesSk env S p ty v log t (some (v', t1)) log1 →
      GivesSkEach env S ps ts vs log1 t1 (some (ws, rest)) log' →
      GivesSkEach env S (p :: ps) (ty :: ts) (v :: vs) log t (some (v' :: ws, rest)) log'
  | valueNo {p ps ty ts v vs log t log'} : Pat.valued p = true →
      GivesSk env S p ty v log t none log' →
      GivesSkEach env S (p :: ps) (ty :: ts) (v :: vs) log t none log'
  | laterNo {p ps ty ts v vs log t v' t1 log1 log'} : Pat.valued p = true →
      GivesSk env S p ty v log t (some (v', t1)) log1 → GivesSkEach env S ps ts vs log1 t1 none log' →
      GivesSkEach env S (p :: ps) (ty :: ts) (v :: vs) log t none log'
  | ignore {p ps ts vs log t t1 log1 o log'} : Pat.valued p = false →
      GivesSkNil env S p log t (some t1) log1 → GivesSkEach env S ps ts vs log1 t1 o log' →
      GivesSkEach env S (p :: ps) ts vs log t o log'
  | ignoreNo {p ps ts vs log t log'} : Pat.valued p = false → GivesSkNil env S p log t none log' →
      GivesSkEach env S (p :: ps) ts vs log t none log'
/-- The parts of a sequence, those that have a value in the same object. -/
inductive GivesSkInto (env : Env) (S : CharSet) : Ty → List Pat → Val → List LogEntry → List Ch →
    Option (Val × List Ch) → List LogEntry → Prop
  | nil {ty u log t} : GivesSkInto env S ty [] u log t (some (u, t)) log
  | value {ty p ps u log t v t1 log1 o log'} : Pat.valued p = true →
      GivesSk env S p ty u log t (some (v, t1)) log1 → GivesSkInto env S ty ps v log1 t1 o log' →
      GivesSkInto env S ty (p :: ps) u log t o log'
  | valueNo {ty p ps u log t log'} : Pat.valued p = true → GivesSk env S p ty u log t none log' →
      GivesSkInto env S ty (p :: ps) u log t none log'
  | ignore {ty p ps u log t t1 log1 o log'} : Pat.valued p = false →
      GivesSkNil env S p log t (some t1) log1 → GivesSkInto env S ty ps u log1 t1 o log' →
      GivesSkInto env S ty (p :: ps) u log t o log'
  | ignoreNo {ty p ps u log t log'} : Pat.valued p = false → GivesSkNil env S p log t none log' →
      GivesSkInto env S ty (p :: ps) u log t none log'
/-- None of the patterns matches. -/
inductive GivesSkNone (env : Env) (S : CharSet) : Ty → Val → List Ch → List Pat → List LogEntry →
    List LogEntry → Prop
  | nil {ty u t log} : GivesSkNone env S ty u t [] log log
  | cons {ty u t p ps log log1 log'} : GivesSk env S p ty u log t none log1 →
      GivesSkNone env S ty u t ps log1 log' → GivesSkNone env S ty u t (p :: ps) log log'
/-- Matches one after the other, each into a new object. -/
inductive GivesSkMany (env : Env) (S : CharSet) : Pat → Ty → List LogEntry → List Ch → List Val →
    List LogEntry → List Ch → Prop
  | nil {p ty log t} : GivesSkMany env S p ty log t [] log t
  | cons {p ty log t v t1 log1 vs log' rest} :
      GivesSk env S p ty ty.defaultInit log t (some (v, t1)) log1 →
      ty.Holds v → GivesSkMany env S p ty log1 t1 vs log' rest →
      GivesSkMany env S p ty log t (v :: vs) log' rest
/-- Separators and items in turn. -/
inductive GivesSkSep (env : Env) (S : CharSet) : Pat → Pat → Ty → List LogEntry → List Ch →
    List Val → List LogEntry → List Ch → Prop
  | nil {op sep ty log t} : GivesSkSep env S op sep ty log t [] log t
  | cons {op sep ty log t t1 log1 v t2 log2 vs log' rest} :
      GivesSkNil env S sep log t (some t1) log1 →
      GivesSk env S op ty ty.defaultInit log1 t1 (some (v, t2)) log2 → ty.Holds v →
      GivesSkSep env S op sep ty log2 t2 vs log' rest →
      GivesSkSep env S op sep ty log t (v :: vs) log' rest
end

end Abu
