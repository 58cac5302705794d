import Verif.Model.Pattern
/-
Using a pattern directly instead of naming it through a `Recur`.
-/
namespace Abu

mutual
/-- `Inlined env p p'`: `p'` is `p` with any number of occurrences of `Recur`s replaced by the
patterns they stand for. -/
inductive Inlined (env : Env) : Pat → Pat → Prop
  | refl {p} : Inlined env p p
  | recur {id n q} : env id = some q → Inlined env (.recur id n) q
  | seq {ps ps'} : InlinedAll env ps ps' → Inlined env (.seq ps) (.seq ps')
  | alt {ps ps'} : InlinedAll env ps ps' → Inlined env (.alt ps) (.alt ps')
  | rep {mn mx p p'} : Inlined env p p' → Inlined env (.rep mn mx p) (.rep mn mx p')
  | opt {p p'} : Inlined env p p' → Inlined env (.opt p) (.opt p')
  | not {p p'} : Inlined env p p' → Inlined env (.not p) (.not p')
  | discard {p p'} : Inlined env p p' → Inlined env (.discard p) (.discard p')
  | lexeme {p p'} : Inlined env p p' → Inlined env (.lexeme p) (.lexeme p')
  | bindDst {p p'} : Inlined env p p' → Inlined env (.bindDst p) (.bindDst p')
  | construct {tys p p'} : Inlined env p p' → Inlined env (.construct tys p) (.construct tys p')
  | action {a p p'} : Inlined env p p' → Inlined env (.action a p) (.action a p')
  | except {p p' q q'} : Inlined env p p' → Inlined env q q' →
      Inlined env (.except p q) (.except p' q')
  | list {p p' q q'} : Inlined env p p' → Inlined env q q' → Inlined env (.list p q) (.list p' q')
/-- Element by element. -/
inductive InlinedAll (env : Env) : List Pat → List Pat → Prop
  | nil : InlinedAll env [] []
  | cons {p p' ps ps'} : Inlined env p p' → InlinedAll env ps ps' →
      InlinedAll env (p :: ps) (p' :: ps')
end

/-- Is the pattern, up to `discard` and `lexeme`, an `apply_skipper`? -/
def Pat.startsWithSkipper : Pat → Bool
  | .withSkipper .. => true
  | .discard p => p.startsWithSkipper
  | .lexeme p => p.startsWithSkipper
  | _ => false

end Abu
