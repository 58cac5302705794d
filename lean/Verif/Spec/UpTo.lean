import Verif.Spec.Grammar
/-
Specification vocabulary: outcomes that differ only by skippable text at the end.
-/
namespace Abu

/-- The same verdict, and after a success the same unread text once `*s` is removed from its
start. -/
inductive UpToSkipping (env : Env) (s : Pat) : Option (List Ch) → Option (List Ch) → Prop
  | none : UpToSkipping env s none none
  | some {a b rest} : PegRest env (.rep 0 0 s) a (some rest) → PegRest env (.rep 0 0 s) b (some rest) →
      UpToSkipping env s (some a) (some b)

end Abu
