import Verif.Model.Variants
/-
Vocabulary for C83.
-/
namespace Abu

/-- The types an object of the type may hold a value of. -/
def CxxTy.holds : CxxTy → List CxxTy
  | .variant ts => ts
  | t => [t]

end Abu
