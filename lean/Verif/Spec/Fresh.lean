import Verif.Model.Dst
/-
Specification vocabulary for objects nothing has been stored in.
-/
namespace Abu

mutual
/-- The value of `T()`. -/
inductive ValueInitialised : Ty → Val → Prop
  | nil : ValueInitialised .nil .nil
  | num {k} : ValueInitialised (.num k) (.num 0)
  | coll {t} : ValueInitialised (.coll t) (.coll [])
  | tup {ts vs} : AllValueInitialised ts vs → ValueInitialised (.tup ts) (.tup vs)
  | user {n} : ValueInitialised (.user n) (.obj n [])
/-- The values of `T()...`. -/
inductive AllValueInitialised : List Ty → List Val → Prop
  | nil : AllValueInitialised [] []
  | cons {t ts v vs} : ValueInitialised t v → AllValueInitialised ts vs →
      AllValueInitialised (t :: ts) (v :: vs)
end

/-- The value of `x` after `T x;`: numbers have none. -/
inductive DefaultInitialised : Ty → Val → Prop
  | num {k} : DefaultInitialised (.num k) .indet
  | other {t v} : (∀ k, t ≠ .num k) → ValueInitialised t v → DefaultInitialised t v

end Abu
