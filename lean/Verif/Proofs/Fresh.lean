import Verif.Spec.Fresh
/-
Objects nothing has been stored in, in the model.
-/
namespace Abu

mutual
theorem ValueInitialised.eq : ∀ {t v}, ValueInitialised t v → v = t.valueInit
  | _, _, .nil | _, _, .num | _, _, .coll | _, _, .user => rfl
  | _, _, .tup h => by rw [h.eq]; rfl
theorem AllValueInitialised.eq : ∀ {ts vs}, AllValueInitialised ts vs → vs = Ty.valueInits ts
  | _, _, .nil => rfl
  | _, _, .cons h h' => by rw [h.eq, h'.eq]; rfl
end

mutual
theorem valueInit_is : ∀ (t : Ty), ValueInitialised t t.valueInit
  | .nil => .nil
  | .num _ => .num
  | .coll _ => .coll
  | .tup ts => .tup (valueInits_are ts)
  | .user _ => .user
theorem valueInits_are : ∀ (ts : List Ty), AllValueInitialised ts (Ty.valueInits ts)
  | [] => .nil
  | t :: ts => .cons (valueInit_is t) (valueInits_are ts)
end

theorem DefaultInitialised.eq {t v} (h : DefaultInitialised t v) : v = t.defaultInit := by
  cases h with
  | num => rfl
  | other h1 h2 =>
    rw [h2.eq]
    cases t with
    | num k => exact absurd rfl (h1 k)
    | _ => rfl

/-- `Ty.defaultInit`, which the specifications of C31 and C76 use, is what it should be. -/
theorem defaultInit_is (t : Ty) : DefaultInitialised t t.defaultInit := by
  cases t with
  | num k => exact .num
  | _ => exact .other nofun (valueInit_is _)

end Abu
