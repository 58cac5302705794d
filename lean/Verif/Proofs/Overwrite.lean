import Verif.Model.Dst
/-
What an action writes to the bound destination.
-/
namespace Abu

theorem overwrite_eq {old new v : Val} (h : old.overwrite new = .ok v) : v = new := by
  cases old <;> cases new <;> first | (cases h; rfl) | cases h

theorem overwrite_whole {old new : Val} (h : new ≠ .indet) : old.overwrite new = .ok new := by
  cases old <;> cases new <;> first | rfl | exact absurd rfl h

theorem overwrite_same (v : Val) : v.overwrite v = .ok v := by cases v <;> rfl

theorem overwrite_error {old new : Val} {e} (h : old.overwrite new = .error e) : e = .ubUninit := by
  cases old <;> cases new <;> first | (cases h; rfl) | cases h

end Abu
