/-
/repo/include/abulafia/support/variant_utils.h and `is_one_of` of support/type_traits.h: computations with
types. Nothing in the library uses them.
-/
namespace Abu

/-- C++ types: `std::variant<ts...>`, and all others, which are not looked into. -/
inductive CxxTy
  | other (name : Nat)
  | variant (ts : List CxxTy)

mutual
/-- `std::is_same` -/
def CxxTy.same : CxxTy → CxxTy → Bool
  | .other a, .other b => a == b
  | .variant ts, .variant us => CxxTy.sames ts us
  | _, _ => false
/-- Of all template arguments. -/
def CxxTy.sames : List CxxTy → List CxxTy → Bool
  | [], [] => true
  | t :: ts, u :: us => t.same u && CxxTy.sames ts us
  | _, _ => false
end

/-- support/type_traits.h:30-36 `is_one_of<t, us...>` -/
def isOneOf (t : CxxTy) : List CxxTy → Bool
  | [] => false
  | u :: us => if t.same u then true else isOneOf t us

/-- support/variant_utils.h:19-23 `is_variant` -/
def isVariant : CxxTy → Bool
  | .other _ => false
  | .variant _ => true

/-- support/variant_utils.h:25-47 `variant_cat<l, r>::type`; `none`: it does not compile, as both partial
specialisations match and neither is more specialised. -/
def variantCat : CxxTy → CxxTy → Option CxxTy
  | .variant _, .variant _ => none
  | l, .variant rs => some (if isOneOf l rs then .variant rs else .variant (l :: rs))
  | .variant ls, r => some (if isOneOf r ls then .variant ls else .variant (ls ++ [r]))
  | l, r => some (if l.same r then l else .variant [l, r])

end Abu
