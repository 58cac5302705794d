import Verif.Model.Api
import Verif.Spec.Schedule
/-
Vocabulary to talk about complete parses and what they leave in memory.
-/
namespace Abu

/-- `parse` on the text, and every parser object the text is delivered to, in whatever pieces and
with whatever `consume` calls in between, end with verdict `v`. -/
def Answers (env : Env) (p : Pat) (dst : Ref) (m : Mem) (t : List Ch) (v : Verdict) : Prop :=
  Parses env p dst m t v ∧
    ∀ ops, Complete ops → opsText ops = t → MakeParserRun env p dst m ops v

/-- An object of type `ty` can hold the value `v` as it is. -/
def Ty.Holds : Ty → Val → Prop
  | .num k, .num i => k ≠ .signed 0 ∧ k.inRange i
  | .coll _, .coll _ => True
  | .tup _, .tup _ => True
  | .user n, .obj n' _ => n = n'
  | _, _ => False

/-- `Stores m dst v m'`: memory `m'` is `m` after the destination received the value `v`, and
nothing else happened. -/
inductive Stores (m : Mem) : Ref → Val → Mem → Prop
  /-- no destination -/
  | ignored {v} : Stores m .nil v m
  /-- an object that is not a collection holds the value afterwards -/
  | value {o ty v old} : (∀ t, ty ≠ .coll t) → ty.Holds v → m.objs[o]? = some old →
      Stores m (.at o [] ty) v ⟨m.objs.set o v, m.log⟩
  /-- a collection gets one more element -/
  | element {o ty v vs} : ty.Holds v → m.objs[o]? = some (.coll vs) →
      Stores m (.at o [] (.coll ty)) v ⟨m.objs.set o (.coll (vs ++ [v])), m.log⟩

end Abu
