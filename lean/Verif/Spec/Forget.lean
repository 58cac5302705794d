import Verif.Model.Pattern
/-
Specification vocabulary: patterns up to what their actions compute.
-/
namespace Abu

mutual
/-- Replace every action of the pattern. -/
def Pat.mapAct (g : Act → Act) : Pat → Pat
  | .seq ps => .seq (Pat.mapActs g ps)
  | .alt ps => .alt (Pat.mapActs g ps)
  | .rep mn mx p => .rep mn mx (p.mapAct g)
  | .opt p => .opt (p.mapAct g)
  | .not p => .not (p.mapAct g)
  | .discard p => .discard (p.mapAct g)
  | .lexeme p => .lexeme (p.mapAct g)
  | .bindDst p => .bindDst (p.mapAct g)
  | .construct tys p => .construct tys (p.mapAct g)
  | .action a p => .action (g a) (p.mapAct g)
  | .except op neg => .except (op.mapAct g) (neg.mapAct g)
  | .list op sep => .list (op.mapAct g) (sep.mapAct g)
  | .withSkipper p s => .withSkipper (p.mapAct g) (s.mapAct g)
  | p => p
/-- `Pat.mapAct` on every pattern of a list. -/
def Pat.mapActs (g : Act → Act) : List Pat → List Pat
  | [] => []
  | p :: ps => p.mapAct g :: Pat.mapActs g ps
end

/-- Forget what the action computes. -/
def Act.forget (a : Act) : Act := { a with fn := fun _ _ _ => (.nil, .nil) }

/-- Forget what actions compute. -/
def Pat.forget (p : Pat) : Pat := p.mapAct Act.forget

/-- The same for the patterns of `Recur` objects. -/
def Env.mapAct (g : Act → Act) (env : Env) : Env := fun id => (env id).map (Pat.mapAct g)

/-- Forget what actions compute, in the patterns of `Recur` objects. -/
def Env.forget (env : Env) : Env := Env.mapAct Act.forget env

end Abu
