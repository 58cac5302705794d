import Verif.Spec.Memory
/-
Vocabulary to talk about initialised values.
-/
namespace Abu

mutual
/-- Every scalar in the value is initialised. -/
def Val.whole : Val → Bool
  | .nil => true
  | .indet => false
  | .num _ => true
  | .coll vs => Val.wholes vs
  | .tup vs => Val.wholes vs
  | .obj _ args => Val.wholes args
/-- For all of a list. -/
def Val.wholes : List Val → Bool
  | [] => true
  | v :: vs => v.whole && Val.wholes vs
end

mutual
/-- Every value of the symbol table is initialised. -/
def Node.whole : Node → Bool
  | .mk v kids => (match v with | none => true | some x => x.whole) && kids.whole
/-- For all entries. -/
def Kids.whole : Kids → Bool
  | .nil => true
  | .cons _ n rest => n.whole && rest.whole
end

/-- The type of the object behind a reference. -/
def Ref.ty : Ref → Ty
  | .nil => .nil
  | .at _ _ t => t

/-- Types whose objects are not initialised by default. -/
def Ty.scalar : Ty → Bool
  | .num _ => true
  | _ => false

/-- The type of one element of a collection, other types themselves. -/
def Ty.item : Ty → Ty
  | .coll t => t
  | t => t

/-- The type of a slot of a tuple, other types themselves. -/
def Ty.slot : Ty → Nat → Ty
  | .tup ts, k => (ts[k]?).getD .nil
  | t, _ => t

/-- Given an initialised value, the action returns one, and leaves an initialised value, if it
changes the bound destination at all. -/
def Act.Tame (a : Act) : Prop :=
  ∀ log v b, v.whole = true →
    (a.fn log v b).1.whole = true ∧ ((a.fn log v b).2.whole = true ∨ (a.fn log v b).2 = b)

mutual
/-- All values the user puts in the pattern are initialised. -/
def Pat.Tame : Pat → Prop
  | .charSymbol m => ∀ e ∈ m, e.2.whole = true
  | .symbol n => n.whole = true
  | .seq ps => Pat.AllTame ps
  | .alt ps => Pat.AllTame ps
  | .rep _ _ p => p.Tame
  | .opt p => p.Tame
  | .not p => p.Tame
  | .discard p => p.Tame
  | .lexeme p => p.Tame
  | .bindDst p => p.Tame
  | .construct _ p => p.Tame
  | .action a p => a.Tame ∧ p.Tame
  | .except op neg => op.Tame ∧ neg.Tame
  | .list op sep => op.Tame ∧ sep.Tame
  | .withSkipper p s => p.Tame ∧ s.Tame
  | _ => True
/-- For all of a list. -/
def Pat.AllTame : List Pat → Prop
  | [] => True
  | p :: ps => p.Tame ∧ Pat.AllTame ps
end

mutual
/-- Patterns that write their destination, when it is a scalar, whenever they match. `F` tells which
`Recur` objects do. -/
def Pat.surely (F : Nat → Bool) : Pat → Bool
  | .char _ => true
  | .charSymbol _ => true
  | .strLit _ => false
  | .symbol _ => true
  | .int .. => true
  | .uint .. => true
  | .eoi => false
  | .pass => false
  | .fail => true
  | .seq ps => Pat.someSurely F ps
  | .alt ps => Pat.allSurely F ps
  | .rep mn _ p => mn != 0 && p.surely F
  | .opt _ => false
  | .not _ => false
  | .discard _ => false
  | .lexeme p => p.surely F
  | .bindDst p => p.surely F
  | .construct .. => true
  | .action a _ => !a.void
  | .except op _ => op.surely F
  | .list .. => false
  | .withSkipper p _ => p.surely F
  | .recur id _ => F id
/-- One of the children that get the destination does. -/
def Pat.someSurely (F : Nat → Bool) : List Pat → Bool
  | [] => false
  | p :: ps => (p.valued && p.surely F) || Pat.someSurely F ps
/-- All do. -/
def Pat.allSurely (F : Nat → Bool) : List Pat → Bool
  | [] => true
  | p :: ps => p.surely F && Pat.allSurely F ps
end

/-- A pattern `p` whose parser is buffered when required to be atomic: the buffer for one element of
a destination of type `ty` is initialised by default, or by `p`. -/
def bufferSafe (F : Nat → Bool) (atomic : Bool) (ty : Ty) (p : Pat) : Bool :=
  !(atomic && ty.item.scalar) || p.surely F

/-- The type of the destination behind the buffer, if any. -/
def Ty.inner (atomic : Bool) (ty : Ty) : Ty := if atomic then ty.item else ty

mutual
/-- In the parser of the pattern, required to be atomic (`atomic = true`) or not, with a destination
of type `ty`: the operand of every action with a scalar parameter, and every pattern parsed into a
scalar buffer, writes its destination whenever it matches. `G` tells with which types of destination
`Recur` objects are used. -/
def Pat.careful (F : Nat → Bool) (G : Nat → Ty → Bool) (atomic : Bool) (ty : Ty) : Pat → Bool
  | .seq ps =>
    bufferSafe F atomic ty (.seq ps) && Pat.carefulSeq F G (ty.inner atomic) 0 ps
  | .alt ps => Pat.allCareful F G atomic ty ps
  | .rep mn mx p => bufferSafe F atomic ty (.rep mn mx p) && p.careful F G true (ty.inner atomic)
  | .opt p => p.careful F G true ty
  | .not p => p.careful F G false ty
  | .discard p => p.careful F G atomic .nil
  | .lexeme p => p.careful F G atomic ty
  | .bindDst p => bufferSafe F atomic ty (.bindDst p) && p.careful F G false (ty.inner atomic)
  | .construct tys p => p.careful F G false (.tup tys)
  | .action a p => (!a.landing.scalar || p.surely F) && p.careful F G false a.landing
  | .except op neg => op.careful F G atomic ty && neg.careful F G false .nil
  | .list op sep =>
    bufferSafe F atomic ty (.list op sep) && op.careful F G true (ty.inner atomic) &&
      sep.careful F G false .nil
  | .withSkipper p s =>
    bufferSafe F (atomic && !p.ATOMIC) ty p &&
      p.careful F G (atomic && p.ATOMIC) (ty.inner (atomic && !p.ATOMIC)) &&
      s.careful F G false .nil
  | .recur id n => bufferSafe F atomic ty (.recur id n) && G id (ty.inner atomic)
  | _ => true
/-- For all of a list. -/
def Pat.allCareful (F : Nat → Bool) (G : Nat → Ty → Bool) (atomic : Bool) (ty : Ty) :
    List Pat → Bool
  | [] => true
  | p :: ps => p.careful F G atomic ty && Pat.allCareful F G atomic ty ps
/-- For the children of a sequence, `k` being the number of the next slot. -/
def Pat.carefulSeq (F : Nat → Bool) (G : Nat → Ty → Bool) (ty : Ty) (k : Nat) : List Pat → Bool
  | [] => true
  | p :: ps =>
    if p.valued then p.careful F G false (ty.slot k) && Pat.carefulSeq F G ty (k + 1) ps
    else p.careful F G false .nil && Pat.carefulSeq F G ty k ps
end

/-- The patterns of `Recur` objects do what `F` and `G` tell. -/
def Env.Careful (F : Nat → Bool) (G : Nat → Ty → Bool) (env : Env) : Prop :=
  ∀ id q, env id = some q → q.Tame ∧ (F id = true → q.surely F = true) ∧
    ∀ ty, G id ty = true → q.careful F G false ty = true

/-- The object behind the reference exists and is initialised. -/
def Mem.Filled (m : Mem) : Ref → Prop
  | .nil => True
  | .at o _ _ => ∃ v, m.objs[o]? = some v ∧ v.whole = true

end Abu
