import Verif.Spec.Compatible
/-
The destinations docs/reference.md calls compatible with a pattern.
-/
namespace Abu

/-- `std::vector`, `std::string`. -/
def Ty.isColl : Ty → Bool
  | .coll _ => true
  | _ => false

/-- `std::tuple`. -/
def Ty.isTup : Ty → Bool
  | .tup _ => true
  | _ => false

/-- The function of the action returns values of type `D`, and leaves the bound destination (of type
`B`) alone or a value of its type. -/
def Act.Gives (B D : Ty) (a : Act) : Prop :=
  ∀ log v b, a.landing.has v → (if a.param then B.holds b else b = .nil) →
    D.has (a.fn log v b).1 ∧ (a.param = true → B.has (a.fn log v b).2 ∨ (a.fn log v b).2 = b)

mutual
/-- Patterns that give their value in one piece, when they have matched. -/
def Pat.onePiece : Pat → Bool
  | .char _ => true
  | .charSymbol _ => true
  | .symbol _ => true
  | .action a _ => !a.void
  | .alt ps => Pat.allOnePiece ps
  | .except op _ => op.onePiece
  | .lexeme p => p.onePiece
  | _ => false
/-- For all of a list. -/
def Pat.allOnePiece : List Pat → Bool
  | [] => true
  | p :: ps => p.onePiece && Pat.allOnePiece ps
end

/-- What a child of a sequence has for a vector: nothing, an item, items. -/
inductive Part
  | none | one | many

/-- `Documented full N G B item p D`: the reference calls `D` a destination compatible with `p`
(docs/reference.md:18-80). `item`: for one item of a repetition or list. `B`: the bound destination.
`N`: the number types in use. `G`: the destinations `Recur` objects are used with.

With `full = false`, without those parts of the rules that are not true of the code:
symbols and actions with collections as values (:43-44, :59), alternatives and sequences of patterns
without value counting as such in sequences, a sequence with a single value that is a tuple (:78), a
vector given items that are not in one piece (:79), types other than tuples made of the values of a
sequence (:80). -/
inductive Documented (full : Bool) (N : NumKind → Prop) (G : Nat → Ty → Prop) (B : Ty) :
    Bool → Pat → Ty → Prop
  /-- :21-24 -/
  | char {item cs k} : Documented full N G B item (.char cs) (.num k)
  /-- :29-32 -/
  | int {item base mn mx k} : N k → Documented full N G B item (.int base mn mx) (.num k)
  | uint {item base mn mx k} : N k → Documented full N G B item (.uint base mn mx) (.num k)
  /-- :38 -/
  | strLit {item s} : Documented full N G B item (.strLit s) .nil
  /-- :37; `lit('c')` is `discard(char_('c'))` -/
  | discard {item item' p D} : Documented full N G B item' p D →
      Documented full N G B item (.discard p) .nil
  /-- :43 -/
  | charSymbol {item m D} : (∀ e ∈ m, D.has e.2) → full || item || !D.isColl →
      Documented full N G B item (.charSymbol m) D
  /-- :44 -/
  | symbol {item root D} : (∀ v ∈ root.vals, D.has v) → full || item || !D.isColl →
      Documented full N G B item (.symbol root) D
  /-- :49-51 -/
  | eoi {item} : Documented full N G B item .eoi .nil
  | pass {item} : Documented full N G B item .pass .nil
  | fail {item} : Documented full N G B item .fail .nil
  /-- :56 -/
  | not {item item' p D} : Documented full N G B item' p D → Documented full N G B item (.not p) .nil
  /-- :57-58 -/
  | rep {item mn mx p D} : Documented full N G B true p D → D.isNil = false →
      Documented full N G B item (.rep mn mx p) (.coll D)
  | repNil {item item' mn mx p} : Documented full N G B item' p .nil →
      Documented full N G B item (.rep mn mx p) .nil
  /-- :59 -/
  | action {item a p D} : Documented full N G B false p a.landing → a.Gives B D →
      full || item || !D.isColl → Documented full N G B item (.action a p) D
  /-- :64 -/
  | except {item item' op neg D D'} : Documented full N G B item op D →
      Documented full N G B item' neg D' → Documented full N G B item (.except op neg) D
  /-- :65 -/
  | list {item item' op sep D D'} : Documented full N G B true op D → D.isNil = false →
      Documented full N G B item' sep D' → Documented full N G B item (.list op sep) (.coll D)
  | listNil {item item' item'' op sep D'} : Documented full N G B item' op .nil →
      Documented full N G B item'' sep D' → Documented full N G B item (.list op sep) .nil
  /-- :73 -/
  | alt {item ps D} : ps ≠ [] → (∀ p ∈ ps, Documented full N G B item p D) →
      Documented full N G B item (.alt ps) D
  /-- guide; the destination of the operand -/
  | lexeme {item p D} : Documented full N G B item p D → Documented full N G B item (.lexeme p) D
  /-- :77 "If all child patterns are Nil: Nil" -/
  | seqNil {item ps} : ps ≠ [] → (∀ p ∈ ps, Documented full N G B false p .nil) →
      Documented full N G B item (.seq ps) .nil
  /-- :78 "If all child patterns except pat are Nil patterns: Anything pat is compatible with." -/
  | seqOne {item pre p post D} : (∀ q ∈ pre ++ post, Documented full N G B false q .nil) →
      (∀ q ∈ pre ++ post, full || !q.valued) → Documented full N G B false p D → full || !D.isTup →
      Documented full N G B item (.seq (pre ++ p :: post)) D
  /-- :79 "if one child is vector<T>, and all childs are T or vector<T>: vector<T>." -/
  | seqColl {item ps D} (part : Pat → Part) : D.isNil = false → (∃ p ∈ ps, part p = .many) →
      (∀ p ∈ ps, part p = .none → Documented full N G B false p .nil) →
      (∀ p ∈ ps, part p = .none → full || !p.valued) →
      (∀ p ∈ ps, part p = .one → Documented full N G B true p D) →
      (∀ p ∈ ps, part p = .one → full || p.onePiece) →
      (∀ p ∈ ps, part p = .many → Documented full N G B false p (.coll D)) →
      Documented full N G B item (.seq ps) (.coll D)
  /-- :80 "Otherwise: dst must be a type that can be constructed with each of the non-Nil child
  patterns": tuples -/
  | seqTuple {item ps Ds} : ps ≠ [] →
      (∀ p ∈ ps, p.valued = false → Documented full N G B false p .nil) →
      (∀ (i : Nat) p D, (ps.filter Pat.valued)[i]? = some p → Ds[i]? = some D →
        Documented full N G B false p D) →
      (ps.filter Pat.valued).length = Ds.length →
      Documented full N G B item (.seq ps) (.tup Ds)
  /-- :80, other types; `vals`: the children that are not Nil patterns -/
  | seqMade {item ps vals Ds D} : full = true → List.Sublist vals ps →
      (∀ p ∈ ps, p ∉ vals → Documented full N G B false p .nil) →
      (∀ (i : Nat) p D, vals[i]? = some p → Ds[i]? = some D → Documented full N G B false p D) →
      vals.length = Ds.length → D.MadeFrom Ds → Documented full N G B item (.seq ps) D
  /-- a `Recur` object: what its pattern is compatible with -/
  | recur {item id n D} : G id D → Documented full N G B item (.recur id n) D

/-- The `Recur` objects are set to patterns compatible with the destinations they are used with. -/
def Env.Documented (env : Env) (full : Bool) (N : NumKind → Prop) (G : Nat → Ty → Prop) (B : Ty) :
    Prop :=
  ∀ id D, G id D → ∃ q, env id = some q ∧ Abu.Documented full N G B false q D

end Abu
