import Verif.Model.CharSet
import Verif.Model.Dst
/-
Patterns: /repo/include/abulafia/patterns/**
-/
namespace Abu

mutual
/-- patterns/leaf/string_symbol.h:25-28 `Symbol::Node` -/
inductive Node
  | mk (val : Option Val) (child : Kids)
/-- `std::map<CHAR_T, Node>`, as an association list -/
inductive Kids
  | nil
  | cons (c : Ch) (n : Node) (rest : Kids)
end

/-- `node.val` -/
def Node.val : Node → Option Val
  | .mk v _ => v

/-- `node.child` -/
def Node.child : Node → Kids
  | .mk _ k => k

/-- `child.find(c)` -/
def Kids.find (c : Ch) : Kids → Option Node
  | .nil => none
  | .cons d n rest => if c = d then some n else rest.find c

/-- `child.empty()` -/
def Kids.isEmpty : Kids → Bool
  | .nil => true
  | .cons .. => false

/-- `child[c]` followed by an update of the node it designates: the node is created (empty) if
there is none. -/
def Kids.alter (c : Ch) (f : Node → Option Node) : Kids → Option Kids
  | .nil => (f (.mk none .nil)).map fun n => .cons c n .nil
  | .cons d n rest =>
    if c = d then (f n).map fun n' => .cons d n' rest
    else (rest.alter c f).map fun rest' => .cons d n rest'

/-- patterns/leaf/string_symbol.h:38-48: insert one entry; `none`: the constructor throws. -/
def Node.insert : List Ch → Val → Node → Option Node
  | [], v, .mk val kids => if val.isSome then none else some (.mk (some v) kids)
  | c :: key, v, .mk val kids => (kids.alter c (Node.insert key v)).map fun k => .mk val k

/-- patterns/leaf/string_symbol.h:35-50: the constructor, for a map given by its entries. -/
def buildTrie (entries : List (List Ch × Val)) : Option Node :=
  entries.foldlM (fun n e => n.insert e.1 e.2) (.mk none .nil)

/-- Pattern objects. Patterns used through a `Recur` are referred to by a number. -/
inductive Pat
  /-- patterns/leaf/character.h:25-33 -/
  | char (s : CharSet)
  /-- patterns/leaf/char_symbol.h:19-27 -/
  | charSymbol (m : List (Ch × Val))
  /-- patterns/leaf/string_literal.h:23-35 -/
  | strLit (s : List Ch)
  /-- patterns/leaf/string_symbol.h:22-53 -/
  | symbol (root : Node)
  /-- patterns/leaf/numeric/int.h:18-23 -/
  | int (base min max : Nat)
  /-- patterns/leaf/numeric/uint.h:18-23 -/
  | uint (base min max : Nat)
  /-- patterns/leaf/eoi.h -/
  | eoi
  /-- patterns/leaf/pass.h -/
  | pass
  /-- patterns/leaf/fail.h -/
  | fail
  /-- patterns/nary/sequence.h:22-33 -/
  | seq (ps : List Pat)
  /-- patterns/nary/alternative.h:22-33 -/
  | alt (ps : List Pat)
  /-- patterns/unary/repeat.h:21-29 -/
  | rep (min max : Nat) (p : Pat)
  /-- patterns/unary/optional.h:21-29 -/
  | opt (p : Pat)
  /-- patterns/unary/not.h:19-28 -/
  | not (p : Pat)
  /-- patterns/unary/discard.h -/
  | discard (p : Pat)
  /-- patterns/unary/lexeme.h -/
  | lexeme (p : Pat)
  /-- patterns/unary/bind_dst.h:18-26 -/
  | bindDst (p : Pat)
  /-- patterns/unary/construct.h:18-26 -/
  | construct (tys : List Ty) (p : Pat)
  /-- patterns/unary/action.h:19-30 -/
  | action (a : Act) (p : Pat)
  /-- patterns/binary/except.h:19-33 -/
  | except (op neg : Pat)
  /-- patterns/binary/list.h:20-32 -/
  | list (op sep : Pat)
  /-- patterns/with_skipper.h:22-33 -/
  | withSkipper (p skip : Pat)
  /-- patterns/recur.h:36-60; `attrNil`: is `ATTR_T` `Nil`? -/
  | recur (id : Nat) (attrNil : Bool)

/-- The patterns `Recur` objects were set to (patterns/recur.h:48-51); `none`: never set, using
it dereferences a null pointer (patterns/recur.h:53-55). -/
abbrev Env := Nat → Option Pat

/-! ### Operators -/

/-- `char_(c)` (patterns/leaf/character.h:40-44) -/
def charP (c : Ch) : Pat := .char (.single c)

/-- `lit(c)` (patterns/leaf/char_literal.h:20-24) -/
def litC (c : Ch) : Pat := .discard (charP c)

/-- `int_`, `uint_` (patterns/leaf/numeric/int.h:25, uint.h:25) -/
def int_ : Pat := .int 10 1 0
def uint_ : Pat := .uint 10 1 0

/-- patterns/nary/nary_pattern.h:27-74, patterns/nary/sequence.h:46-53: `lhs >> rhs`. -/
def Pat.seqOp (l r : Pat) : Pat :=
  match l, r with
  | .seq ls, .seq rs => .seq (ls ++ rs)
  | .seq ls, r => .seq (ls ++ [r])
  | l, .seq rs => .seq (l :: rs)
  | l, r => .seq [l, r]

/-- patterns/nary/nary_pattern.h:27-74, patterns/nary/alternative.h:46-53: `lhs | rhs`. -/
def Pat.altOp (l r : Pat) : Pat :=
  match l, r with
  | .alt ls, .alt rs => .alt (ls ++ rs)
  | .alt ls, r => .alt (ls ++ [r])
  | l, .alt rs => .alt (l :: rs)
  | l, r => .alt [l, r]

/-- `*p` (patterns/unary/repeat.h:38-42) -/
def Pat.star (p : Pat) : Pat := .rep 0 0 p
/-- `+p` (patterns/unary/repeat.h:45-49) -/
def Pat.plus (p : Pat) : Pat := .rep 1 0 p

end Abu
