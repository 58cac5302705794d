import Verif.Model.Pattern
/-
String literals and symbol tables on a text of another character type (`char` and `char32_t`).

`child.find(next)` and `mapping().find(next)` (leaf/string_symbol.h:51, leaf/char_symbol.h:34) take the
key type, so that the character is converted to it first. `next == *next_expected_`
(leaf/string_literal.h:41) converts both sides to `char32_t` when the types differ.

The machine has one type of characters. Here a table is turned into the table of characters of the
text that amounts to the same: every key is replaced by the characters that are converted to it.
-/
namespace Abu

/-- `char` and `char32_t`. -/
inductive CharTy
  | char
  | wide
  deriving DecidableEq

/-- All values of the type. -/
def CharTy.values : CharTy → List Ch
  | .char => (List.range 256).map fun i : Nat => (i : Int) - 128
  | .wide => (List.range (2 ^ 32)).map fun i : Nat => (i : Int)

/-- The implicit conversion of a character of a text of type `t` to the type `k`. -/
def convert (t k : CharTy) (c : Ch) : Ch :=
  match t, k with
  | .wide, .char => narrow c
  | .char, .wide => widen c
  | _, _ => c

/-- A value of neither type. -/
def noChar : Ch := 2 ^ 32

/-- The characters of type `t` that are converted to the key `d` of type `k`. A key that none is
converted to stays in the table (`child.empty()` sees it), but is never found. -/
def keysFor (t k : CharTy) (d : Ch) : List Ch :=
  match t.values.filter fun c => convert t k c == d with
  | [] => [noChar]
  | c :: cs => c :: cs

/-- Several keys with the same node. -/
def Kids.addAll (n : Node) (rest : Kids) : List Ch → Kids
  | [] => rest
  | c :: cs => .cons c n (Kids.addAll n rest cs)

mutual
/-- A tree with keys of type `k` as a text of type `t` sees it: `child.find(next)`,
leaf/string_symbol.h:51. -/
def Node.on (t k : CharTy) : Node → Node
  | .mk v ks => .mk v (ks.on t k)
/-- The same for a map of nodes. -/
def Kids.on (t k : CharTy) : Kids → Kids
  | .nil => .nil
  | .cons d n rest => Kids.addAll (n.on t k) (rest.on t k) (keysFor t k d)
end

/-- The same for a `CharSymbol`: `mapping().find(next)`, leaf/char_symbol.h:34. -/
def tableOn (t k : CharTy) (m : List (Ch × Val)) : List (Ch × Val) :=
  m.flatMap fun e => (keysFor t k e.1).map fun c => (c, e.2)

/-- A literal of type `k` on a text of type `t`, leaf/string_literal.h:41: a `char` is compared with
a `char32_t` after it has been converted to `char32_t`. -/
def literalOn (t k : CharTy) (s : List Ch) : List Ch :=
  match t, k with
  | .wide, .char => s.map widen
  | .char, .wide => s.map fun e => if 2 ^ 32 - 128 ≤ e then e - 2 ^ 32 else if e < 128 then e else noChar
  | _, _ => s

end Abu
