import Verif.Spec.Number
/-
Specification of arithmetic expressions: what they are, how they are written and what they are
worth.
-/
namespace Abu

/-- The four operations. -/
inductive Op
  | add | sub | mul | div
  deriving DecidableEq, Repr

/-- Arithmetic expressions. -/
inductive Arith
  | num (i : Int)
  | bin (op : Op) (a b : Arith)
  deriving DecidableEq, Repr

/-- An `int` holds it. -/
def fitsInt (x : Int) : Bool := -2147483648 ≤ x && x ≤ 2147483647

/-- The result of an operation on two `int`s, if C++ defines it. Division truncates. -/
def Op.result : Op → Int → Int → Option Int
  | .add, x, y => if fitsInt (x + y) then some (x + y) else none
  | .sub, x, y => if fitsInt (x - y) then some (x - y) else none
  | .mul, x, y => if fitsInt (x * y) then some (x * y) else none
  | .div, x, y => if y ≠ 0 ∧ fitsInt (x.tdiv y) then some (x.tdiv y) else none

/-- The value of an expression in which the magnitudes of all numbers and all intermediate results
fit an `int`. -/
def Arith.value : Arith → Option Int
  | .num i => if fitsInt i.natAbs then some i else none
  | .bin op a b =>
    match a.value, b.value with
    | some x, some y => op.result x y
    | _, _ => none

/-- The character an operation is written with. -/
def Op.symbol : Op → Ch
  | .add => 43
  | .sub => 45
  | .mul => 42
  | .div => 47

/-- How tightly a text holds together. -/
inductive Prec
  /-- a number or a parenthesised expression -/
  | primary
  /-- and products and quotients -/
  | product
  /-- and sums and differences -/
  | sum
  deriving DecidableEq, Repr

/-- Operations that can be written at each level. -/
def Prec.has : Prec → Op → Bool
  | .primary, _ => false
  | .product, .mul => true
  | .product, .div => true
  | .sum, .add => true
  | .sum, .sub => true
  | _, _ => false

/-- The next tighter level. -/
def Prec.inner : Prec → Prec
  | .sum => .product
  | _ => .primary

/-- Any number of blanks. -/
def Blanks (w : List Ch) : Prop := ∀ c ∈ w, c = 32

/-- The text is a way to write the expression: operations of the same level associate to the left,
there can be blanks between the parts but not within a number. -/
inductive Written : Prec → Arith → List Ch → Prop
  | num {sg neg ds rs} : Sign sg neg → DigitString 10 ds rs → ds ≠ [] →
      Written .primary (.num (withSign neg (positional 10 rs))) (sg ++ ds)
  | paren {e s w1 w2} : Blanks w1 → Written .sum e s → Blanks w2 →
      Written .primary e (40 :: (w1 ++ s ++ w2 ++ [41]))
  | operand {L e s} : L ≠ .primary → Written L.inner e s → Written L e s
  | bin {L op a b s u w1 w2} : L.has op → Written L a s → Blanks w1 → Blanks w2 →
      Written L.inner b u → Written L (.bin op a b) (s ++ w1 ++ op.symbol :: (w2 ++ u))

/-- The text starts, after blanks `w`, with the expression `e` written `s`, and with no longer one;
`rest` remains. -/
structure LongestExpr (t w : List Ch) (e : Arith) (s rest : List Ch) : Prop where
  split : t = w ++ (s ++ rest)
  blanks : Blanks w
  written : Written .sum e s
  longest : ∀ w' e' s' rest', t = w' ++ (s' ++ rest') → Blanks w' → Written .sum e' s' →
    s'.length ≤ s.length

/-- The text starts, possibly after blanks, with an expression. -/
def StartsWithExpr (t : List Ch) : Prop :=
  ∃ w e s rest, t = w ++ (s ++ rest) ∧ Blanks w ∧ Written .sum e s

/-- Whatever expression comes right after an opening parenthesis anywhere in the text has a value. -/
def InnerValues (t : List Ch) : Prop :=
  ∀ a t' w e s rest, t = a ++ 40 :: t' → LongestExpr t' w e s rest → e.value.isSome

/-- The expressions that are worked out by who reads the text without looking ahead: the longest one that
it starts with, and those after opening parentheses where an operand could be, even if they are never
closed. -/
inductive Meets : List Ch → Arith → Prop
  | here {t w e s rest} : LongestExpr t w e s rest → Meets t e
  | blank {t e} : Meets t e → Meets (32 :: t) e
  | paren {t e} : Meets t e → Meets (40 :: t) e
  | more {t w a s rest w1 t' e} {op : Op} : LongestExpr t w a s rest → rest = w1 ++ op.symbol :: t' →
      Blanks w1 → Meets t' e → Meets t e

end Abu
