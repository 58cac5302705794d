import Verif.Model.Pattern
/-
C++ expressions that build patterns: literals, character sets, patterns and the overloaded
operators (patterns/traits.h, patterns/pattern.h, the `operator`s of patterns/** and char_set/**).

What an operator does depends on the types of its operands. When no overload of the library takes
them, the built-in operator of the language applies, if there is one.

Simplifications: the value of built-in integer arithmetic is not kept, as nothing can be made of
it. All character sets have the same character type.
-/
namespace Abu

/-- Expressions. -/
inductive CExpr
  /-- a `char` -/
  | chr (c : Ch)
  /-- a `char const*` that points to the given characters and a NUL -/
  | str (s : List Ch)
  /-- an object derived from `char_set::CharacterSet` -/
  | set (s : CharSet)
  /-- an object derived from `PatternBase` -/
  | pat (p : Pat)
  /-- `l >> r` -/
  | shr (l r : CExpr)
  /-- `l | r` -/
  | bar (l r : CExpr)
  /-- `l - r` -/
  | minus (l r : CExpr)
  /-- `l % r` -/
  | mod (l r : CExpr)
  /-- `*e` -/
  | star (e : CExpr)
  /-- `+e` -/
  | plus (e : CExpr)
  /-- `-e` -/
  | neg (e : CExpr)
  /-- `!e` -/
  | bang (e : CExpr)
  /-- `~e` -/
  | tilde (e : CExpr)
  /-- `discard(e)` -/
  | discard (e : CExpr)
  /-- `lexeme(e)` -/
  | lexeme (e : CExpr)
  /-- `bind_dst(e)` -/
  | bindDst (e : CExpr)
  /-- `repeat<mn, mx>(e)` -/
  | repeated (mn mx : Nat) (e : CExpr)
  /-- `except(l, r)` -/
  | except (l r : CExpr)
  /-- `list(l, r)` -/
  | list (l r : CExpr)
  /-- `e[f]` -/
  | action (a : Act) (e : CExpr)
  /-- `e.as<tys...>()` -/
  | construct (tys : List Ty) (e : CExpr)

/-- Values of expressions, by type. -/
inductive CVal
  | chr (c : Ch)
  | str (s : List Ch)
  | set (s : CharSet)
  | pat (p : Pat)
  /-- an integer or a `bool`, the result of built-in arithmetic -/
  | num

/-- `make_pattern` (patterns/traits.h:55-62) with the `expr_traits` of the type: patterns
(patterns/pattern.h:39-45), `char` (leaf/char_literal.h:31-36), `char const*`
(leaf/string_literal.h:42-47), character sets (leaf/character.h:59-65). Nothing else converts
(traits.h:20-25). -/
def CVal.toPat : CVal → Option Pat
  | .chr c => some (litC c)
  | .str s => some (.strLit s)
  | .set s => some (.char s)
  | .pat p => some p
  | .num => none

/-- `to_char_set` (char_set/char_set.h:23-34, single.h:38-41, set.h:76-79). -/
def CVal.toSet : CVal → Option CharSet
  | .chr c => some (.single c)
  | .str s => some (setOfCString (s ++ [0]))
  | .set s => some s
  | _ => none

/-- Does the value have an integer type? -/
def CVal.isInt : CVal → Bool
  | .chr _ => true
  | .num => true
  | _ => false

/-- `are_valid_binary_operands` (patterns/traits.h:43-49): at least one operand is a pattern and the
other one is or converts to one. Then the pattern is made of both. -/
def patOp (f : Pat → Pat → Pat) : CVal → CVal → Option Pat
  | .pat p, r => r.toPat.map fun q => f p q
  | l, .pat q => l.toPat.map fun p => f p q
  | _, _ => none

/-- An operator the library overloads for patterns, or the built-in operator on integers. -/
def opOrInt (f : Pat → Pat → Pat) (l r : CVal) : Except Err CVal :=
  match patOp f l r with
  | some p => .ok (.pat p)
  | none => if l.isInt && r.isInt then .ok .num else .error .noCompile

/-- `l >> r` (patterns/nary/sequence.h:46-53) -/
def CVal.shr : CVal → CVal → Except Err CVal := opOrInt Pat.seqOp

/-- `l | r` (char_set/or.h:38-51, patterns/nary/alternative.h:46-53). With a character set and a
pattern both overloads apply and the call is ambiguous. -/
def CVal.bar : CVal → CVal → Except Err CVal
  | .set _, .pat _ => .error .noCompile
  | .pat _, .set _ => .error .noCompile
  | .set s, r => match r.toSet with
    | some u => .ok (.set (.or s u))
    | none => .error .noCompile
  | l, .set u => match l.toSet with
    | some s => .ok (.set (.or s u))
    | none => .error .noCompile
  | l, r => opOrInt Pat.altOp l r

/-- `l - r` (patterns/binary/except.h:35-47). A `char const*` minus an integer is a `char const*`
again, which points outside of the string (undefined); a simplification when the integer is zero or
negative. -/
def CVal.minus : CVal → CVal → Except Err CVal
  | .str _, .chr _ => .error .ubDangling
  | .str _, .num => .error .ubDangling
  | .str _, .str _ => .ok .num
  | l, r => opOrInt Pat.except l r

/-- `l % r` (patterns/binary/list.h:34-45) -/
def CVal.mod : CVal → CVal → Except Err CVal := opOrInt Pat.list

/-- `*v` (patterns/unary/repeat.h:37-42); of a `char const*`, the first character. -/
def CVal.star : CVal → Except Err CVal
  | .pat p => .ok (.pat p.star)
  | .str s => .ok (.chr (s.headD 0))
  | _ => .error .noCompile

/-- `+v` (patterns/unary/repeat.h:44-49); of a `char const*`, the pointer itself. -/
def CVal.plus : CVal → Except Err CVal
  | .pat p => .ok (.pat p.plus)
  | .str s => .ok (.str s)
  | .chr _ => .ok .num
  | .num => .ok .num
  | .set _ => .error .noCompile

/-- `-v` (patterns/unary/optional.h:31-36) -/
def CVal.neg : CVal → Except Err CVal
  | .pat p => .ok (.pat (.opt p))
  | .chr _ => .ok .num
  | .num => .ok .num
  | _ => .error .noCompile

/-- `!v` (patterns/unary/not.h:30-35); of a `char const*`, whether it is null. -/
def CVal.bang : CVal → Except Err CVal
  | .pat p => .ok (.pat (.not p))
  | .set _ => .error .noCompile
  | _ => .ok .num

/-- `~v` (char_set/not.h:38-42) -/
def CVal.tilde : CVal → Except Err CVal
  | .set s => .ok (.set (.not s))
  | .chr _ => .ok .num
  | .num => .ok .num
  | _ => .error .noCompile

/-- A function of the library that makes a pattern of its argument first. -/
def CVal.via (f : Pat → Pat) (v : CVal) : Except Err CVal :=
  match v.toPat with
  | some p => .ok (.pat (f p))
  | none => .error .noCompile

/-- Likewise with two arguments (patterns/binary/except.h:35-39, list.h:34-38). -/
def CVal.via2 (f : Pat → Pat → Pat) (v w : CVal) : Except Err CVal :=
  match v.toPat, w.toPat with
  | some p, some q => .ok (.pat (f p q))
  | _, _ => .error .noCompile

/-- A member of class `Pattern` (patterns/pattern.h:23-37). -/
def CVal.member (f : Pat → Pat) : CVal → Except Err CVal
  | .pat p => .ok (.pat (f p))
  | _ => .error .noCompile

/-- The value of an expression. -/
def CExpr.eval : CExpr → Except Err CVal
  | .chr c => .ok (.chr c)
  | .str s => .ok (.str s)
  | .set s => .ok (.set s)
  | .pat p => .ok (.pat p)
  | .shr l r => do (← l.eval).shr (← r.eval)
  | .bar l r => do (← l.eval).bar (← r.eval)
  | .minus l r => do (← l.eval).minus (← r.eval)
  | .mod l r => do (← l.eval).mod (← r.eval)
  | .star e => do (← e.eval).star
  | .plus e => do (← e.eval).plus
  | .neg e => do (← e.eval).neg
  | .bang e => do (← e.eval).bang
  | .tilde e => do (← e.eval).tilde
  -- patterns/unary/discard.h:28-31
  | .discard e => do (← e.eval).via .discard
  -- patterns/unary/lexeme.h:28-31
  | .lexeme e => do (← e.eval).via .lexeme
  -- patterns/unary/bind_dst.h:28-31
  | .bindDst e => do (← e.eval).via .bindDst
  -- patterns/unary/repeat.h:31-35
  | .repeated mn mx e => do (← e.eval).via (.rep mn mx)
  | .except l r => do (← l.eval).via2 .except (← r.eval)
  | .list l r => do (← l.eval).via2 .list (← r.eval)
  -- patterns/pattern.h:28-31, patterns/unary/action.h:32-36
  | .action a e => do (← e.eval).member (.action a)
  -- patterns/pattern.h:33-36
  | .construct tys e => do (← e.eval).member (.construct tys)

/-- What `parse` and `make_parser` make of the expression given to them
(operations/parse.h:33, operations/make_parser.h:45). -/
def CExpr.pattern (e : CExpr) : Except Err Pat := do
  match (← e.eval).toPat with
  | some p => .ok p
  | none => .error .noCompile

end Abu
