import Verif.Model.Expr
import Verif.Spec.Grammar
/-
How an expression made of literals, character sets, patterns and operators is meant to be read: as a
parsing expression grammar, every literal standing for itself. Nothing here depends on which
overloads there are, nor on how patterns are nested.
-/
namespace Abu

/-- What an expression stands for. -/
inductive Kind
  | chr
  | str
  | set
  | pat
  deriving DecidableEq

/-- The kind of `l op r` for the operators of patterns: one operand at least is a pattern. -/
def Kind.op : Option Kind → Option Kind → Option Kind
  | some .pat, some _ => some .pat
  | some _, some .pat => some .pat
  | _, _ => none

/-- The kind of `l | r`: an alternative, or the union of character sets, of which one operand may be a
single character or a string of characters. A set and a pattern do not mix. -/
def Kind.alt : Option Kind → Option Kind → Option Kind
  | some .set, some .pat => none
  | some .pat, some .set => none
  | some .set, some _ => some .set
  | some _, some .set => some .set
  | k, k' => Kind.op k k'

/-- Operators for patterns only. -/
def Kind.only (k : Kind) : Option Kind → Option Kind
  | some k' => if k' = k then some k else none
  | none => none

/-- Functions that take anything. -/
def Kind.any : Option Kind → Option Kind
  | some _ => some .pat
  | none => none

/-- Functions that take anything, twice. -/
def Kind.any2 : Option Kind → Option Kind → Option Kind
  | some _, some _ => some .pat
  | _, _ => none

/-- The kind of an expression as the documentation describes them; `none`: not a legal one. -/
def CExpr.kind : CExpr → Option Kind
  | .chr _ => some .chr
  | .str _ => some .str
  | .set _ => some .set
  | .pat _ => some .pat
  | .shr l r => Kind.op l.kind r.kind
  | .bar l r => Kind.alt l.kind r.kind
  | .minus l r => Kind.op l.kind r.kind
  | .mod l r => Kind.op l.kind r.kind
  | .star e => Kind.only .pat e.kind
  | .plus e => Kind.only .pat e.kind
  | .neg e => Kind.only .pat e.kind
  | .bang e => Kind.only .pat e.kind
  | .tilde e => Kind.only .set e.kind
  | .discard e => Kind.any e.kind
  | .lexeme e => Kind.any e.kind
  | .bindDst e => Kind.any e.kind
  | .repeated _ _ e => Kind.any e.kind
  | .except l r => Kind.any2 l.kind r.kind
  | .list l r => Kind.any2 l.kind r.kind
  | .action _ e => Kind.only .pat e.kind
  | .construct _ e => Kind.only .pat e.kind

/-- The characters in a character set, or in the union of sets, characters and strings. -/
def CExpr.has : CExpr → Ch → Prop
  | .chr c, x => x = c
  | .str s, x => x ∈ s
  | .set s, x => s.isValid x = true
  | .bar l r, x => l.has x ∨ r.has x
  | .tilde e, x => ¬ e.has x
  | _, _ => False

/-- `ReadAs env t e i o`: read as a grammar, the expression matches the text `t` from `i` up to `j`
(`o = some j`), or does not match (`o = none`). -/
inductive ReadAs (env : Env) (t : List Ch) : CExpr → Nat → Option Nat → Prop
  | chr {c i} : t[i]? = some c → ReadAs env t (.chr c) i (some (i + 1))
  | chrNo {c i} : t[i]? ≠ some c → ReadAs env t (.chr c) i none
  | str {s i} : s <+: t.drop i → ReadAs env t (.str s) i (some (i + s.length))
  | strNo {s i} : ¬ s <+: t.drop i → ReadAs env t (.str s) i none
  | set {e i c} : e.kind = some .set → t[i]? = some c → e.has c → ReadAs env t e i (some (i + 1))
  | setNo {e i} : e.kind = some .set → (∀ c, t[i]? = some c → ¬ e.has c) → ReadAs env t e i none
  | pat {p i o} : Peg env t p i o → ReadAs env t (.pat p) i o
  /-- one after the other -/
  | shr {l r i j o} : ReadAs env t l i (some j) → ReadAs env t r j o → ReadAs env t (.shr l r) i o
  | shrNo {l r i} : ReadAs env t l i none → ReadAs env t (.shr l r) i none
  /-- the first one that matches -/
  | bar {l r i j} : (CExpr.bar l r).kind ≠ some .set → ReadAs env t l i (some j) →
      ReadAs env t (.bar l r) i (some j)
  | barNo {l r i o} : (CExpr.bar l r).kind ≠ some .set → ReadAs env t l i none → ReadAs env t r i o →
      ReadAs env t (.bar l r) i o
  /-- the first one where the second one does not match -/
  | except {l r i o} : ReadAs env t r i none → ReadAs env t l i o → ReadAs env t (.except l r) i o
  | exceptNo {l r i j} : ReadAs env t r i (some j) → ReadAs env t (.except l r) i none
  | minus {l r i o} : ReadAs env t (.except l r) i o → ReadAs env t (.minus l r) i o
  /-- several times in a row, not less than `mn` and not more than `mx` (`0`: any number) -/
  | repStop {mx e i} : ReadAs env t e i none → ReadAs env t (.repeated 0 mx e) i (some i)
  | repFew {mn mx e i} : 0 < mn → ReadAs env t e i none → ReadAs env t (.repeated mn mx e) i none
  | repLast {mn e i j} : ReadAs env t e i (some j) → ReadAs env t (.repeated mn 1 e) i (some j)
  | repMore {mn mx e i j o} : mx ≠ 1 → ReadAs env t e i (some j) →
      ReadAs env t (.repeated (mn - 1) (mx - 1) e) j o → ReadAs env t (.repeated mn mx e) i o
  | star {e i o} : ReadAs env t (.repeated 0 0 e) i o → ReadAs env t (.star e) i o
  | plus {e i o} : ReadAs env t (.repeated 1 0 e) i o → ReadAs env t (.plus e) i o
  /-- nothing, or items with separators between them -/
  | listNil {l r i} : ReadAs env t l i none → ReadAs env t (.list l r) i (some i)
  | list {l r i j o} : ReadAs env t l i (some j) → ReadAs env t (.repeated 0 0 (.shr r l)) j o →
      ReadAs env t (.list l r) i o
  | mod {l r i o} : ReadAs env t (.list l r) i o → ReadAs env t (.mod l r) i o
  | neg {e i j} : ReadAs env t e i (some j) → ReadAs env t (.neg e) i (some j)
  | negNo {e i} : ReadAs env t e i none → ReadAs env t (.neg e) i (some i)
  | bang {e i} : ReadAs env t e i none → ReadAs env t (.bang e) i (some i)
  | bangNo {e i j} : ReadAs env t e i (some j) → ReadAs env t (.bang e) i none
  | discard {e i o} : ReadAs env t e i o → ReadAs env t (.discard e) i o
  | lexeme {e i o} : ReadAs env t e i o → ReadAs env t (.lexeme e) i o
  | bindDst {e i o} : ReadAs env t e i o → ReadAs env t (.bindDst e) i o
  | action {a e i o} : ReadAs env t e i o → ReadAs env t (.action a e) i o
  | construct {tys e i o} : ReadAs env t e i o → ReadAs env t (.construct tys e) i o

/-- The reading of a whole text, as `PegRest`. -/
def ReadAsRest (env : Env) (e : CExpr) (t : List Ch) : Option (List Ch) → Prop
  | some rest => ∃ j, ReadAs env t e 0 (some j) ∧ rest = t.drop j
  | none => ReadAs env t e 0 none

/-- String literals hold `char`s, and no NUL. -/
def CExpr.Legal : CExpr → Prop
  | .str s => ∀ c ∈ s, IsChar c ∧ c ≠ 0
  | .shr l r | .bar l r | .minus l r | .mod l r | .except l r | .list l r => l.Legal ∧ r.Legal
  | .star e | .plus e | .neg e | .bang e | .tilde e | .discard e | .lexeme e | .bindDst e
  | .repeated _ _ e | .action _ e | .construct _ e => e.Legal
  | _ => True

/-- No operator of the language on a string literal: `*"s"`, `+"s"` and `"s" - 'c'` are about
pointers. -/
def CExpr.noPointer : CExpr → Bool
  | .star (.str _) => false
  | .plus (.str _) => false
  | .minus (.str _) r => r.kind == some .pat && r.noPointer
  | .shr l r | .bar l r | .minus l r | .mod l r | .except l r | .list l r =>
    l.noPointer && r.noPointer
  | .star e | .plus e | .neg e | .bang e | .tilde e | .discard e | .lexeme e | .bindDst e
  | .repeated _ _ e | .action _ e | .construct _ e => e.noPointer
  | _ => true

end Abu
