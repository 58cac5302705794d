import Verif.Model.Pattern
/-
Laws by which a grammar may be rewritten without changing what it recognises, for C67. Nothing
here refers to a text, a parse or an outcome.
-/
namespace Abu

/-- One pattern is obtained from the other by the laws of parsing expression grammars, applied any
number of times, in both directions and in any place. -/
inductive Pat.Equiv : Pat → Pat → Prop
  | refl {p} : Equiv p p
  | symm {p q} : Equiv p q → Equiv q p
  | trans {p q r} : Equiv p q → Equiv q r → Equiv p r
  /- any place -/
  | inSeq {p q} (l r : List Pat) : Equiv p q → Equiv (.seq (l ++ p :: r)) (.seq (l ++ q :: r))
  | inAlt {p q} (l r : List Pat) : Equiv p q → Equiv (.alt (l ++ p :: r)) (.alt (l ++ q :: r))
  | inRep {p q} (mn mx : Nat) : Equiv p q → Equiv (.rep mn mx p) (.rep mn mx q)
  | inOpt {p q} : Equiv p q → Equiv (.opt p) (.opt q)
  | inNot {p q} : Equiv p q → Equiv (.not p) (.not q)
  | inExceptOp {p q} (n : Pat) : Equiv p q → Equiv (.except p n) (.except q n)
  | inExceptNeg {p q} (o : Pat) : Equiv p q → Equiv (.except o p) (.except o q)
  | inListOp {p q} (s : Pat) : Equiv p q → Equiv (.list p s) (.list q s)
  | inListSep {p q} (o : Pat) : Equiv p q → Equiv (.list o p) (.list o q)
  /- sequences and alternatives are associative, with neutral elements -/
  | seqFlat (l ps r : List Pat) : Equiv (.seq (l ++ .seq ps :: r)) (.seq (l ++ ps ++ r))
  | seqOne (p : Pat) : Equiv (.seq [p]) p
  | seqNil : Equiv (.seq []) .pass
  | altFlat (l ps r : List Pat) : Equiv (.alt (l ++ .alt ps :: r)) (.alt (l ++ ps ++ r))
  | altOne (p : Pat) : Equiv (.alt [p]) p
  | altNil : Equiv (.alt []) .fail
  /-- nothing goes after `fail` -/
  | seqFail (ps : List Pat) : Equiv (.seq (.fail :: ps)) .fail
  /-- an alternative tried before need not be tried again -/
  | altAgain (l m r : List Pat) (p : Pat) :
      Equiv (.alt (l ++ p :: m ++ p :: r)) (.alt (l ++ p :: m ++ r))
  /-- a common start may be taken out -/
  | factor (p : Pat) (a b : List Pat) :
      Equiv (.alt [.seq (p :: a), .seq (p :: b)]) (.seq [p, .alt [.seq a, .seq b]])
  /- the derived constructs -/
  | opt (p : Pat) : Equiv (.opt p) (.alt [p, .pass])
  | optRep (p : Pat) : Equiv (.opt p) (.rep 0 1 p)
  | except (p q : Pat) : Equiv (.except p q) (.seq [.not q, p])
  | list (p s : Pat) : Equiv (.list p s) (.opt (.seq [p, .rep 0 0 (.seq [s, p])]))
  | plus (p : Pat) : Equiv (.rep 1 0 p) (.seq [p, .rep 0 0 p])
  | star (p : Pat) : Equiv (.rep 0 0 p) (.opt (.rep 1 0 p))
  | starPlus (p : Pat) : Equiv (.rep 0 0 (.rep 1 0 p)) (.rep 0 0 p)
  | atLeast (n : Nat) (p : Pat) : Equiv (.rep (n + 1) 0 p) (.seq [p, .rep n 0 p])
  | once (p : Pat) : Equiv (.rep 1 1 p) p
  | exactly (n : Nat) (p : Pat) : Equiv (.rep (n + 2) (n + 2) p) (.seq [p, .rep (n + 1) (n + 1) p])
  /- lookahead -/
  | notNotNot (p : Pat) : Equiv (.not (.not (.not p))) (.not p)
  | neither (p q : Pat) : Equiv (.seq [.not p, .not q]) (.not (.alt [p, q]))
  /- characters -/
  | orChars (s u : CharSet) : Equiv (.alt [.char s, .char u]) (.char (.or s u))
  | exceptChars (s u : CharSet) :
      Equiv (.except (.char s) (.char u)) (.char (.not (.or (.not s) u)))
  | text (a b : List Ch) : Equiv (.strLit (a ++ b)) (.seq [.strLit a, .strLit b])
  | letter (c : Ch) : Equiv (.strLit [c]) (.char (.single c))
  /- what only concerns values -/
  | discard (p : Pat) : Equiv (.discard p) p
  | lexeme (p : Pat) : Equiv (.lexeme p) p
  | bindDst (p : Pat) : Equiv (.bindDst p) p
  | construct (tys : List Ty) (p : Pat) : Equiv (.construct tys p) p
  | action (a : Act) (p : Pat) : Equiv (.action a p) p

/-- The same definitions, up to the laws. -/
def Env.Equiv (env env' : Env) : Prop :=
  ∀ id, (env id = none ∧ env' id = none) ∨
    ∃ p q, env id = some p ∧ env' id = some q ∧ p.Equiv q

end Abu
