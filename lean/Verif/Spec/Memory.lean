import Verif.Model.Factory
/-
Vocabulary to talk about what is left alone in memory.
-/
namespace Abu

/-- Paths to different parts of an object: neither is a prefix of the other. -/
inductive Diverge : List Nat → List Nat → Prop
  | here {a b p q} : a ≠ b → Diverge (a :: p) (b :: q)
  | there {a p q} : Diverge p q → Diverge (a :: p) (a :: q)

/-- The reference designates nothing that overlaps the sub-object `q` of object `o`. -/
def Ref.Misses (o : Nat) (q : List Nat) : Ref → Prop
  | .nil => True
  | .at o' p _ => o' ≠ o ∨ Diverge p q

/-- The value of the sub-object `q` of object `o`. -/
def Mem.look (m : Mem) (o : Nat) (q : List Nat) : Except Err Val := m.read (.at o q .nil)

/-- Every object that exists in `m` has the same value in `m'`. -/
def Mem.Extends (m m' : Mem) : Prop := ∀ (o : Nat) (v : Val), m.objs[o]? = some v → m'.objs[o]? = some v

/-- Every object that exists in `m`, except the one `dst` is (part of), has the same value in
`m'`. -/
def Mem.ExtendsExcept (dst : Ref) (m m' : Mem) : Prop :=
  ∀ (o : Nat) (v : Val), (∀ p ty, dst ≠ .at o p ty) → m.objs[o]? = some v → m'.objs[o]? = some v

mutual
/-- No action of the pattern takes an `ActionParam`, through which it could write to the bound
destination. -/
def Pat.quiet : Pat → Bool
  | .seq ps => Pat.quiets ps
  | .alt ps => Pat.quiets ps
  | .rep _ _ p => p.quiet
  | .opt p => p.quiet
  | .not p => p.quiet
  | .discard p => p.quiet
  | .lexeme p => p.quiet
  | .bindDst p => p.quiet
  | .construct _ p => p.quiet
  | .action a p => !a.param && p.quiet
  | .except op neg => op.quiet && neg.quiet
  | .list op sep => op.quiet && sep.quiet
  | .withSkipper p s => p.quiet && s.quiet
  | _ => true
/-- For all of a list. -/
def Pat.quiets : List Pat → Bool
  | [] => true
  | p :: ps => p.quiet && Pat.quiets ps
end

/-- Likewise for the patterns used through `Recur`. -/
def Env.quiet (env : Env) : Prop := ∀ id q, env id = some q → q.quiet = true

/-- Patterns that produce a value: char sets, symbols, numbers, sequences, alternatives, `as<...>()`
and actions that return something; the unary and binary patterns and `Recur` if their operand does.
Literals, `eoi`, `pass`, `fail`, `!p`, `discard(p)` and actions that return nothing do not. -/
def Pat.valued : Pat → Bool
  | .char _ => true
  | .charSymbol _ => true
  | .symbol _ => true
  | .int .. => true
  | .uint .. => true
  | .seq _ => true
  | .alt _ => true
  | .construct .. => true
  | .action a _ => !a.void
  | .rep _ _ p => p.valued
  | .opt p => p.valued
  | .lexeme p => p.valued
  | .bindDst p => p.valued
  | .except op _ => op.valued
  | .list op _ => op.valued
  | .withSkipper p _ => p.valued
  | .recur _ n => !n
  | .strLit _ => false
  | .eoi => false
  | .pass => false
  | .fail => false
  | .not _ => false
  | .discard _ => false

mutual
/-- Patterns that never write the destination they are given, when their parser is required to be
atomic (`atomic = true`) or not. The patterns that produce nothing by themselves do not, and
combinations of them do not unless an `Atomic` adapter around them assigns its buffer. -/
def Pat.silent (atomic : Bool) : Pat → Bool
  | .strLit _ => true
  | .eoi => true
  | .pass => true
  | .fail => true
  | .discard _ => true
  | .action a _ => a.void
  | .seq ps => !atomic && Pat.silentSeq ps
  | .alt ps => Pat.silents atomic ps
  | .rep _ _ p => !atomic && p.silent true
  | .list op _ => !atomic && op.silent true
  | .opt p => p.silent true
  | .not p => p.silent false
  | .lexeme p => p.silent atomic
  | .except op _ => op.silent atomic
  | .withSkipper p _ => p.silent atomic
  | _ => false
/-- For all of a list. -/
def Pat.silents (atomic : Bool) : List Pat → Bool
  | [] => true
  | p :: ps => p.silent atomic && Pat.silents atomic ps
/-- For the children of a sequence: those that produce nothing get no destination. -/
def Pat.silentSeq : List Pat → Bool
  | [] => true
  | p :: ps => (!p.valued || p.silent false) && Pat.silentSeq ps
end

mutual
/-- Patterns whose parser, when required to be atomic (`atomic = true`) or not, writes its
destination only when it succeeds. -/
def Pat.traceless (atomic : Bool) : Pat → Bool
  | .int .. => atomic
  | .uint .. => atomic
  | .seq _ => atomic
  | .rep .. => atomic
  | .list .. => atomic
  | .recur .. => atomic
  | .bindDst _ => atomic
  | .alt ps => Pat.tracelesses atomic ps
  | .opt p => p.traceless true
  | .not p => p.silent false
  | .lexeme p => p.traceless atomic
  | .except op _ => op.traceless atomic
  | .withSkipper p _ => p.traceless atomic
  | _ => true
/-- For all of a list. -/
def Pat.tracelesses (atomic : Bool) : List Pat → Bool
  | [] => true
  | p :: ps => p.traceless atomic && Pat.tracelesses atomic ps
end

mutual
/-- Every operand of `!` in the pattern is one that never writes its destination. -/
def Pat.lookaheadsSilent : Pat → Bool
  | .not p => p.silent false && p.lookaheadsSilent
  | .seq ps => Pat.allLookaheadsSilent ps
  | .alt ps => Pat.allLookaheadsSilent ps
  | .rep _ _ p => p.lookaheadsSilent
  | .opt p => p.lookaheadsSilent
  | .discard p => p.lookaheadsSilent
  | .lexeme p => p.lookaheadsSilent
  | .bindDst p => p.lookaheadsSilent
  | .construct _ p => p.lookaheadsSilent
  | .action _ p => p.lookaheadsSilent
  | .except op neg => op.lookaheadsSilent && neg.lookaheadsSilent
  | .list op sep => op.lookaheadsSilent && sep.lookaheadsSilent
  | .withSkipper p s => p.lookaheadsSilent && s.lookaheadsSilent
  | _ => true
/-- For all of a list. -/
def Pat.allLookaheadsSilent : List Pat → Bool
  | [] => true
  | p :: ps => p.lookaheadsSilent && Pat.allLookaheadsSilent ps
end

/-- The parser classes a parser class is directly made of. -/
def Prog.parts : Prog → List Prog
  | .seq _ ps => ps
  | .alt ps => ps
  | .rep _ _ p => [p]
  | .opt p => [p]
  | .not p => [p]
  | .discard p => [p]
  | .lexeme p => [p]
  | .bindDst p => [p]
  | .construct _ p => [p]
  | .action _ p => [p]
  | .except op neg => [op, neg]
  | .list op sep => [op, sep]
  | .withSkipper p => [p]
  | .atomic p => [p]
  | .clean p => [p]
  | .skip s p => [s, p]
  | _ => []

/-- `Inside P Q`: `P` is `Q` or somewhere inside it. -/
inductive Inside (P : Prog) : Prog → Prop
  | self : Inside P P
  | part {Q R} : R ∈ Q.parts → Inside P R → Inside P Q

/-- `Iterated Q P`: `Q` is the parser of the items of the repetition or list `P`, or of the
operand of the optional `P`. -/
inductive Iterated (Q : Prog) : Prog → Prop
  | rep {mn mx} : Iterated Q (.rep mn mx Q)
  | list {sep} : Iterated Q (.list Q sep)
  | opt : Iterated Q (.opt Q)

/-- The skipper of a context: none, or the parser of a skipper pattern (adapters/skip.h:35-42). -/
inductive SkipperOf : Option Pat → Prog → Prop
  | none : SkipperOf none .fail
  | some (s : Pat) : SkipperOf (some s) (elabP .fail SkipReqs s)

end Abu
