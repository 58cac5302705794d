import Verif.Model.Copies
/-
Specification vocabulary for copies of parser objects (C78).
-/
namespace Abu

/-- What the user of one parser object does, with buffers added to the data source of `i` and with
`consume` of `j`. -/
def SOp.by (i j : Nat) : SOp → CopyOp
  | .add b f => .add i b f
  | .consume => .consume j

/-- The ends of a program with copies and of one with a single object, which does `ops` last, are the same:
the same undefined behaviour; or the same answer, given by object `who`, the same unread text, the same
calls of actions, and the same values in the first `k` objects of the memory. -/
inductive SameEnd (who k : Nat) (ops : List SOp) : Verdict → CopyEnd → Prop
  | error {e} : SameEnd who k ops (.error e) (.error e)
  | unanswered {m rest θ M} : M.log = m.log → (∀ o, o < k → M.objs[o]? = m.objs[o]?) →
      SameEnd who k ops (.ok (.PARTIAL, m, rest)) (.ok (none, θ, M))
  /-- `left`: what is done after the answer, for which the program with a single object only records the text -/
  | answered {r m rest θ M before left} : M.log = m.log → (∀ o, o < k → M.objs[o]? = m.objs[o]?) →
      ops = before ++ .consume :: left →
      SameEnd who k ops (.ok (r, m, rest ++ opsText left)) (.ok (some ⟨who, r, rest⟩, θ, M))

/-- The reference is to one of the first `n` objects, if to any. -/
def Ref.Inside (n : Nat) (r : Ref) : Prop := ∀ o p t, r = .at o p t → o < n

/-- Some part of the pattern is a `Recur`. -/
inductive Pat.HasRecur : Pat → Prop
  | recur {id a} : HasRecur (.recur id a)
  | seq {ps q} : q ∈ ps → HasRecur q → HasRecur (.seq ps)
  | alt {ps q} : q ∈ ps → HasRecur q → HasRecur (.alt ps)
  | rep {mn mx q} : HasRecur q → HasRecur (.rep mn mx q)
  | opt {q} : HasRecur q → HasRecur (.opt q)
  | not {q} : HasRecur q → HasRecur (.not q)
  | discard {q} : HasRecur q → HasRecur (.discard q)
  | lexeme {q} : HasRecur q → HasRecur (.lexeme q)
  | bindDst {q} : HasRecur q → HasRecur (.bindDst q)
  | construct {ts q} : HasRecur q → HasRecur (.construct ts q)
  | action {a q} : HasRecur q → HasRecur (.action a q)
  | exceptOp {q q'} : HasRecur q → HasRecur (.except q q')
  | exceptNeg {q q'} : HasRecur q' → HasRecur (.except q q')
  | listOp {q q'} : HasRecur q → HasRecur (.list q q')
  | listSep {q q'} : HasRecur q' → HasRecur (.list q q')
  | skipped {q q'} : HasRecur q → HasRecur (.withSkipper q q')
  | skipper {q q'} : HasRecur q' → HasRecur (.withSkipper q q')

end Abu
