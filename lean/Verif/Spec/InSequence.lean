import Verif.Spec.WellFormed
import Verif.Spec.Memory
/-
Patterns inside sequences: which of them make a sequence ask what it should not.
-/
namespace Abu

/-- `q` occurs in `p`. -/
inductive Occurs (q : Pat) : Pat → Prop
  | here : Occurs q q
  | seq {ps p} : p ∈ ps → Occurs q p → Occurs q (.seq ps)
  | alt {ps p} : p ∈ ps → Occurs q p → Occurs q (.alt ps)
  | rep {mn mx p} : Occurs q p → Occurs q (.rep mn mx p)
  | opt {p} : Occurs q p → Occurs q (.opt p)
  | not {p} : Occurs q p → Occurs q (.not p)
  | discard {p} : Occurs q p → Occurs q (.discard p)
  | lexeme {p} : Occurs q p → Occurs q (.lexeme p)
  | bindDst {p} : Occurs q p → Occurs q (.bindDst p)
  | construct {tys p} : Occurs q p → Occurs q (.construct tys p)
  | action {a p} : Occurs q p → Occurs q (.action a p)
  | exceptOp {op neg} : Occurs q op → Occurs q (.except op neg)
  | exceptNeg {op neg} : Occurs q neg → Occurs q (.except op neg)
  | listOp {op sep} : Occurs q op → Occurs q (.list op sep)
  | listSep {op sep} : Occurs q sep → Occurs q (.list op sep)
  | operand {p s} : Occurs q p → Occurs q (.withSkipper p s)
  | skipper {p s} : Occurs q s → Occurs q (.withSkipper p s)

/-- Whether `p` produces a value depends on whether `q` does. -/
inductive Heeds (q : Pat) : Pat → Prop
  | here : Heeds q q
  | rep {mn mx p} : Heeds q p → Heeds q (.rep mn mx p)
  | opt {p} : Heeds q p → Heeds q (.opt p)
  | bindDst {p} : Heeds q p → Heeds q (.bindDst p)
  | except {op neg} : Heeds q op → Heeds q (.except op neg)
  | list {op sep} : Heeds q op → Heeds q (.list op sep)
  | withSkipper {p s} : Heeds q p → Heeds q (.withSkipper p s)

/-- Lexemes, and `bind_dst(p)` where `p` produces no value. -/
inductive Awkward : Pat → Prop
  | lexeme {p} : Awkward (.lexeme p)
  | bindDst {p} : p.valued = false → Awkward (.bindDst p)

end Abu
