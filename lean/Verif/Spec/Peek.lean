import Verif.Model.Factory
/-
Vocabulary for `peek` (C82).
-/
namespace Abu

/-- Patterns whose parsers have a working `peek`, without a skipper. -/
inductive Pat.Peekable : Pat → Prop
  | eoi : Peekable .eoi
  | pass : Peekable .pass
  | fail : Peekable .fail
  | charSymbol (m) : Peekable (.charSymbol m)
  | opt (p) : Peekable (.opt p)
  | not {p} : Peekable p → Peekable (.not p)
  | lexeme {p} : Peekable p → Peekable (.lexeme p)

/-- An optional part, possibly negated or in a lexeme. -/
inductive Pat.AboutOptional : Pat → Prop
  | opt (p) : AboutOptional (.opt p)
  | not {p} : AboutOptional p → AboutOptional (.not p)
  | lexeme {p} : AboutOptional p → AboutOptional (.lexeme p)

end Abu
