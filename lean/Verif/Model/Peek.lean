import Verif.Model.Machine
/-
`peek`, the member function of some parser classes under /repo/include/abulafia/parsers/coroutine that
says what `consume` would return. It takes no destination. Only `Eoi` calls it itself (leaf/eoi.h:27).
-/
namespace Abu

/-- `peek` of the parser class `p`; `none`: it has no such member function, or one that does not compile
as that of its child is missing. No state of the parser object is involved. -/
def Prog.peek : Prog → Option (Cmd Res)
  -- leaf/eoi.h:29-34
  | .eoi => some <|
    .isEmpty fun e =>
      if e then .isFinal fun f => .pure (if f then .SUCCESS else .PARTIAL) else .pure .FAILURE
  -- leaf/pass.h:30
  | .pass => some (.pure .SUCCESS)
  -- leaf/fail.h:28
  | .fail => some (.pure .FAILURE)
  -- leaf/char_symbol.h:43-54
  | .charSymbol m => some <|
    .isEmpty fun e =>
      if e then .isFinal fun f => .pure (if f then .FAILURE else .PARTIAL)
      else .next fun c =>
        match m.find? (fun e => e.1 == c) with
        | none => .pure .FAILURE
        | some _ => .pure .SUCCESS
  -- unary/not.h:58-70
  | .not p =>
    p.peek.map fun c => c.bind fun r =>
      match r with
      | .SUCCESS => .pure .FAILURE
      | .FAILURE => .pure .SUCCESS
      | .PARTIAL => .pure .PARTIAL
  -- unary/optional.h:64
  | .opt _ => some (.pure .SUCCESS)
  -- unary/lexeme.h:36-38
  | .lexeme p => p.peek
  -- the adapters have none (adapters/clean_failure.h:21-22), nor do the other parsers
  | _ => none

section
variable {σ μ : Type} [DataSource σ] [Store μ]

/-- `peek` of a parser of class `p` returns `r`, and `w'` is what there is then. -/
def Peeks (p : Prog) (w : World σ μ) (r : Res) (w' : World σ μ) : Prop :=
  ∃ c, p.peek = some c ∧ exec (fun _ _ _ _ _ => .error .stuck) c w = .ok (r, w')

end
end Abu
