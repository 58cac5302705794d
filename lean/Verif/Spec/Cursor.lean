import Verif.Model.DataSource
/-
Specification of a data source: a cursor over a text.
-/
namespace Abu

/-- A plain cursor: the whole text delivered so far, an absolute position, saved positions
(most recent first), and whether the text is complete. -/
structure Cursor where
  text : List Ch
  pos : Nat
  saved : List Nat
  final : Bool
  deriving DecidableEq, Repr

namespace Cursor

/-- No text yet. -/
def start : Cursor := ⟨[], 0, [], false⟩

/-- A complete text. -/
def whole (t : List Ch) : Cursor := ⟨t, 0, [], true⟩

/-- More text arrives. -/
def feed (c : Cursor) (t : List Ch) (f : Bool) : Cursor :=
  { c with text := c.text ++ t, final := f }

instance : DataSource Cursor where
  empty c := decide (c.text.length ≤ c.pos)
  final c := c.final
  next c := c.text[c.pos]?
  advance c := if c.pos < c.text.length then some { c with pos := c.pos + 1 } else none
  prepare c := { c with saved := c.pos :: c.saved }
  commit c := match c.saved with
    | [] => none
    | p :: ps => some { c with pos := p, saved := ps }
  cancel c := match c.saved with
    | [] => none
    | _ :: ps => some { c with saved := ps }

end Cursor
end Abu
