import Verif.Model.Throws
/-
Where a sequence of calls of actions is cut short by an exception.
-/
namespace Abu

/-- The history up to and including the first of the calls that throws, if one does. `before`: the
history before the calls. -/
def untilThrow (T : Throwing) (before : List LogEntry) : List LogEntry → Option (List LogEntry)
  | [] => none
  | c :: cs =>
    if T c.action before c.arg then some (before ++ [c]) else untilThrow T (before ++ [c]) cs

end Abu
