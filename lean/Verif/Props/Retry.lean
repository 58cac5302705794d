import Verif.Proofs.RetryEval
import Verif.Proofs.RetryPlain
import Verif.Props.Grammar
/-
C79: parser objects used again after an action has thrown.
-/
namespace Abu

/-- C79, for patterns whose actions are around operands that can be asked again (`Pat.retriable`):
calling `consume` again until it does not throw is the same as if every action that throws had been
called again at once, with the same value. -/
theorem C79_consume_again_partial (M : Moved) (T : Throwing) (env : Env) (p : Pat) (dst : Ref) (m : Mem)
    (ops : List SOp) (he : env.retriable) (hp : p.retriable false = true) (v : Verdict) :
    MakeParserRunBy (retrying M T env) p dst m ops v ↔
      MakeParserRunBy (persisting T env) p dst m ops v :=
  retrying_pat p dst m ops v he hp

/-- C79, for these patterns and actions that look at nothing but the value they are given: what comes out
is what comes out when no action throws, and the calls of actions are the same, but for the calls that
threw, each of which comes right before the same call again. -/
theorem C79_as_without_exceptions_partial (M : Moved) (T : Throwing) (env : Env) (p : Pat) (dst : Ref)
    (m m' : Mem) (ops : List SOp) (r : Res) (rest : List Ch) (he : env.retriable)
    (hp : p.retriable false = true) (hae : ∀ id q, env id = some q → q.Acts Act.unaware)
    (hap : p.Acts Act.unaware)
    (h : MakeParserRunBy (retrying M T env) p dst m ops (.ok (r, m', rest))) :
    ∃ l l', m'.log = m.log ++ l' ∧ Repeats l l' ∧
      MakeParserRun env p dst m ops (.ok (r, ⟨m'.objs, m.log ++ l⟩, rest)) := by
  obtain ⟨v, h1, h2⟩ := object_rep (fun _ _ _ h1 h2 => elab_acts _ (hae _ _ h1) h2)
    (elab_acts _ hap trivial) ((retrying_pat p dst m ops _ he hp).1 h)
  generalize hv : Except.ok (r, m', rest) = v' at h2
  cases h2 with
  | error => cases hv
  | @ok _ _ m0 _ hm =>
    cases hv
    obtain ⟨x, x', hx, hx', hr⟩ := hm.log
    refine ⟨x, x', hx', hr, ?_⟩
    rw [← hx, hm.objs]
    exact h1

/-- C79: something undefined happens only when it does without exceptions, too. -/
theorem C79_no_new_errors_partial (M : Moved) (T : Throwing) (env : Env) (p : Pat) (dst : Ref)
    (m : Mem) (ops : List SOp) (e : Err) (he : env.retriable)
    (hp : p.retriable false = true) (hae : ∀ id q, env id = some q → q.Acts Act.unaware)
    (hap : p.Acts Act.unaware) (h : MakeParserRunBy (retrying M T env) p dst m ops (.error e)) :
    MakeParserRun env p dst m ops (.error e) := by
  obtain ⟨v, h1, h2⟩ := object_rep (fun _ _ _ h1 h2 => elab_acts _ (hae _ _ h1) h2)
    (elab_acts _ hap trivial) ((retrying_pat p dst m ops _ he hp).1 h)
  generalize hv : Except.error e = v' at h2
  cases h2 with
  | error => cases hv; exact h1
  | ok => cases hv

/-- C79: and something comes out whenever it does without exceptions, unless an action throws for ever. -/
theorem C79_ends_partial (M : Moved) (T : Throwing) (env : Env) (p : Pat) (dst : Ref)
    (m m' : Mem) (ops : List SOp) (r : Res) (rest : List Ch) (hT : T.givesUp) (he : env.retriable)
    (hp : p.retriable false = true) (hae : ∀ id q, env id = some q → q.Acts Act.unaware)
    (hap : p.Acts Act.unaware) (h : MakeParserRun env p dst m ops (.ok (r, m', rest))) :
    ∃ l l', m'.log = m.log ++ l ∧ Repeats l l' ∧
      MakeParserRunBy (retrying M T env) p dst m ops (.ok (r, ⟨m'.objs, m.log ++ l'⟩, rest)) := by
  obtain ⟨v, h1, h2⟩ := object_some hT (fun _ _ _ h1 h2 => elab_acts _ (hae _ _ h1) h2)
    (elab_acts _ hap trivial) h
  generalize hv : Except.ok (r, m', rest) = v' at h2
  cases h2 with
  | error => cases hv
  | @ok _ _ _ m1 hm =>
    cases hv
    obtain ⟨x, x', hx, hx', hr⟩ := hm.log
    refine ⟨x, x', hx, hr, (retrying_pat p dst m ops _ he hp).2 ?_⟩
    rw [← hx', ← hm.objs]
    exact h1

/-- C79: some of these patterns: literals and numbers without limit, in a sequence where another pattern
comes before, in lists, in options and in repetitions (numbers, and literals if their number is fixed),
with actions that are given nothing, numbers, or tuples of them. -/
theorem C79_covers (a b : Act) (s : List Ch) (base mn k : Nat) (q : Pat) (ha : a.landing.Numbers)
    (hb : b.landing.Numbers) (hq : q.retriable false = true) :
    let lit := Pat.action a (.strLit s)
    let num := Pat.action b (.uint base mn 0)
    lit.retriable false = true ∧ num.retriable false = true ∧
      (Pat.action a (.seq [q, .strLit s])).retriable false = true ∧
      (Pat.list num q).retriable false = true ∧ (Pat.opt lit).retriable false = true ∧
      (Pat.seq [lit, num, q]).retriable false = true ∧
      (Pat.rep (k + 1) (k + 1) lit).retriable false = true := by
  simp [Pat.retriable, Pat.retriables, Pat.settles, Pat.lastSettles, ha.moveCopies, hb.moveCopies, hq]

/-- C79: no others: what is given to the actions of these patterns is nothing, numbers, or tuples of them. -/
theorem C79_covers_numbers_only (a : Act) (p : Pat) (clean : Bool)
    (h : (Pat.action a p).retriable clean = true) : a.landing.Numbers := by
  simp only [Pat.retriable, Bool.and_eq_true] at h
  exact Ty.numbers_of _ h.1.1

/-- An action on values of type `t`. -/
def exTake (t : Ty) : Act := ⟨1, t, true, false, fun _ _ _ => (.nil, .nil)⟩
/-- The first call of all throws. -/
def exFirst : Throwing := fun _ l _ => l.isEmpty
/-- Moved-from strings are empty. -/
def exMoved : Moved := fun _ => .coll []
/-- All the text, then `consume`. -/
def exAll (t : List Ch) : List SOp := [.add t true, .consume]

/-- C79 is false in general: `char_[take]` on "xy" calls the action with 'x', and when that throws and
`consume` is called again, with 'y'. -/
theorem C79_refuted : MakeParserRunBy (retrying exMoved exFirst noEnv)
    (.action (exTake .char) (.char .any)) .nil ⟨[], []⟩ (exAll [120, 121])
    (.ok (.SUCCESS, ⟨[.num 121], [⟨1, .num 120⟩, ⟨1, .num 121⟩]⟩, [])) :=
  objectBy_of_objectByN (n := 20) rfl

/-- C79: `int_[take]` on "-5": the action is called with -5, then with 5. -/
theorem C79_refuted_sign : MakeParserRunBy (retrying exMoved exFirst noEnv)
    (.action (exTake .int) int_) .nil ⟨[], []⟩ (exAll [45, 53])
    (.ok (.SUCCESS, ⟨[.num 5], [⟨1, .num (-5)⟩, ⟨1, .num 5⟩]⟩, [])) :=
  objectBy_of_objectByN (n := 20) rfl

/-- C79: `(+char_)[take]` on "ab": the second call may get the string the first was moved from. -/
theorem C79_refuted_moved : MakeParserRunBy (retrying exMoved exFirst noEnv)
    (.action (exTake .string) (.rep 1 0 (.char .any))) .nil ⟨[], []⟩ (exAll [97, 98])
    (.ok (.SUCCESS, ⟨[.coll []], [⟨1, .coll [.num 97, .num 98]⟩, ⟨1, .coll []⟩]⟩, [])) :=
  objectBy_of_objectByN (n := 20) rfl

/-- C79: so may the members of a tuple: `(uint_ >> ':' >> +char_)[take]` on "5:ab". -/
theorem C79_refuted_moved_tuple : MakeParserRunBy (retrying (fun _ => .tup [.num 5, .coll []]) exFirst noEnv)
    (.action (exTake (.tup [.int, .string])) (.seq [uint_, .strLit [58], .rep 1 0 (.char .any)])) .nil ⟨[], []⟩
    (exAll [53, 58, 97, 98])
    (.ok (.SUCCESS, ⟨[.tup [.num 5, .coll []]],
      [⟨1, .tup [.num 5, .coll [.num 97, .num 98]]⟩, ⟨1, .tup [.num 5, .coll []]⟩]⟩, [])) :=
  objectBy_of_objectByN (n := 30) rfl

/-- An object of a class made from a number and a character, then `;`. -/
def exObject : Pat := .seq [.construct [.int, .char] (.seq [uint_, .char .any]), .strLit [59]]

/-- C79: the same with an object of a class of the user's: when the `;` is found again, nothing makes the
object anew. -/
theorem C79_refuted_moved_object : MakeParserRunBy (retrying (fun _ => .obj 3 []) exFirst noEnv)
    (.action (exTake (.user 3)) exObject) .nil ⟨[], []⟩ (exAll [53, 33, 59])
    (.ok (.SUCCESS, ⟨[.obj 3 [], .tup [.num 5, .num 33]],
      [⟨1, .obj 3 [.num 5, .num 33]⟩, ⟨1, .obj 3 []⟩]⟩, [])) :=
  objectBy_of_objectByN (n := 30) rfl

/-- C79: `(-lit("ab"))[take]` on "x": undefined behaviour, the rollback point is used up twice. -/
theorem C79_refuted_rollback : MakeParserRunBy (retrying exMoved exFirst noEnv)
    (.action (exTake .nil) (.opt (.strLit [97, 98]))) .nil ⟨[], []⟩ (exAll [120])
    (.error .ubData) := objectBy_of_objectByN (n := 20) rfl

/-- C79: so it is with `*(lit("ab")[take])` on "ab", where the operand has to fail cleanly. -/
theorem C79_refuted_repeat : MakeParserRunBy (retrying exMoved exFirst noEnv)
    (.rep 0 0 (.action (exTake .nil) (.strLit [97, 98]))) .nil ⟨[], []⟩ (exAll [97, 98])
    (.error .ubData) := objectBy_of_objectByN (n := 20) rfl

/-- C79: `(repeat<1, 2>(char_))[take]` on "abcd": the action is called with "ab"; asked again, the
repetition, which counts on from two, does not find its limit any more and reads all that is left. -/
theorem C79_refuted_limit : MakeParserRunBy (retrying exMoved exFirst noEnv)
    (.action (exTake .string) (.rep 1 2 (.char .any))) .nil ⟨[], []⟩ (exAll [97, 98, 99, 100])
    (.ok (.SUCCESS, ⟨[.coll [.num 99, .num 100]],
      [⟨1, .coll [.num 97, .num 98]⟩, ⟨1, .coll [.num 99, .num 100]⟩]⟩, [])) :=
  objectBy_of_objectByN (n := 20) rfl

/-- Without exceptions these two have a verdict. -/
example : MakeParserRunBy (retrying exMoved (fun _ _ _ => false) noEnv)
    (.action (exTake .nil) (.opt (.strLit [97, 98]))) .nil ⟨[], []⟩ (exAll [120])
    (.ok (.SUCCESS, ⟨[], [⟨1, .nil⟩]⟩, [120])) := objectBy_of_objectByN (n := 20) rfl
example : MakeParserRunBy (retrying exMoved (fun _ _ _ => false) noEnv)
    (.rep 0 0 (.action (exTake .nil) (.strLit [97, 98]))) .nil ⟨[], []⟩ (exAll [97, 98])
    (.ok (.SUCCESS, ⟨[], [⟨1, .nil⟩]⟩, [])) := objectBy_of_objectByN (n := 20) rfl

/-- Hypotheses met: `uint_[take] % ','` on "1," and "2": the first call throws, the value 1 comes again. -/
def exTakes : Pat := .list (.action (exTake .int) uint_) (litC 44)
example : MakeParserRunBy (persisting exFirst noEnv) exTakes .nil ⟨[], []⟩
    [.add [49, 44] false, .consume, .add [50] true, .consume]
    (.ok (.SUCCESS, ⟨[.num 1, .num 2], [⟨1, .num 1⟩, ⟨1, .num 1⟩, ⟨1, .num 2⟩]⟩, [])) :=
  (C79_consume_again_partial exMoved exFirst noEnv exTakes .nil _ _ (fun _ _ h => by cases h) rfl _).1
    (objectBy_of_objectByN (n := 20) rfl)

/-- Hypotheses met, for the comparison with no exceptions. -/
example : ∃ l l', [⟨1, .num 1⟩, ⟨1, .num 1⟩, ⟨1, .num 2⟩] = l' ∧ Repeats l l' ∧
    MakeParserRun noEnv exTakes .nil ⟨[], []⟩ [.add [49, 44] false, .consume, .add [50] true, .consume]
      (.ok (.SUCCESS, ⟨[.num 1, .num 2], l⟩, [])) :=
  C79_as_without_exceptions_partial exMoved exFirst noEnv exTakes .nil ⟨[], []⟩
    ⟨[.num 1, .num 2], [⟨1, .num 1⟩, ⟨1, .num 1⟩, ⟨1, .num 2⟩]⟩ _ _ _ (fun _ _ h => by cases h) rfl
    (fun _ _ h => by cases h) ⟨⟨⟨rfl, fun _ _ _ _ => rfl⟩, trivial⟩, trivial⟩
    (objectBy_of_objectByN (n := 20) rfl)

/-- Hypotheses met, for the end: `exFirst` throws only once. -/
example : exFirst.givesUp := fun _ l _ => ⟨1, by cases l <;> rfl⟩

/-- Hypotheses met, for errors: a buffer is added after the final one. -/
example : MakeParserRunBy (retrying exMoved exFirst noEnv) exTakes .nil ⟨[], []⟩
    [.add [49] true, .add [50] true] (.error .ubData) := objectBy_of_objectByN (n := 20) rfl

end Abu
