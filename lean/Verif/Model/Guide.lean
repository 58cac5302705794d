import Verif.Model.Api
/-
Examples of the user guide, /repo/docs/guide/*.md.
-/
namespace Abu

/-- 02_parsers.md:67-69 and 04_resumable_parsers.md:16: `*abu::UInt<10,2,2>`, parsed into a
`std::vector<unsigned short>`. -/
def guidePairs : Pat := .star (.uint 10 2 2)

/-- 03_skippers.md:42-44 `alnum` (char_set/or.h:39-49: `|` nests to the left) -/
def guideAlnum : CharSet := .or (.or (.range 97 122) (.range 65 90)) (.range 48 57)

/-- 03_skippers.md:46 `lexeme(*char_(alnum))` -/
def guideName : Pat := .lexeme (.star (.char guideAlnum))

/-- 03_skippers.md:48 `char_(" \r\n\t")`; a string literal ends with a NUL character. -/
def guideSpace : Pat := .char (setOfCString [32, 13, 10, 9, 0])

/-- 03_skippers.md:49-51 `apply_skipper(name >> name >> uint_, whitespace)` -/
def guidePlayer : Pat := .withSkipper (.seqOp (.seqOp guideName guideName) uint_) guideSpace

/-- 03_skippers.md:12-14 and 26 `ows`; `ignore` is called `discard` in the code
(patterns/unary/discard.h). -/
def guideOws : Pat := .discard (.star guideSpace)

/-- 03_skippers.md:28-32: the same without skipper -/
def guidePlayerOws : Pat :=
  .seqOp (.seqOp (.seqOp (.seqOp (.seqOp guideOws (.star (.char guideAlnum))) guideOws)
    (.star (.char guideAlnum))) guideOws) uint_

/-- 03_skippers.md:16-17: `*(ows >> int_)` -/
def guideInts : Pat := .star (.seqOp guideOws int_)

/-- 03_skippers.md:41-51 without the `lexeme`, see 03_skippers.md:56. -/
def guideNoLexeme : Pat :=
  .withSkipper (.seqOp (.seqOp (.star (.char guideAlnum)) (.star (.char guideAlnum))) uint_) guideSpace

/-- 02_parsers.md:22-25 `prefixed_hex<MIN_DIGITS, MAX_DIGITS>()`; the closing parenthesis that is
missing there is the one after `lit("0X")`. -/
def guideHex (mn mx : Nat) : Pat :=
  .seqOp (.altOp (.strLit [48, 120]) (.strLit [48, 88])) (.uint 16 mn mx)

/-- 05_actions.md:9-10: an action that takes nothing and returns nothing. -/
def guideMatched (id : Nat) : Pat :=
  .star (.action ⟨id, .nil, true, false, fun _ _ _ => (.nil, .nil)⟩ (.char .any))

/-- 05_actions.md:19-20: an action that takes the character (a `char`) and returns nothing. -/
def guideFound (id : Nat) : Pat :=
  .star (.action ⟨id, .char, true, false, fun _ _ _ => (.nil, .nil)⟩ (.char .any))

/-- 05_actions.md:29-30: `*char_()[action]`, where the action maps a character to a value. -/
def guideMapped (id : Nat) (ty : Ty) (f : Int → Int) : Pat :=
  .star (.action ⟨id, ty, false, false, fun _ v _ =>
    (match v with | .num c => .num (f c) | v => v, .nil)⟩ (.char .any))

/-- 06_recursivity.md:27 `int_ | ( '(' >> my_recur % ',' >> ')')`; `my_recur` is number 0. -/
def guideNested : Pat :=
  .altOp int_ (.seqOp (.seqOp (litC 40) (.list (.recur 0 false) (litC 44))) (litC 41))

/-- 06_recursivity.md:30 -/
def guideEnv : Env := fun i => if i = 0 then some guideNested else none

/-- 04_resumable_parsers.md:26-38: the loop that reads a file in chunks of `k` characters, `unread`
being what is left of the file, until `consume` returns something else than `PARTIAL`.
`file.read` is true iff `k` characters were left (line 29), otherwise the buffer is final (line 35).
Text left in the file counts as unread text of the parser. -/
inductive ReadLoop (k : Nat) (env : Env) (p : Prog) (dst : Ref) :
    PState → World ContainerSeq Mem → List Ch → Verdict → Prop
  | addBad {st w unread} :
      ContainerSeq.addBuffer w.ds (unread.take k) (!decide (k ≤ unread.length)) = none →
      ReadLoop k env p dst st w unread (.error .ubData)
  | error {st w unread ds e} :
      ContainerSeq.addBuffer w.ds (unread.take k) (!decide (k ≤ unread.length)) = some ds →
      Evals env p dst dst st (⟨ds, w.mem⟩ : World ContainerSeq Mem) (.error e) →
      ReadLoop k env p dst st w unread (.error e)
  | verdict {st w unread ds r st' w' rest} :
      ContainerSeq.addBuffer w.ds (unread.take k) (!decide (k ≤ unread.length)) = some ds →
      Evals env p dst dst st (⟨ds, w.mem⟩ : World ContainerSeq Mem) (.ok ((r, st'), w')) →
      r ≠ .PARTIAL → Reads w'.ds rest →
      ReadLoop k env p dst st w unread (.ok (r, w'.mem, rest ++ unread.drop k))
  | more {st w unread ds st' w' v} :
      ContainerSeq.addBuffer w.ds (unread.take k) (!decide (k ≤ unread.length)) = some ds →
      Evals env p dst dst st (⟨ds, w.mem⟩ : World ContainerSeq Mem) (.ok ((.PARTIAL, st'), w')) →
      ReadLoop k env p dst st' w' (unread.drop k) v → ReadLoop k env p dst st w unread v

/-- 04_resumable_parsers.md:15-42 -/
inductive ReadsFile (k : Nat) (env : Env) (p : Pat) (dst : Ref) (m : Mem) (file : List Ch) :
    Verdict → Prop
  | construct {e} :
      construct (topParser p) dst dst (⟨ContainerSeq.make, m⟩ : World ContainerSeq Mem) = .error e →
      ReadsFile k env p dst m file (.error e)
  | run {st w v} :
      construct (topParser p) dst dst (⟨ContainerSeq.make, m⟩ : World ContainerSeq Mem) = .ok (st, w) →
      ReadLoop k env (topParser p) dst st w file v → ReadsFile k env p dst m file v

end Abu
