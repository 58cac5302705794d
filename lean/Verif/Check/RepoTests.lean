import Verif.Proofs.Answers
import Verif.Proofs.Eval
/-
The tests of /repo/tests, run on the model. Nothing is proved about the code here; the tests pass
in the project's own build, so a model that fails one is wrong.
-/
namespace Abu.RepoTests

/-- The characters of a string literal. -/
def str (s : String) : List Ch := s.toList.map fun c => (c.toNat : Int)

/-- `as_recur` (tests/test_utils.h:27-36): the environment with `p` under the number 1000. -/
def asRecur (env : Env) (p : Pat) : Env := fun i => if i = 1000 then some p else env i

/-- tests/test_utils.h:10-76 `testPatternSuccess`: into `Nil`, into a destination, through a `Recur`;
each in one piece and in all other ways, one character at a time included (`Answers`). -/
def Success (env : Env) (t : List Ch) (p : Pat) (ty : Ty) (v : Val) : Prop :=
  (∃ m rest, Answers env p .nil ⟨[], []⟩ t (.ok (.SUCCESS, m, rest))) ∧
  (∃ m rest, Answers env p (wrapDst 0 [] ty) ⟨[ty.valueInit], []⟩ t (.ok (.SUCCESS, m, rest)) ∧
    m.objs[0]? = some v) ∧
  (∃ m rest, Answers (asRecur env p) (.recur 1000 true) (wrapDst 0 [] ty) ⟨[ty.valueInit], []⟩ t
    (.ok (.SUCCESS, m, rest)) ∧ m.objs[0]? = some v)

/-- tests/test_utils.h:78-122 `testPatternFailure` -/
def Failure (env : Env) (ty : Ty) (t : List Ch) (p : Pat) : Prop :=
  (∃ m rest, Answers env p .nil ⟨[], []⟩ t (.ok (.FAILURE, m, rest))) ∧
  (∃ m rest, Answers env p (wrapDst 0 [] ty) ⟨[ty.defaultInit], []⟩ t (.ok (.FAILURE, m, rest)))

mutual
/-- Equality test on values. -/
def same : Val → Val → Bool
  | .nil, .nil => true
  | .indet, .indet => true
  | .num i, .num j => i == j
  | .coll l, .coll l' => sames l l'
  | .tup l, .tup l' => sames l l'
  | .obj n l, .obj n' l' => n == n' && sames l l'
  | _, _ => false
def sames : List Val → List Val → Bool
  | [], [] => true
  | v :: l, v' :: l' => same v v' && sames l l'
  | _, _ => false
end

mutual
theorem same_eq : ∀ {v v' : Val}, same v v' = true → v = v'
  | .nil, .nil, _ => rfl
  | .indet, .indet, _ => rfl
  | .num i, .num j, h => by simp only [same, beq_iff_eq] at h; rw [h]
  | .coll l, .coll l', h => by simp only [same] at h; rw [sames_eq h]
  | .tup l, .tup l', h => by simp only [same] at h; rw [sames_eq h]
  | .obj n l, .obj n' l', h => by
    simp only [same, Bool.and_eq_true, beq_iff_eq] at h; rw [h.1, sames_eq h.2]
theorem sames_eq : ∀ {l l' : List Val}, sames l l' = true → l = l'
  | [], [], _ => rfl
  | v :: l, v' :: l', h => by
    simp only [sames, Bool.and_eq_true] at h; rw [same_eq h.1, sames_eq h.2]
end

/-- Is this the outcome, with this value in object 0 (if one is given)? -/
def outcome (r : Res) (v : Option Val) : Option Verdict → Bool
  | some (.ok (r', m, _)) => r' == r && match v with
    | some v => match m.objs[0]? with
      | some v' => same v v'
      | none => false
    | none => true
  | _ => false

theorem answers_of {env n p dst m t r v} (h : outcome r v (parseN env n p dst m t) = true) :
    ∃ m' rest, Answers env p dst m t (.ok (r, m', rest)) ∧ ∀ x, v = some x → m'.objs[0]? = some x := by
  generalize hv : parseN env n p dst m t = o at h
  match o, h with
  | some (.ok (r', m', rest)), h =>
    simp only [outcome, Bool.and_eq_true] at h
    obtain ⟨h1, h2⟩ := h
    have : r' = r := by simpa using h1
    subst this
    refine ⟨m', rest, .of_parses (parses_of_parseN hv), fun x hx => ?_⟩
    subst hx
    simp only at h2
    split at h2
    · rename_i hm; rw [hm, same_eq h2]
    · cases h2

/-- Checks `Success` within `n` steps. -/
def successN (n : Nat) (env : Env) (t : List Ch) (p : Pat) (ty : Ty) (v : Val) : Bool :=
  outcome .SUCCESS none (parseN env n p .nil ⟨[], []⟩ t) &&
  outcome .SUCCESS (some v) (parseN env n p (wrapDst 0 [] ty) ⟨[ty.valueInit], []⟩ t) &&
  outcome .SUCCESS (some v)
    (parseN (asRecur env p) n (.recur 1000 true) (wrapDst 0 [] ty) ⟨[ty.valueInit], []⟩ t)

theorem Success.of {env t p ty v} (n : Nat) (h : successN n env t p ty v = true) : Success env t p ty v := by
  simp only [successN, Bool.and_eq_true] at h
  obtain ⟨⟨h1, h2⟩, h3⟩ := h
  obtain ⟨m1, r1, h1, _⟩ := answers_of h1
  obtain ⟨m2, r2, h2, h2'⟩ := answers_of h2
  obtain ⟨m3, r3, h3, h3'⟩ := answers_of h3
  exact ⟨⟨m1, r1, h1⟩, ⟨m2, r2, h2, h2' v rfl⟩, ⟨m3, r3, h3, h3' v rfl⟩⟩

/-- Checks `Failure` within `n` steps. -/
def failureN (n : Nat) (env : Env) (ty : Ty) (t : List Ch) (p : Pat) : Bool :=
  outcome .FAILURE none (parseN env n p .nil ⟨[], []⟩ t) &&
  outcome .FAILURE none (parseN env n p (wrapDst 0 [] ty) ⟨[ty.defaultInit], []⟩ t)

theorem Failure.of {env t p ty} (n : Nat) (h : failureN n env ty t p = true) : Failure env ty t p := by
  simp only [failureN, Bool.and_eq_true] at h
  obtain ⟨m1, r1, h1, _⟩ := answers_of h.1
  obtain ⟨m2, r2, h2, _⟩ := answers_of h.2
  exact ⟨⟨m1, r1, h1⟩, ⟨m2, r2, h2⟩⟩

/-- No `Recur` object. -/
def none : Env := fun _ => .none

def nums (l : List Int) : Val := .coll (l.map .num)
def text (s : String) : Val := nums (str s)

/-- `char_(b, e)` -/
def rangeP (b e : Char) : Pat := .char (.range b.toNat e.toNat)
/-- `char_("...")` -/
def setP (s : String) : Pat := .char (setOfCString (str s ++ [0]))
/-- `char_()` -/
def anyP : Pat := .char .any
def chr (c : Char) : Pat := charP c.toNat
def litCh (c : Char) : Pat := litC c.toNat
/-- `lit("...")` -/
def litS (s : String) : Pat := .strLit (str s)

/-! ### tests/patterns/test_alternative.cpp -/

def alternative : Pat := .altOp (.uint 2 4 4) (.uint 10 2 2)
example : Success none (str "1010") alternative .unsigned (.num 10) := .of 40 (by decide +kernel)
example : Success none (str "24") alternative .unsigned (.num 24) := .of 40 (by decide +kernel)
example : Failure none .int (str "2") alternative := .of 40 (by decide +kernel)

/-! ### tests/patterns/test_action.cpp -/

/-- `[&]() { ++count; }` and `[&](int v) { count += v; }`: the calls are in the log. -/
def countAct : Act := ⟨0, .nil, true, false, fun _ _ b => (.nil, b)⟩
def addAct : Act := ⟨1, .int, true, false, fun _ _ b => (.nil, b)⟩
/-- `[&](int v) { return v * v; }` -/
def squareAct : Act := ⟨2, .int, false, false, fun _ v b =>
  ((match v with | .num i => .num (i * i) | v => v), b)⟩

example : ∃ m, parseN none 40 (.star (.action countAct (.uint 10 2 2))) .nil ⟨[], []⟩ (str "123456") =
    some (.ok (.SUCCESS, m, [])) ∧ m.log.length = 3 := ⟨_, rfl, rfl⟩
example : ∃ m, parseN none 40 (.star (.action addAct (.uint 10 2 2))) .nil ⟨[], []⟩ (str "123456") =
    some (.ok (.SUCCESS, m, [])) ∧ m.log.map (·.arg) = [.num 12, .num 34, .num 56] := ⟨_, rfl, rfl⟩
example : outcome .SUCCESS (some (nums [12 * 12, 34 * 34, 56 * 56]))
    (parseN none 40 (.star (.action squareAct (.uint 10 2 2))) (.at 0 [] (.coll .int)) ⟨[.coll []], []⟩
      (str "123456")) = true := by decide +kernel
example : Success none (str "1 2 3")
    (.withSkipper (.seqOp (.seqOp int_ (.action addAct int_)) int_) (litCh ' '))
    (.tup [.int, .int]) (.tup [.num 1, .num 3]) := .of 60 (by decide +kernel)

/-! ### tests/patterns/test_bind_dst.cpp -/

/-- `[](char, auto p) -> void { p.bound_dst.get() += 1; }` -/
def incAct : Act := ⟨0, .char, true, true, fun _ _ b =>
  (.nil, match b with | .num i => .num (i + 1) | b => b)⟩
def bindInc : Pat := .bindDst (.star (.action incAct anyP))
example : Success none (str "1010") bindInc .int (.num 4) := .of 40 (by decide +kernel)
example : Success none (str "24") bindInc .int (.num 2) := .of 40 (by decide +kernel)

/-! ### tests/patterns/test_char_literal.cpp -/

example : Success none (str "a") (litCh 'a') .nil .nil := .of 40 (by decide +kernel)
example : Success none (str "ab") (litCh 'a') .nil .nil := .of 40 (by decide +kernel)
example : Failure none .nil (str "b") (litCh 'a') := .of 40 (by decide +kernel)

/-! ### tests/patterns/test_character.cpp -/

example : Success none (str "a") anyP .char (.num 97) := .of 40 (by decide +kernel)
example : Failure none .char (str "") anyP := .of 40 (by decide +kernel)
example : Success none (str "+") (chr '+') .char (.num 43) := .of 40 (by decide +kernel)
example : Success none (str "+-") (chr '+') .char (.num 43) := .of 40 (by decide +kernel)
example : Failure none .char (str "") (chr '+') := .of 40 (by decide +kernel)
example : Failure none .char (str "a") (chr '+') := .of 40 (by decide +kernel)
example : Success none (str "0") (rangeP '0' '9') .char (.num 48) := .of 40 (by decide +kernel)
example : Success none (str "9") (rangeP '0' '9') .char (.num 57) := .of 40 (by decide +kernel)
example : Success none (str "5") (rangeP '0' '9') .char (.num 53) := .of 40 (by decide +kernel)
example : Failure none .char (str "a") (rangeP '0' '9') := .of 40 (by decide +kernel)
example : Failure none .char (str "A") (rangeP '0' '9') := .of 40 (by decide +kernel)
example : Failure none .char (str "") (rangeP '0' '9') := .of 40 (by decide +kernel)
example : Success none (str " ") (setP " \r\n\t") .char (.num 32) := .of 40 (by decide +kernel)
example : Success none (str "\n") (setP " \r\n\t") .char (.num 10) := .of 40 (by decide +kernel)
example : Success none (str "\thh") (setP " \r\n\t") .char (.num 9) := .of 40 (by decide +kernel)
example : Failure none .char (str "a") (setP " \r\n\t") := .of 40 (by decide +kernel)
example : Failure none .char (str "l ") (setP " \r\n\t") := .of 40 (by decide +kernel)
example : Failure none .char (str "") (setP " \r\n\t") := .of 40 (by decide +kernel)

/-! ### tests/patterns/test_digit_values.cpp -/

example : digitValid 2 48 = true ∧ digitValid 2 49 = true ∧ digitValid 2 50 = false ∧
    digitValue 2 48 = 0 ∧ digitValue 2 49 = 1 := by decide +kernel
example : digitValid 3 48 = true ∧ digitValid 3 49 = true ∧ digitValid 3 50 = true ∧
    digitValid 3 51 = false ∧ digitValue 3 48 = 0 ∧ digitValue 3 49 = 1 ∧ digitValue 3 50 = 2 := by decide +kernel
example : (∀ i < 10, digitValid 16 (48 + (i : Nat)) = true) ∧
    (∀ i < 6, digitValid 16 (97 + (i : Nat)) = true ∧ digitValid 16 (65 + (i : Nat)) = true) ∧
    digitValue 16 97 = 10 ∧ digitValue 16 65 = 10 ∧ digitValue 16 102 = 15 ∧ digitValue 16 70 = 15 := by decide +kernel

/-! ### tests/patterns/test_eoi.cpp -/

example : Failure none .nil (str "a") .eoi := .of 40 (by decide +kernel)
example : Failure none .nil (str "hello") .eoi := .of 40 (by decide +kernel)
example : Success none (str "") .eoi .nil .nil := .of 40 (by decide +kernel)

/-! ### tests/patterns/test_except.cpp -/

def exceptOne : Pat := .except uint_ (litCh '1')
example : Success none (str "234") exceptOne .unsigned (.num 234) := .of 40 (by decide +kernel)
example : Failure none .int (str "1234") exceptOne := .of 40 (by decide +kernel)
example : Failure none .int (str "abc1234") exceptOne := .of 40 (by decide +kernel)
example : Failure none .int (str "") exceptOne := .of 40 (by decide +kernel)
example : Failure none .int (str "1") exceptOne := .of 40 (by decide +kernel)
example : Success none (str "24562322") (.star (.except (.uint 10 2 2) (litS "23"))) (.coll .int)
    (nums [24, 56]) := .of 60 (by decide +kernel)

/-! ### tests/patterns/test_int.cpp -/

example : Success none (str "12") int_ .int (.num 12) := .of 40 (by decide +kernel)
example : Success none (str "-1") int_ .int (.num (-1)) := .of 40 (by decide +kernel)
example : Success none (str "+14") int_ .int (.num 14) := .of 40 (by decide +kernel)
example : Failure none .int (str "") int_ := .of 40 (by decide +kernel)
example : Failure none .int (str "a123") int_ := .of 40 (by decide +kernel)

/-! ### tests/patterns/test_list.cpp -/

example : Success none (str "1,5,12,125") (.list uint_ (litCh ',')) (.coll .int)
    (nums [1, 5, 12, 125]) := .of 60 (by decide +kernel)
example : Success none (str "a12b0c2354d") (.list (rangeP 'a' 'z') uint_) .string (text "abcd") :=
  .of 60 (by decide +kernel)
example : Success none (str "12") (.list uint_ (litCh ',')) (.coll .int) (nums [12]) :=
  .of 60 (by decide +kernel)
example : Success none (str "12,13;14,15,16") (.list (.list uint_ (litCh ',')) (litCh ';'))
    (.coll (.coll .int)) (.coll [nums [12, 13], nums [14, 15, 16]]) := .of 80 (by decide +kernel)
example : Success none (str "11,234") (.list (.rep 2 3 (.uint 10 1 1)) (litCh ','))
    (.coll (.coll .int)) (.coll [nums [1, 1], nums [2, 3, 4]]) := .of 80 (by decide +kernel)

/-! ### tests/patterns/test_not.cpp -/

example : Failure none .nil (str "hello") (.not .pass) := .of 40 (by decide +kernel)
example : Failure none .nil (str "c") (.not (rangeP 'a' 'z')) := .of 40 (by decide +kernel)
example : Success none (str "2") (.not (rangeP 'a' 'z')) .nil .nil := .of 40 (by decide +kernel)
example : Success none (str "hello") (.not (.not .pass)) .nil .nil := .of 40 (by decide +kernel)
example : Success none (str "c") (.not (.not (rangeP 'a' 'z'))) .nil .nil := .of 40 (by decide +kernel)
example : Failure none .nil (str "2") (.not (.not (rangeP 'a' 'z'))) := .of 40 (by decide +kernel)

/-! ### tests/patterns/test_optional.cpp -/

def optional : Pat := .seqOp (.opt anyP) (.plus (rangeP 'a' 'z'))
example : Success none (str "hello") optional .nil .nil := .of 40 (by decide +kernel)
example : Success none (str "1ello") optional .nil .nil := .of 40 (by decide +kernel)
example : Failure none .nil (str "12ello") optional := .of 40 (by decide +kernel)

/-! ### tests/patterns/test_pass.cpp -/

example : Success none (str "a") .pass .nil .nil := .of 40 (by decide +kernel)
example : Success none (str "hello") .pass .nil .nil := .of 40 (by decide +kernel)
example : Success none (str "") .pass .nil .nil := .of 40 (by decide +kernel)
example : Failure none .nil (str "a") .fail := .of 40 (by decide +kernel)
example : Failure none .nil (str "hello") .fail := .of 40 (by decide +kernel)
example : Failure none .nil (str "") .fail := .of 40 (by decide +kernel)

/-! ### tests/patterns/test_recur.cpp -/

example : Success (fun i => if i = 0 then some (.star anyP) else .none) (str "abc") (.recur 0 false)
    .string (text "abc") := .of 60 (by decide +kernel)
example : Success (fun i => if i = 0 then some (.seqOp (.int 10 2 2) (.star (.recur 0 true))) else .none)
    (str "123456") (.recur 0 true) .nil .nil := .of 60 (by decide +kernel)

/-- `make_node`; `Node` is user type 7. -/
def nodeAct : Act := ⟨0, .tup [.char, .coll (.user 7)], false, false, fun _ v b =>
  ((match v with | .tup l => .obj 7 l | v => v), b)⟩
def nodeEnv : Env := fun i => if i = 0 then
  some (.action nodeAct (.seqOp (.seqOp (.seqOp anyP (litCh '(')) (.star (.recur 0 false))) (litCh ')')))
  else .none
example : Success nodeEnv (str "a(b()c())") (.recur 0 false) (.user 7)
    (.obj 7 [.num 97, .coll [.obj 7 [.num 98, .coll []], .obj 7 [.num 99, .coll []]]]) :=
  .of 100 (by decide +kernel)

/-- `make_node` and `make_sub_node` of the second test; `SubNode` is user type 8. -/
def node2Act : Act := ⟨0, .tup [.int, .coll (.user 7), .coll (.user 8)], false, false, fun _ v b =>
  ((match v with | .tup l => .obj 7 l | v => v), b)⟩
def subAct : Act := ⟨1, .tup [.int, .coll (.user 8)], false, false, fun _ v b =>
  ((match v with | .tup l => .obj 8 l | v => v), b)⟩
def multiEnv : Env := fun i =>
  if i = 0 then
    some (.action node2Act (.seqOp (.seqOp (.seqOp (.seqOp (.seqOp (.seqOp uint_ (litCh '('))
      (.star (.recur 0 false))) (litCh ')')) (litCh '[')) (.star (.recur 1 false))) (litCh ']')))
  else if i = 1 then
    some (.action subAct (.seqOp (.seqOp (.seqOp uint_ (litCh '(')) (.star (.recur 1 false))) (litCh ')')))
  else .none
example : Success multiEnv (str "1()[2()3(4())]") (.recur 0 false) (.user 7)
    (.obj 7 [.num 1, .coll [], .coll [.obj 8 [.num 2, .coll []],
      .obj 8 [.num 3, .coll [.obj 8 [.num 4, .coll []]]]]]) := .of 120 (by decide +kernel)
example : Success (fun i => if i = 0 then some (.int 10 2 2) else .none) (str "12") (.recur 0 true)
    .int (.num 12) := .of 60 (by decide +kernel)

/-! ### tests/patterns/test_repeat.cpp -/

example : Success none (str "abc") (.star anyP) .string (text "abc") := .of 40 (by decide +kernel)
example : Success none (str "2345") (.star (.uint 10 2 2)) (.coll .int) (nums [23, 45]) :=
  .of 40 (by decide +kernel)
example : Success none (str "abc") (.star (.uint 10 2 2)) (.coll .int) (nums []) := .of 40 (by decide +kernel)
example : Success none (str "") (.star (.uint 10 2 2)) (.coll .int) (nums []) := .of 40 (by decide +kernel)
example : Success none (str "23") (.plus (.uint 10 2 2)) (.coll .int) (nums [23]) := .of 40 (by decide +kernel)
example : Failure none (.coll .int) (str "abc") (.plus (.uint 10 2 2)) := .of 40 (by decide +kernel)
example : Failure none (.coll .int) (str "") (.plus (.uint 10 2 2)) := .of 40 (by decide +kernel)
example : Success none (str "1234") (.rep 0 3 (.uint 10 1 1)) (.coll .int) (nums [1, 2, 3]) :=
  .of 40 (by decide +kernel)
example : Success none (str "99") (.rep 2 2 (litCh '9')) .nil .nil := .of 40 (by decide +kernel)
example : Failure none .nil (str "9") (.rep 2 2 (litCh '9')) := .of 40 (by decide +kernel)

/-! ### tests/patterns/test_sequence.cpp -/

example : Success none (str "ab") (.seqOp (litS "a") (litS "b")) .nil .nil := .of 40 (by decide +kernel)
example : Success none (str "-c-") (.seqOp (.seqOp (litCh '-') anyP) (litCh '-')) .char (.num 99) :=
  .of 40 (by decide +kernel)
example : Success none (str "aaa-bb") (.seqOp (.seqOp (.star (chr 'a')) (litCh '-')) (.star (chr 'b')))
    .string (text "aaabb") := .of 40 (by decide +kernel)
example : Success none (str "aaa9bb")
    (.seqOp (.seqOp (.star (chr 'a')) (.except anyP (.rep 2 2 (litCh '9')))) (.star (chr 'b')))
    .string (text "aaa9bb") := .of 60 (by decide +kernel)
example : Success none (str "1-2-3")
    (.seqOp (.seqOp (.seqOp (.seqOp int_ (litCh '-')) int_) (litCh '-')) int_)
    (.tup [.int, .int, .int]) (.tup [.num 1, .num 2, .num 3]) := .of 60 (by decide +kernel)

/-! ### tests/patterns/test_skipper.cpp -/

def commentSkipper : Pat :=
  let eol := setP "\r\n"
  .altOp (.altOp (setP " \r\n\t") (.seqOp (.seqOp (litS "/*") (.star (.except anyP (litS "*/")))) (litS "*/")))
    (.seqOp (.seqOp (litS "//") (.star (.except anyP eol))) (.altOp eol .eoi))
def comments : Pat := .withSkipper (.star uint_) commentSkipper
example : Success none (str "1") comments (.coll .int) (nums [1]) := .of 100 (by decide +kernel)
example : Success none (str "1 2") comments (.coll .int) (nums [1, 2]) := .of 100 (by decide +kernel)
example : Success none (str "1       2") comments (.coll .int) (nums [1, 2]) := .of 100 (by decide +kernel)
example : Success none (str "1 // 1 2 3 \n 2") comments (.coll .int) (nums [1, 2]) :=
  .of 200 (by decide +kernel)
example : Success none (str "1 /* 1 2 3 4 */ 2") comments (.coll .int) (nums [1, 2]) :=
  .of 200 (by decide +kernel)
def spacedList : Pat := .withSkipper (.list uint_ (litCh ',')) (litCh ' ')
example : Success none (str "1,2,3") spacedList (.coll .int) (nums [1, 2, 3]) := .of 100 (by decide +kernel)
example : Success none (str "4, 5, 6") spacedList (.coll .int) (nums [4, 5, 6]) := .of 100 (by decide +kernel)
example : Success none (str " 7 , 8 , 9 ") spacedList (.coll .int) (nums [7, 8, 9]) :=
  .of 100 (by decide +kernel)

/-! ### tests/patterns/test_symbol.cpp -/

def symbolTable : Pat :=
  .symbol ((buildTrie [(str "a", .num 1), (str "ab", .num 3), (str "b", .num 2), (str "baf", .num 4),
    (str "longer", .num 5)]).getD (.mk .none .nil))
example : Success none (str "a") symbolTable .int (.num 1) := .of 40 (by decide +kernel)
example : Success none (str "b") symbolTable .int (.num 2) := .of 40 (by decide +kernel)
example : Success none (str "ab") symbolTable .int (.num 3) := .of 40 (by decide +kernel)
example : Success none (str "baf") symbolTable .int (.num 4) := .of 40 (by decide +kernel)
example : Success none (str "longer") symbolTable .int (.num 5) := .of 40 (by decide +kernel)
example : Failure none .int (str "xyz") symbolTable := .of 40 (by decide +kernel)
example : Success none (str "ac") symbolTable .int (.num 1) := .of 40 (by decide +kernel)
example : Success none (str "ba") symbolTable .int (.num 2) := .of 40 (by decide +kernel)
example : Failure none .int (str "longe") symbolTable := .of 40 (by decide +kernel)

/-! ### tests/patterns/test_uint.cpp -/

example : Success none (str "12") uint_ .unsigned (.num 12) := .of 40 (by decide +kernel)
example : Success none (str "1") uint_ .unsigned (.num 1) := .of 40 (by decide +kernel)
example : Failure none .int (str "") uint_ := .of 40 (by decide +kernel)
example : Failure none .int (str "a123") uint_ := .of 40 (by decide +kernel)
example : Success none (str "12") (.uint 3 1 0) .unsigned (.num 5) := .of 40 (by decide +kernel)
example : Success none (str "123") (.uint 10 3 0) .unsigned (.num 123) := .of 40 (by decide +kernel)
example : Success none (str "1234") (.uint 10 3 0) .unsigned (.num 1234) := .of 40 (by decide +kernel)
example : Failure none .int (str "12") (.uint 10 3 0) := .of 40 (by decide +kernel)
example : Success none (str "123") (.uint 10 1 3) .unsigned (.num 123) := .of 40 (by decide +kernel)
example : Success none (str "1234") (.uint 10 1 3) .unsigned (.num 123) := .of 40 (by decide +kernel)

/-! ### tests/documentation/test_readme.cpp -/

def readme : Pat :=
  .withSkipper (.seqOp (.seqOp (litCh '[') (.list int_ (litCh ','))) (litCh ']')) (setP " \t\r\n")
example : Success none (str "[1, 2, 3, 4, 5]") readme (.coll .int) (nums [1, 2, 3, 4, 5]) :=
  .of 100 (by decide +kernel)

/-- `Rectangle` is user type 9; a value is given by the constructor arguments. -/
def rect : Pat :=
  .withSkipper
    (.altOp
      (.construct [.int, .int] (.seqOp (.seqOp (.seqOp (.seqOp (litCh '[') int_) (litCh ',')) int_) (litCh ']')))
      (.construct [.int, .int, .int, .int] (.seqOp (.seqOp (.seqOp (.seqOp (.seqOp (.seqOp (.seqOp (.seqOp
        (litCh '[') int_) (litCh ',')) int_) (litCh ',')) int_) (litCh ',')) int_) (litCh ']'))))
    (setP " \t\r\n")
example : ∃ m rest, parseN none 100 rect (.at 0 [] (.user 9)) ⟨[.obj 9 []], []⟩ (str "[1, 45]") =
    some (.ok (.SUCCESS, m, rest)) ∧ m.objs[0]? = some (.obj 9 [.num 1, .num 45]) := ⟨_, _, rfl, rfl⟩
example : ∃ m rest, parseN none 100 rect (.at 0 [] (.user 9)) ⟨[.obj 9 []], []⟩ (str "[1, 45, 1, 1]") =
    some (.ok (.SUCCESS, m, rest)) ∧
    m.objs[0]? = some (.obj 9 [.num 1, .num 45, .num 1, .num 1]) := ⟨_, _, rfl, rfl⟩

/-! ### tests/char_set -/

/-- Members and non-members of a set. -/
def Members (s : CharSet) (yes no : String) : Prop :=
  (∀ c ∈ str yes, s.isValid c = true) ∧ (∀ c ∈ str no, s.isValid c = false)
instance : Decidable (Members s yes no) := inferInstanceAs (Decidable (_ ∧ _))

example : Members (.delegated fun c => c == 97 || c == 122) "az" "b" := by decide +kernel
example : Members (.delegated fun c => decide (c < 109)) "al" "m" := by decide +kernel
example : Members (.not (.single 97)) "bA " "a" := by decide +kernel
example : Members (.or (.single 97) (.single 98)) "ab" "c" := by decide +kernel
example : Members (.or (.or (.single 97) (.single 98)) (.single 99)) "abc" "d" := by decide +kernel
example : Members (.or (.single 97) (.range 109 122)) "ap" "b" := by decide +kernel
example : Members (.range 97 103) "abg" "Ah" := by decide +kernel
example : Members (setOfRange (str "agz")) "agz" "Af" := by decide +kernel
example : Members (setOfCString (str "agz" ++ [0])) "agz" "Af\x00" := by decide +kernel
example : Members (.or (.range 97 122) (setOfCString (str "_!@" ++ [0]))) "ag!" "A\x00" := by decide +kernel
example : Members (.single 97) "a" "bgA \x00" := by decide +kernel
example : ∀ i < 256, CharSet.any.isValid ((i : Nat) - 128) = true := by decide +kernel

/-! ### tests/data_sources -/

/-- What a test does. -/
inductive Step
  | add (b : String) (f : Bool)
  | advance | prepare | commit | cancel
  /-- `EXPECT_EQ(c, ctx.next())` -/
  | next (c : Char)
  /-- `EXPECT_EQ(b, ctx.empty())` -/
  | empty (b : Bool)

/-- All steps are defined and meet their expectations. -/
def steps {σ : Type} [DataSource σ] (add : σ → List Ch → Bool → Option σ) : σ → List Step → Bool
  | _, [] => true
  | s, .add b f :: l => match add s (str b) f with | some s => steps add s l | .none => false
  | s, .advance :: l => match DataSource.advance s with | some s => steps add s l | .none => false
  | s, .prepare :: l => steps add (DataSource.prepare s) l
  | s, .commit :: l => match DataSource.commit s with | some s => steps add s l | .none => false
  | s, .cancel :: l => match DataSource.cancel s with | some s => steps add s l | .none => false
  | s, .next c :: l => DataSource.next s == some (c.toNat : Int) && steps add s l
  | s, .empty b :: l => DataSource.empty s == b && steps add s l

/-- The steps common to the tests of both data sources, on the text `1234567890`. -/
def common : List (List Step) :=
  [[.prepare, .advance, .advance, .advance, .commit, .next '1'],
   [.advance, .advance, .prepare, .advance, .advance, .advance, .commit, .next '3'],
   .prepare :: (List.replicate 10 .advance ++ [.empty true, .commit, .next '1']),
   [.prepare, .commit, .next '1'],
   [.prepare, .prepare, .advance, .advance, .prepare, .advance, .advance, .next '5', .commit, .next '3',
    .commit, .next '1', .commit, .next '1'],
   [.prepare, .advance, .advance, .prepare, .advance, .advance, .next '5', .cancel, .next '5', .commit,
    .next '1']]

example : common.all (steps (fun _ _ _ => .none) (SingleForward.make (str "1234567890"))) = true := by decide +kernel
example : common.all (fun l => steps ContainerSeq.addBuffer ContainerSeq.make
    ([.add "12" false, .add "34" false, .add "56" false, .add "78" false, .add "90" true] ++ l)) = true := by
  decide +kernel
example : steps (fun _ _ _ => .none) (SingleForward.make (str "123"))
    [.empty false, .next '1', .empty false, .advance, .next '2', .advance, .next '3', .empty false, .advance,
     .empty true] = true := by decide +kernel
example : steps ContainerSeq.addBuffer ContainerSeq.make [.add "abcd" true, .next 'a'] = true := by decide +kernel
example : steps ContainerSeq.addBuffer ContainerSeq.make
    [.add "ab" false, .add "c" false, .add "de" true, .next 'a', .advance, .empty false, .next 'b', .advance,
     .empty false, .next 'c', .advance, .empty false, .next 'd', .advance, .empty false, .next 'e', .advance,
     .empty true] = true := by decide +kernel

end Abu.RepoTests
