import Verif.Model.Factory
/-
The two examples of /repo/README.md (tested by /repo/tests/documentation/test_readme.cpp).
-/
namespace Abu

/-- README.md:75 and 110 `abu::char_(" \t\r\n")`; a string literal ends with a NUL character. -/
def readmeSpace : Pat := .char (setOfCString [32, 9, 13, 10, 0])

/-- README.md:71-75, test_readme.cpp:16-22: `'[' >> (abu::int_ % ',') >> ']'` with a skipper. A `char`
operand is `lit` of it (patterns/leaf/char_literal.h:33-36). -/
def readmeList : Pat :=
  .withSkipper (.seqOp (.seqOp (litC 91) (.list int_ (litC 44))) (litC 93)) readmeSpace

/-- README.md:112: `('[' >> abu::int_ >> ',' >> abu::int_ >> ']').as<int, int>()` -/
def rectangle2 : Pat :=
  .construct [.int, .int]
    (.seqOp (.seqOp (.seqOp (.seqOp (litC 91) int_) (litC 44)) int_) (litC 93))

/-- README.md:113: `('[' >> abu::int_ >> ',' >> abu::int_ >> ',' >> abu::int_ >> ',' >> abu::int_ >>
']').as<int, int, int, int>()` -/
def rectangle4 : Pat :=
  .construct [.int, .int, .int, .int]
    (.seqOp (.seqOp (.seqOp (.seqOp (.seqOp (.seqOp (.seqOp (.seqOp
      (litC 91) int_) (litC 44)) int_) (litC 44)) int_) (litC 44)) int_) (litC 93))

/-- README.md:110-115, test_readme.cpp:46-53: rectangles, with a skipper. A `Rectangle` (README.md:96-107)
is a user type; its value is given by the arguments of its constructor. -/
def readmeRectangle : Pat := .withSkipper (.altOp rectangle2 rectangle4) readmeSpace

end Abu
