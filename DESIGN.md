# Formal model of abulafia's coroutine parsers (Lean 4)

Machine-readable status per property: `MANIFEST.json`. The properties in English:
`properties.jsonl`. Wrong programs tried against the theorems: `seeded/LOG.jsonl`.

All C++ paths are relative to `/repo/include/abulafia` unless they start with `/repo`.

## 1. What is modelled

Modules under `lean/Verif/Model`. Every definition cites the file and lines it stands for.

| Module | C++ code |
|---|---|
| `CharSet` | `char_set/*.h` |
| `Digits` | `parsers/helpers/digit_values.h` |
| `DataSource` | `data_source/single_forward.h`, `data_source/container_sequence.h` |
| `Dst` | `dst_wrapper/*.h`, `support/nil.h`, arithmetic on destinations, `make_from_tuple`, `act_dispatch` (`parsers/coroutine/unary/action.h:36-144`) |
| `Pattern` | `patterns/**`: pattern objects, operators, n-ary builder, symbol trie |
| `Expr` | `patterns/traits.h`, `patterns/pattern.h`, overloads of the operators: which operands they take, what literals convert to |
| `Factory` | `parsers/coroutine/parser_factory.h`; `ATOMIC`, `FAILS_CLEANLY`, `dst_behavior` of every `ParserFactory`; requirements handed to children; adapter selection |
| `Machine` | constructor and `consume()` of every class under `parsers/coroutine/**`, adapters and `recur.h` included |
| `Static` | the `static_assert`s that bear on behaviour; the calls of `dst_behavior()` |
| `Recur` | `patterns/recur.h`: pools, handles, definition |
| `Dispatch` | `support/visit_val.h`, `abu_assume`, and the entry of `consume` of `Seq` and `Alt` |
| `Api` | `operations/parse.h`, `operations/make_parser.h` |
| `Objects` | programs with several parser objects (`operations/make_parser.h`) in one memory |
| `Copies` | the implicit copy constructor of `ParserInterface` and of its members (`operations/make_parser.h`, `context.h`, `data_source/container_sequence.h`); simplified: a copy gets copies of all buffers, its own or not |
| `Moves` | the implicit move constructor of `ParserInterface` and of its members (`operations/make_parser.h`, `context.h`, `data_source/container_sequence.h`), and `consume` on a data source that was moved from; simplified: `advance()` on such a data source is undefined (it never comes before `empty()`), and the buffers of parser objects stay where they are in the memory |
| `Peek` | the member function `peek` of the parser classes that have one (`leaf/eoi.h`, `pass.h`, `fail.h`, `char_symbol.h`, `unary/not.h`, `optional.h`, `lexeme.h`) |
| `Variants` | `support/variant_utils.h` and `is_one_of` of `support/type_traits.h`, which the rest of the library does not use |
| `ActionTraits` | `support/function_traits.h` and the traits of `unary/action.h`: which functions can be actions, and what they are called with; simplified: one call operator, no default arguments, only `Nil` can be made from everything |
| `Counters` | the `int` counters `digit_count_` and `count_` (`leaf/numeric/*.h`, `unary/repeat.h`), with overflow |
| `Checked` | `operations/*.h` over a machine that can run out of something |
| `SinglePass` | `data_source/single_forward.h` over input iterators, whose earlier copies become invalid |
| `Stack` | the depth of nested calls of `consume()`, with overflow of the stack |
| `Time` | the number of iterations of `consume()` in a run |
| `TextTypes` | `leaf/string_symbol.h`, `leaf/char_symbol.h`, `leaf/string_literal.h` on texts of another character type |
| `Throws` | `unary/action.h` with actions that throw; what leaves `operations/*.h` then |
| `Retry` | `operations/make_parser.h` when `consume()` is called again after an exception; what `unary/action.h` leaves of the landing value then |
| `Calculator` | `/repo/examples/math_expression/main.cpp`: the pattern and its actions |
| `CalculatorMain` | the same file: the program that reads lines and prints replies. `dst` is in a memory of its own in every round |
| `Readme` | the two patterns of `/repo/README.md` |
| `Guide` | patterns of `/repo/docs/guide/*.md`; the loop that reads a file (`ReadLoop`) |

How:

1. **Data sources.** `ContainerSeq` has explicit buffers, iterators (buffer identity and offset)
   and releases. Dereferencing a singular iterator or one into a released buffer, popping an
   empty stack or list: the outcome `none`, undefined behaviour, not a default value.
2. **Template instantiation** is the function `elabP` from patterns `Pat` to parser programs
   `Prog` (one constructor per parser class or adapter).
3. **Parser objects.** `PState` has one constructor per layout of data members. `mk` is the
   constructor, `body` one iteration of `consume`, both as terms of a small command language
   `Cmd` (data source operations, memory operations, calls of children). `exec` runs a command
   on any data source and any memory, as the C++ templates are parametric in them. `run` iterates,
   with fuel; running out of fuel is a separate outcome that is no behaviour of the code.
   `Evals`: ends with an outcome. `Diverges`: no amount of fuel is enough.
4. **Memory.** Destinations are references (object, path in nested tuples, type) into a memory of
   typed values. Buffers of `AtomicAdapter`, landings of actions and tuples of `Construct` are
   objects of that memory, default-initialised: scalars are indeterminate, and copying an
   indeterminate value is an error. Actions are arbitrary functions of all earlier calls, plus a
   log of calls.
5. **Errors** are distinct (`Err`): broken data source contract, signed overflow (of a value, of a counter), copy of an
   uninitialised scalar, unset `Recur`, dangling reference, program that does not compile, object
   in an impossible state.
6. **Users.** `Parses` is a call of `parse`; `MakeParserRun` a parser object driven by any list of
   `add_buffer` and `consume` calls.

### Simplifications

* Characters are integers. Conversions of characters: to `char` in digit parsers, and between `char` and
  `char32_t` on a call of `is_valid` (`CharSet.ofChar`, `ofWide`). In `Machine`, literals and symbol tables
  have the character type of the text; `TextTypes` reduces the other cases to that.
* Destination types are carried by references at run time instead of template arguments.
  Conversions: between arithmetic types (wrap around), from `Nil` to anything; any other mismatch
  of shape is the error `noCompile`. Floating point, `bool` and user conversions are left out.
  Collections are one type (vector, list, deque, string alike).
* `Construct` of a collection is `noCompile` (`std::tuple` of arguments to a vector constructor).
* In `Expr`, the value of built-in integer arithmetic is not kept, all character sets have the same
  character type, and a string literal minus an integer is undefined (true unless the integer is not
  positive). Everywhere else patterns are taken as built.
* In `Machine`, counters (`int`) of digits and repetitions are unbounded. `Counters` has their overflow, checked
  at the end of an iteration; C66 says when the two agree.
* In `Machine`, the call stack is unbounded. `Stack` counts nested calls of `consume()` and of
  destructors of parser objects, each as one (constructors nest no deeper than destructors); the frames of other
  functions are not counted. C68 says when the two agree.
* In `Time`, every iteration of a `consume()` counts as one. What it does apart from calls does not depend on the
  text; the work of actions and of assignments of the user's types is not counted.
* In `Machine`, `Seq` and `Alt` start at the stored child. The entry of their `consume` (child 0 on a
  non-resumable source, `visit_val` otherwise) is in `Dispatch`; C54 says the two agree.
* In parsers, `Recur` operands are looked up by number in an environment (`Env`). `Model/Recur` has the
  pools and handles behind it; that a `deque` does not move its elements is taken from the standard.
* `Lexeme`'s `dst_behavior` (ill-formed when used, `parsers/coroutine/unary/lexeme.h:45-47`) is
  modelled in `Factory` as evidently intended, so that C36, C50 and C58 say what such programs were meant
  to do. `Static` has what compiles; see C69.
* Memory allocation does not fail. In `Machine`, actions do not throw; `Throws` has those that do, and C74 says
  when the two agree. Parser objects that are used again after an exception are in `Retry`. Undefined arithmetic inside the actions of
  the calculator gives an unusable value; writing one over a usable one is undefined (`Val.overwrite`), so that such
  an action is undefined at once, even where its result is not used (`(1/0`).
* Moving a parser object (`child_parser_ = child_parser_t(...)`) moves its buffers. That such a move
  copies a scalar buffer which nothing has written yet (`*(',' >> int_)` into a vector) is, by the
  letter of the standard, undefined; it is not counted as an error.
* Objects of the memory are never reused, so a dangling reference is never mistaken for a new
  object.

### Not modelled

* `abulafia_all.h` (generated concatenation of the other headers; its copy of `LexemeImpl`, lines
  2600-2614, is older: it calls the constructor of `Context`, line 589, with two arguments instead of
  three, so `lexeme` does not compile with it), `parser.h`, `abulafia.h`, `config.h` (includes only).
* Of `type_traits.h` what is not mentioned above: replaced by its meaning (which types are tuples or
  collections).
* `context.h`: its three members are arguments of `mk`/`body` (bound destination, skipper inside
  the program) or the world (data source).
* `static_assert`s on destination types and on shapes of template arguments (`Model/Static.lean`
  lists them).
* Tests (`Check/RepoTests` runs them on the model) and build files.

## 2. Specifications

Modules under `lean/Verif/Spec`, independent of the machine:

* `Cursor`, `Session`: a plain cursor (text, position, saved positions) and histories of
  operations on it, for C01-C04.
* `Schedule`: ways to deliver a text, for C05, C25-C28.
* `Peg`, `Grammar`, `Recognition`: textbook parsing expression grammar over a complete text, no
  data source, no rollback point, for C15-C24, C36, C39.
* `Number`, `Decimal`: positional notation, for C10-C12, C41.
* `Apply`, `Alone`, `Answers`, `Memory`: one use of a parser in the middle of a parse; what it does
  to one object, to all others, for C30-C35, C44, C45.
* `Terminates`: loops that consume and left recursion, for C38. `Skipper`: for C37.
  `Spaced`, `UpTo`: the pattern one would write to skip by hand, for C36.
* `Filled`: initialised values and the patterns that surely write their destination, for C42.
* `Calculator`: arithmetic expressions, how they are written, their value, and which ones are met in a text, for C43. `CalculatorMain`: the lines of
  an input and the right reply to each, for C85. `CalculatorPrint`: how expressions are printed, for C86. `Readme`: lists
  of numbers in brackets and how they are written, for C46, C47. `Guide`: the texts of the guide's
  examples, for C49-C52, C57.
* `NilDst`: patterns that make no object of their own, for C48.
* `Reading`: how an expression is meant to be read, for C60.
* `Buffers`: a parser object after a number of user operations, and the patterns that are decided one
  character at a time, for C61.
* `WellFormed`: which patterns are meant to compile, for C53. `InSequence`: which patterns a sequence must not
  have, for C69.
* `Compatible`: values of types, and which types of destination suit a pattern, for C62.
* `Documented`: the destinations docs/reference.md calls compatible with a pattern, for C63.
* `Objects`: which actions a pattern has and what they heed, destinations apart, the operations on one of several
  parser objects, for C64.
* `Recur`: what a history of operations on `Recur` objects defines, and which operations are allowed when, for C55.
* `Counters`: repetitions whose counter is bounded, for C66. `Laws`: rewriting laws of grammars, for C67.
  `Points`: the number of rollback points and a gauge of it, for C70. `CharTypes`: conversions between character types, for C65 and C73.
  `Fresh`: values of objects nothing has been stored in, for C31 and C44. `Time`: the depth of loops, for C71.
  `Throws`: where a list of calls is cut short, for C74.
  `Marked`: recursive descent with one stack of saved positions, for C75.
  `Gives`: the values a grammar computes; `Tree`: binary trees and how they are written, for C76.
  `GivesSkip`: the same when characters are skipped; `Spread`: words with characters of a set between them; `SkipSet`: skippers that match one character of a set, for C77.
  `Copies`: a copy of a parser object does what a single one does, for C78.
  `Moves`: the uses of an object without the move, for C81. `Peek`: the patterns whose parsers can be asked, for C82.
  `Variants`: the types a type can hold, for C83. `ActionTraits`: the forms of functions that can be actions, for C84.
  `Retry`: actions called again at once until they do not throw, and the patterns for which that is what happens, for C79.
  `Scan`: what can be said of a text when more may follow (`more`, `no`, `yes`), which leaves wait for more, and when the outcome depends on how the text goes on, for C80. `OneChar`: patterns that one character decides, for C80.
* `Tidy`: a decidable criterion on patterns, see C15. It tracks for each part which stale rollback
  points it may leave behind: none, only such as lead back to where it started (harmless to a parser
  around it that started there too, so `(-a >> b) | c` and `*(-a >> b)` are tidy), or any. `Forget`: equality up to actions, for C29.
  `Inline`, `Build`: for C39 and C17.

Properties: `lean/Verif/Props`, apart from the lemmas in `lean/Verif/Proofs`. Next to each theorem
stands an `example` in which its hypotheses hold and something happens.

## 3. Trusted base

* The Lean 4.33 kernel (`vcheck` replays every module).
* Axioms: `propext`, `Classical.choice`, `Quot.sound`. No others, no `sorry`, `native_decide`,
  `bv_decide`. Per theorem of `MANIFEST.json`:
  * `propext` only: `C17_builder_flattens`, `C17_builder_flattens_alternatives`, `C17_grouping_irrelevant`, `C23_refuted_int`, `C23_refuted_optional`, `C24_refuted`, `C26_parse_is_never_partial`, `C33_covers`, `C34_applies_to`, `C60_refuted_minus`, `C69_refuted_bind_dst`, `C70_gauge_is_passive`, `C70_gauge_is_passive_in_parser_objects`, `C74_covers`, `C74_refuted`, `C75_stale_point`, `C78_one_end`, `C78_a_copy_cannot_be_fed`, `C78_a_copy_needs_the_original`, `C78_recur_cannot_be_copied`, `C78_others_can_be_copied`, `C79_covers_numbers_only`, `C81_after_partial_is_undefined`, `C81_after_partial_reached`, `C81_new_cannot_be_fed`, `C81_new_can_be_fed`, `C81_needs_the_original`, `C81_one_end`, `C82_no_peek_with_skipper`, `C82_refuted`, `C83_refuted`, `C84_exactly`, `C84_as_documented_partial`, `C84_refuted`, `C84_refuted_mutable`, `C84_refuted_noexcept`, `C84_auto_is_bound`, `C84_two_parameters`, `C84_arguments`
  * `propext`, `Quot.sound`: propext 39
  * all three: all others.
* The model corresponds to the C++ text by reading (section 1); nothing was compiled or run. As a
  check on the reading, `Check/RepoTests` runs the project's own tests (`/repo/tests`: patterns, README,
  character sets, data sources) on the model; all of them pass. Left out: tests of buffer ownership
  and commented-out tests.
* The semantics of C++ as far as section 1 states it.

## 4. Properties

Proved = for all inputs, states and executions, as stated. Partial = false of the code: a concrete
witness is proved (`_refuted`) and the statement is proved under hypotheses that exclude the defect
(`_partial`).

| Id | Status | Where and how |
|---|---|---|
| C01 | proved | `Props/DataSource`. Simulation `ContainerSeq.Sim` between buffers and cursor, induction over histories (`Proofs/ContainerSeq`). |
| C02 | proved | Same: an operation is undefined iff its contract is broken. |
| C03 | proved | Same: the held buffers are computed from the cursor. |
| C04 | proved | Induction over balanced histories, for both sources; a version relates any continuation after commit/cancel. |
| C05 | proved | `Props/Chunks`. The machine is parametric in the data source: simulation lemma `run_sim`. |
| C06 | proved | `Props/Chars`. Case analysis and induction over set expressions. |
| C07 | partial | Same. False for characters wider than `char` (narrowed first). |
| C08-C13 | proved | `Props/Leaf`; `Props/DefaultNumbers` for the default `uint_` and `int_`. Evaluation of the leaf machines over any text and any memory (`Proofs/Leaf`, `Number`, `Trie`); extended to all delivery schedules by C25. |
| C14 | partial | Same. False: the character is never consumed. |
| C15, C16, C18-C24 | partial | `Props/Grammar`. The machine with `Nil` destinations as an inductive relation (`Proofs/Ghost`), a class of programs that implement the grammar (`Impl`: sound; `Complete`: complete), membership for all `tidy` patterns (`Tidy`). `C15_plain_grammars_partial` is the corollary for plain patterns, whose criterion looks at nothing but the constructs used. False without `tidy`: section 5, items 1 and 3. |
| C17 | proved | `Props/Sequence`. For arbitrary patterns, not only tidy ones, by a framing argument (`Proofs/Frame`). |
| C25-C28 | proved | `Props/Chunks`. Resumption lemma for every shape of iteration (`Proofs/Shape`, `Resume`), then induction over schedules (`Session`). All patterns. |
| C29 | proved | `Props/Independence`. Erasure simulation (`Proofs/Erase`). |
| C30, C33 | partial | `Props/Memory`. Region and location invariants (`Proofs/Region`, `Location`, `NoTrace`). False for `!p`, which passes on the real destination. |
| C31 | partial | `Props/Collect`. Items parsed into buffers against the same items alone (`Proofs/Embed`, `Items`). |
| C32 | partial | `Props/Compose`. Slots of a tuple as separate destinations (`Proofs/Embed`, `Does`); conversely nothing else happens to them (`Proofs/InverseSeq`). False with actions that take an `ActionParam`. |
| C34 | proved | `Props/Compose` (`Proofs/Action`). |
| C35 | partial | `Props/Alternative`. False: alternatives are not atomic. |
| C36 | partial | `Props/Skip`. The class of programs under a skipper implements the grammar with skipping (`Proofs/Skipping`, `PegN`), which is the grammar of the pattern with skipping written out (`Spaced`). One skipper for the whole pattern. |
| C37 | partial | `Props/Skipper` (`Proofs/Static`, `Low`). |
| C38 | proved | `Props/Terminate`. Measure: remaining input, call depth without consumption, size (`Proofs/Halt`, `Terminates`). |
| C39 | partial | `Props/Sequence`. False for `apply_skipper`, `discard` and `lexeme` under `Recur`. |
| C40 | proved | `Props/Safety`. Rollback stack invariant (`Proofs/Rollback`). Destination errors, unset `Recur` and programs that do not compile remain. |
| C41 | proved | `Props/Collect`. From C31-style rules. |
| C42 | partial | `Props/Initialised`. Memory invariant carried through every factory (`Proofs/Filled`, `FilledRun`, `FilledTop`). False in general; proved for patterns whose scalar landings and scalar buffers are surely written (`Pat.careful`). |
| C43 | proved | `Props/Calculator`. Success: induction over the ways to write an expression, with the rest of a level as a continuation (`Proofs/Ends`, `Calculator`, `CalculatorRun`). Longest: a text without another operation has a reason not to (`CalculatorText`). Expressions without a value: the same induction with a missing value (`Dies`, `CalculatorUndefined`); any text: the same where nothing is found, and by induction over what is met (`CalculatorAll`). `C43_defined_iff`: the behaviour is defined exactly if every expression that is met has a value. |
| C44 | proved | `Props/Construct` (`Proofs/Construct`), as C34. |
| C45 | proved | `Props/Bound`. Location invariants of C30 without the restriction on actions (`Proofs/Bound`). |
| C46 | proved | `Props/Readme`. Success by induction over the list as written, failure by following the parser on an arbitrary text (`Proofs/Readme`, `ReadmeList`). Defined exactly if no number that does not fit `int` is met (`Proofs/ReadmeUndefined`). That a text starts with one list at most is shown from the specification alone (`Proofs/ReadmeUnique`) |
| C47 | proved | `Props/Readme` (`Proofs/ReadmeRect`), likewise for each alternative. `C47_defined_iff`: the behaviour is defined exactly if none of the first four numbers has a magnitude that does not fit `int` (`Proofs/ReadmeRectUndefined`). A fifth number is never read. |
| C48 | partial | `Props/NilDst`. No object: invariant over `body` (`Proofs/NilDst`). Same answer: erasure of destinations (C29) and back. Nothing written: C45. False for `as<...>()`: section 5, item 18. |
| C49 | proved | `Props/Guide` (`Proofs/Guide`). Induction over the pairs. |
| C50 | proved | `Props/Guide` (`Proofs/GuidePlayer`). The parser is followed on an arbitrary text cut into spaces and words; that the cut is a line is then a fact about texts. |
| C51 | proved | `Props/Guide` (`Proofs/GuideActions`). |
| C52 | proved | `Props/GuideNested`. The grammar reads nested lists (`Proofs/GuideNested`: mutual induction; every position has an outcome), C15 for plain grammars carries this over to the parser, C48 to `nil`. |
| C53 | proved | `Props/Static` (`Proofs/WellFormed`, induction over patterns). The specification (`Spec/WellFormed`) does not thread requirements. |
| C54 | proved | `Props/Dispatch` (`Proofs/Dispatch`): a model of `consume` with its entry (`Model/Dispatch`) agrees with the one used elsewhere. Invariants over `body`: children are called as constructed (one `consume`), or in a possible state (`Owns`, several). |
| C55 | proved | `Props/Recur` (`Proofs/Recur`, induction over histories; `Model/Recur`, `Spec/Recur`). |
| C56 | proved | `Props/GuideMore` (`Proofs/GuideMore`). |
| C57 | proved | `Props/GuideMore` (`Proofs/GuideMore`). Induction over the numbers. Defined exactly if all of them fit `int` |
| C58 | proved | `Props/GuideMore` (`Proofs/GuideMore`). Induction over the text the first name takes. |
| C59 | proved | `Props/GuideMore` (`Proofs/GuideLoop`). The loop is a delivery of the text (`loopOps`), then C25, C26. |
| C60 | partial | `Props/Expr` (`Proofs/Reading`). Induction over expressions: value, kind and reading agree; then C15. False for operators on string literals alone: section 5, item 20. |
| C61 | partial | `Props/Buffers` (`Proofs/Buffers`). Driving a parser object, simulated by the cursor with the buffers it was given; parsers of streaming patterns never create rollback points (induction over commands), those of tidy patterns close theirs (C24, carried over to resumed parsing by C25's lemmas); then C03. False with an optional part: section 5, item 21. |
| C62 | proved | `Props/Compatible` (`Proofs/Compatible`: memory operations keep values in their types; `CompatibleRun`: one iteration of every parser, by cases of a state invariant; `CompatibleTop`: elaboration keeps the typing, runs by induction on fuel, sessions). The errors left are excluded by C40 (rollback), C42 (uninitialised) and a hypothesis on number types; C38 makes it total. |
| C63 | partial | `Props/Documented` (`Proofs/Documented`: documented destinations are suitable ones, by induction over the rules; then C62). `as<...>()`, optional, `bind_dst` and `apply_skipper` have no entry in the reference and are left to C62. |
| C64 | proved | `Props/Objects` (`Proofs/Below`: references an object keeps stay inside the memory; `Embed`: moving a run to another memory; `Acting`, `Logs`: runs only depend on the calls their actions heed, and add only calls of their own; `Hosts`: one step of an object among others against the same step in a memory that has only its destination; `Objects`: an invariant with such a memory for every object, kept by every operation). |
| C65 | partial | `Props/CharTypes`: by induction over set expressions, from C06. Without the types, C06. |
| C66 | proved | `Props/Counters`: an invariant of all parser objects in a tree (`Counted`): a counter is at most the number of characters between the start of the object and the position, or below the bound of its repetition; rollback points keep positions in range. Without the hypotheses: `*pass`, `lim + 1` characters. |
| C67 | partial | `Props/Laws` (`Spec/Laws`: the laws, closed under context; `Proofs/Laws`: each law in the grammar semantics, then exchange of definitions by induction over derivations), then C15. False without `tidy`: section 5, item 1. |
| C68 | proved | `Props/Stack`: the invariant of C66 without counters, in which a call through `Recur` starts no earlier than its caller; a potential (well-founded descent of left calls, from C38) turns that into a depth. Without recursion: the height of the pattern. Destructors: objects are no taller than the room for calls plus the size of the largest class (`Proofs/StackDes`). Lower bound: `'(' item ')'` on opening parentheses; `x := x` overflows every stack. |
| C69 | partial | `Props/InSequence` (`Spec/InSequence`: occurrences, whose value a pattern's value is). Exactly the patterns without a lexeme or a `bind_dst` of something valueless in a position where a sequence asks for its value compile. |
| C70 | partial | `Props/Points` (`Spec/Points`: a data source with a gauge). Invariant: the rollback points of a parser are those its program accounts for at its state (`PointsHeld`), by induction on the depth of the call stack of C68; the bound is the depth times the size of the largest program. A finished part may leave one rollback point per optional in it (`Prog.stale`); outside loops this changes the bounds by a constant only. With optionals in repetitions, lists, skippers or used through `Recur` the claim is in general false; `Props/PointsTime` bounds the number by a constant times the number of iterations of C71 (one iteration creates at most as many rollback points as the classes it constructs hold), so by a polynomial in the length of the text without `Recur`. Missing: whether that bound can be improved for degrees above one, and with `Recur`, where only an exponential bound is proved. |
| C71 | partial | `Props/Time` (`Spec/Time`: depth of loops, a parse in `k` iterations). A big-step semantics of the ghost machine with a count (`Proofs/TimeBig`); polynomial bound by structural induction (`TimePoly`), linear bound for streaming patterns by charging every iteration to the character it passes (`TimeLinear`); carried over to the data source and the memory by the simulations of C05 and C29. Lower bounds: `*(+'a' >> 'b' | 'a')` takes more than the square. Parser objects (`TimeResume`): a suspended run and its continuation take as long as the run on the longer text, plus one iteration for every parser that is suspended. There are no more of these than calls on the stack (C68): without `Recur` a constant, with it at most linear in the text (`C71_resuming_with_recursion`), and that is reached (`C71_resuming_grows`). Missing: `Recur`, for which the claim is false; there the bound is exponential (`TimeExp`: the number of parsers that can be active at once is at most linear in the text, C68, and each of them makes boundedly many calls per character). |
| C72 | partial | `Props/SinglePass`. `SinglePass` counts increments; an iterator is the number of increments that led to it, and any use of one that is behind is undefined. Simulation against `SingleForward` by induction on commands and fuel, with undefined behaviour allowed on one side (`OnceRel`); without it when no rollback point is ever made. Missing: patterns with rollback points, for which the claim is false. |
| C73 | partial | `Props/TextTypes`. A table of another type is replaced by the table of the characters that are converted to its keys (`Node.on`); looking up in it is looking up the converted character (`find_on`), so the longest match is that of the converted text; then as C13, C14, C09. Missing: texts with other than ASCII characters, for which the claim is false. |
| C74 | partial | `Props/Throws`. A machine with a third outcome, `thrown`; by induction on commands and fuel it agrees with `run` up to the first call that throws (`ThrowRel`), as the history of calls only grows. The destination: by the invariants of C30 and C33, as a parser that writes only on success calls no action after it has written (`Neat`). Missing: other patterns, for which the claim is false. |
| C75 | proved | `Props/Marked`. The specification `Marked` (Spec/Marked) is recursive descent with a stack of saved positions. The ghost machine, which has only the text, the position and the stack, is put in big-step form (`Big`, as for C15); each state of a parser performs a task of the specification (`Cf`), and by induction in both directions so do its executions (`big_marked`, `marked_big`). Saved positions made when a parser is constructed are counted by `Pat.saves` (`marks_elab`). Destinations come back by erasure (`Proofs/Erase`), delivery by C25. |
| C76 | partial | `Props/Gives`. The specification `Gives` (Spec/Gives) gives values to texts pattern by pattern; it is related to the parser by one mutual induction over its derivations (`Proofs/GivesRun`), each rule by the theorem about that pattern (C08-C11, C30-C33, C35, C19) or by rules of `Proofs/Gives` for the rest. Uniqueness follows because a parse has one outcome. `C76_trees_round_trip` is the description applied to a recursive grammar with `as<...>()`, by induction over the tree. Partial: see the manifest. |
| C77 | partial | `Props/GivesSkip`. The specification `GivesSk` (Spec/GivesSkip) is `Gives` with the set of characters dropped before tokens, and `Gives` itself inside them. Since the skip adapters stand around every parser that is not the direct child of a `Recur`, a part may begin anywhere among skipped characters; the proof (`Proofs/GivesSkipBase`, `-Rules`, `-Lists`, `-Run`) carries, for every requirement the factories pass down, that the place where a parser is constructed, the one where it is started and the one in the specification agree up to skipped characters. About the skipper only this is used (`Proofs/SkipSet`, `Eater`): it is constructed in the same state everywhere without a rollback point, and takes one character of the set or fails in place. Partial: see the manifest. |
| C78 | partial | `Props/Copies`. False as stated. The two restrictions hold for every program by an invariant of the objects (`CopyInv`: all contexts refer to the data source of object 0, and only its iterators are its own). That a copy goes on is shown by moving its buffers (`Proofs/Embed`): a parser object whose buffers are elsewhere does the same (`session_copied`); the same for the original, whose later buffers are. |
| C79 | partial | `Props/Retry`. False as stated. A machine that keeps all parser objects when an exception passes (`runR`), driven by a user who calls `consume` again, is compared with one whose actions are called again in place (`persisting`): the same by induction on fuel, since every object above the action asks the same child again (`RShape`) and the operand of the action answers as before and changes nothing (`settles_idle`). That `Pat.retriable` patterns have such objects is by induction on patterns, with the requirements that put adapters around operands. With actions that look only at their value, `persisting` is compared with `run` (`RepMem`: same objects, repeated calls). |
| C80 | partial | `Props/Waiting`. False in general. For leaf patterns: `Proofs/Waiting` says which states an object can be in after reading a text, and that one iteration leads from such a state to such a state, to `PARTIAL` with the condition met, or to an answer with the condition not met on any continuation; lifted over fuel and over the operations of the user. For symbols the tree has no node without a key below it. For tidy patterns without skipper: `Spec/Scan` is the grammar semantics with a third answer, `more`, at leaves that wait; `Proofs/Scan` runs the machine on text that is not complete (`BigN`), shows that it answers `PARTIAL` exactly where `Scan` says `more`, by induction on `Scan` and using `Proofs/Impl` for every part that has answered, and takes several calls of `consume` to one by `Proofs/Resume`; every pattern with an outcome on the text has an answer (`Peg.scan`). That no answer comes too early is C28 with the grammar semantics of C15; for leaves the text that waits is continued in two ways with different outcomes (`Proofs/Undecided`). Under a skipper: `Proofs/ScanSkip` is `Proofs/Scan` with the skip adapters of `Proofs/Impl`; an adapter waits exactly if skipping gets to the end of the text, which is known of skippers that one character decides (`Spec/OneChar`, `Proofs/OneChar`; others, like `"abc" | 'a'` at `ab`, wait earlier). What is said is said of the pattern with the skipping written out, as in C36. Missing: other skippers, symbols of one character inside other patterns. |
| C81 | partial | `Props/Moves`. False as stated. A data source that was moved from is compared with the one before the move (`HollowRel`): every command does the same, or is undefined. It never returns `PARTIAL`, as that needs `empty()`: the comparison holds also with a data source that is not empty, where `starved` excludes it. After `PARTIAL`, the first thing that `consume` does is to look at the data source (`run_partial_looks`, by the cases of `shape`), so that every `consume` of an object moved then is undefined. |
| C82 | partial | `Props/Peek` (`Model/Peek`, `Proofs/Peek`). Induction over the parser classes that have `peek`; for later text, on the cursor. Missing: the same answer at once for optional parts, for which it is false. |
| C83 | partial | `Props/Variants` (`Proofs/Variants`): by cases of the specialisations. Missing: two variants, for which it does not compile. |
| C84 | partial | `Props/ActionTraits` (`Proofs/ActionTraits`): the list of all forms that compile (`ActFn.Form`), by cases on the parameters. False for references, `mutable` and `noexcept`. `C84_every_action` connects it with the actions of the other properties. |
| C85 | partial | `Props/CalculatorMain`, from C43 by induction over the lines. False as stated, see 38. The program ends on every input, and has one outcome; it is defined exactly if every expression met in the lines has a value |
| C86 | proved | `Props/CalculatorPrint`: every expression has a text, printed with parentheses only where needed, that is evaluated to its value, from C43 and C85; it is the shortest way to write it, and different expressions have different texts |
| C87 | partial | `Props/ReadmePrint`, from C46 and C47. False of the least `int` (`C87_refuted`); whatever stands beside it in the list, the behaviour is undefined (`C87_least`, `C87_least_rectangle`). `C87_injective`: different lists have different texts |

Not expressible: none so far.

## 5. Where code and claims disagree

Each with the theorem that exhibits it.

1. `Optional` prepares a rollback point in its constructor and closes it only on failure
   (`parsers/coroutine/unary/optional.h:44-62`). After a success a parser around it takes the stale
   point for its own: C15_refuted, C16_refuted, C18_refuted_position, C19_refuted, C20_refuted,
   C21_refuted, C22_refuted, C23_refuted_optional, C24_refuted. It does no harm where the optional
   part comes first in what has to be undone (`exStart` in `Props/Grammar`).
2. `CharSymbol` does not call `advance()` (`leaf/char_symbol.h:28-41`): C14_refuted;
   `*symbol(charmap)` never ends.
3. `Int<B,MIN,1>` claims to fail cleanly (`leaf/numeric/int.h:95`) but consumes the sign:
   C23_refuted_int.
4. `Skip` is the outermost adapter: a parser that fails cleanly by itself does not give skipped
   text back; a trailing skip is visible in the consumed length: C36_trailing_skipped.
5. `Alternative` does not require its children to be atomic: C35_refuted. Number parsers zero the
   destination when constructed: C35_refuted_number.
6. `Not` passes on the real destination (`unary/not.h`): C30_refuted, C33_refuted.
7. The most negative `int` cannot be parsed without signed overflow: C12_most_negative.
8. Repetitions of operands that succeed without consuming never end (C38_hypothesis_on_repetitions);
   optional, eoi, `!p`, lists, sequences and charmap symbols pass the static check of skippers
   though they may not consume: C37_refuted and variants.
9. `Recur` children get no adapters and other requirements, which is visible with
   `apply_skipper`, `discard` and `lexeme`: C39_refuted.
10. A symbol table with an empty key never matches the empty text (C13 is about non-empty keys).
11. `DigitValues` narrows wide characters to `char`: C07_refuted.
12. A skipper whose parser needs a `CleanFailure` adapter (any literal of more than one character,
    the usual comment skipper) leaves its rollback point on the stack while the skipped parser runs:
    C36_refuted, C36_refuted_comment. A `lexeme` starting with an optional fails after skipped text:
    C36_refuted_lexeme.
13. An action (or an `Atomic` buffer) with a scalar landing that the operand never wrote copies an
    indeterminate value (`lit('a')[f]` with `f(int)`): C42_refuted, C42_refuted_buffer,
    C42_refuted_optional.
14. `repeat<MIN,MAX>` with `MIN > MAX > 0` compiles: C18_refuted_bounds.
15. Actions with an `ActionParam` can write any part of the bound destination: C32_refuted.
16. An item of a repetition is parsed into a fresh buffer, which hides traces of failed
    alternatives that the item alone would leave: C31_refuted.
17. `construct<...>` into a collection does not compile.
18. "All patterns accept nil" (`/repo/docs/guide/02_parsers.md:52`, `support/nil.h`): `as<T, U>()` with
    `nil` does not compile, `Nil` has no constructor with two arguments: C48_refuted.
19. Code of the guide that does not match the library (read as evidently meant):
    `02_parsers.md:24` lacks a parenthesis (C56); `ignore` is called `discard`; `04_resumable_parsers.md:35`
    uses `context` and `data` for `parser` and `buffer` (C59); `06_recursivity.md` and `reference.md` declare
    a `Recur` without a pool and spell the macro `ABU_Recur_Define` (C55). `lit("0x") | lit("0X")` counts
    as a value of the sequence around it (`nary/alternative.h:115`), so `char_() >> prefixed_hex<1,0>()` does
    not compile with a `std::tuple<char, unsigned>`: C56_prefix_takes_a_slot.
20. `*"ab" >> p`, `+"ab" >> p` and `"ab" - 'c' >> p` compile, with the built-in operators of pointers:
    they mean `'a' >> p`, `"ab" >> p` and nothing defined: C60_refuted, C60_refuted_plus,
    C60_refuted_minus. (The same slips with characters do not compile.)
21. "will let go of it as soon as it can prove it won't need it again" (docs/guide/04): an optional
    part that is present leaves its rollback point behind (item 1), and from
    then on no buffer is ever released: `-char_('a') >> *char_('b')` holds all `n + 1` buffers of an
    input of any length, though everything in them has been read: C61_refuted, C61_refuted_verdict.
22. `docs/reference.md`, compatible destinations: `uint_ >> *(',' >> uint_)` into a `vector<unsigned>` does
    not compile, as numbers are computed in place (C63_refuted_vector); a single value that is a tuple goes to
    the first part of the tuple (C63_refuted_single); classes need `as<...>()` (C63_refuted_class); a symbol
    or action with a collection as value does not compile, as collections are appended to
    (C63_refuted_symbol); an alternative of patterns without value counts as a value
    (C63_refuted_alternative).
23. Sets of `char` on a text of `char32_t` see characters without their upper bits, single characters
    excepted: `char_('a', 'z')` takes U+0161, `~single('a')` does not: C65_refuted, C65_refuted_not. `set(b, e)` of
    another type than `char` does not compile when used (`char_set/set.h:30`, a template parameter that
    cannot be deduced).
24. `lexeme(p)` does not compile in a sequence, not even in the example of `docs/guide/03_skippers.md`, since
    its `dst_behavior()` is ill-formed (`unary/lexeme.h:46`); nor does `bind_dst(p)` if `p` has no value:
    C69_refuted, C69_refuted_bind_dst.
25. `-p` leaves its rollback point behind when `p` is present (`unary/optional.h:51-53`), so `-p % ','` has as
    many rollback points as there were items, and they are still there after the verdict: C70_refuted.
26. A pattern with `Recur` may take exponential time: `x := '(' >> x >> ')' | '(' >> x >> ']' | 'a'` reads the
    inner `x` again for every alternative (`nary/alternative.h`: no memory of earlier attempts): C71_refuted. Nor
    is resuming a constant: after `k` opening parentheses every `consume` goes through all the `k`
    suspended parsers again (`recur.h:40-46`): C71_resuming_grows.
27. `parse` takes any iterators, but goes back with copies of earlier ones, which input iterators do not allow
    (`single_forward.h:42-48`; nothing asks for forward iterators): C72_refuted, C72_refuted_skipper.
28. A symbol table with `char` keys takes other characters of a `char32_t` text for its keys (U+0161 for `a`), since
    `find` converts the character to the key type (`leaf/string_symbol.h:51`, `leaf/char_symbol.h:34`): C73_refuted,
    C73_refuted_char_symbol.
29. An exception from an action leaves in the destination what has been added to it so far: `*(char_[act])` on
    "abxc" with an action that throws at `x` leaves "ab" (`C74_refuted`).
30. A parser object can be copied, but the copy reads from the data source of the original, cannot be given text, and
    must not outlive the original (`context.h:43`, `container_sequence.h:37-45`): C78_refuted, C78_a_copy_cannot_be_fed,
    C78_a_copy_needs_the_original. A copy also misses what the original reads after the copy was made:
    C78_refuted_in_turns.
31. After an exception from an action, calling `consume()` of the same object again asks the operand of the action again
    (`unary/action.h:182-189`): `char_[act]` on "xy" gives `x`, then `y`; `int_[act]` on "-5" gives -5, then 5;
    `(-lit("ab"))[act]` and `*(lit("ab")[act])` use up a rollback point twice, which is undefined; a string has been
    moved away: C79_refuted, C79_refuted_sign, C79_refuted_rollback, C79_refuted_repeat, C79_refuted_limit (a
    repetition with a largest number of items forgets the limit), C79_refuted_moved, C79_refuted_moved_object.
32. `PARTIAL` is documented as "the parser needs more data" (docs/guide/04_resumable_parsers.md:52), but is returned also
    when no further text can change the result: C80_refuted, C80_refuted_empty_set.
33. A parser object has an implicit move constructor, but the moved object's context refers to the data source of the old
    object, whose iterators belong to another list from then on: C81_refuted, C81_reading_is_undefined.
    By the standard, comparing them is undefined, and `end()` need not stay valid when a list is moved. libstdc++
    keeps `end()`, so that there an object that was moved while it had no text can go on as long as the old one exists.
34. `peek()` of an optional part says `SUCCESS` without looking (`unary/optional.h:64`), also when `consume()` returns
    `PARTIAL`: C82_refuted.
35. `variant_cat` of two variants is ambiguous, as both partial specialisations match
    (`support/variant_utils.h:33-47`): C83_refuted. Nothing in the library uses it.
36. docs/guide/08_working_with_structs.md:25 calls `abu::decode`, which no header defines.
37. docs/guide/05_actions.md says that an action is a functor that may take a parameter, whose type has to be
    default-constructible. A parameter by reference (`std::string const&`) does not compile, as the member
    `landing` would be a reference (`unary/action.h:169-180`); neither does a `mutable` lambda
    (`unary/action.h:104`) or a `noexcept` one, for which there is no specialisation
    (`support/function_traits.h:22`, `36`): C84_refuted, C84_refuted_mutable, C84_refuted_noexcept. A single
    `auto` parameter is given the bound destination instead of the value: C84_auto_is_bound.
38. The example program (main.cpp:71-77) looks at the status of `parse` only, and the pattern does not ask for
    the end of the line: for `1 +(`, which is no expression, it prints 1 (`C85_refuted`).
39. A list of `int`s that contains the least one can be written, but reading it back with the parsers of the README
    is undefined, as the digits are put together before the sign is applied (`leaf/numeric/int.h`): C87_refuted.

## 6. Wrong programs

`seeded/LOG.jsonl`: for each attempt the definition edited in a scratch copy, the edit, the claim it
breaks, the theorems that stopped proving and the theorems tightened as a result.

How `theorems_failed` is measured: `broken_proofs` are the proofs that no longer go through in the edited
copy. Their statements are then assumed, the rest is built, and `properties_lost` are the property
theorems whose proofs use one of them, directly or indirectly. This overcounts. A property in that
list has lost its proof; it has not been shown to be false of the edited model, and a proof may
break because of its wording only. `retry_void_action_assigns` is such a case: the edit provably
changes nothing, and three properties are listed all the same. What the log supports is that an edit
did not go unnoticed. Where a property was shown to be false of the edited model, as for
`time_one_iteration`, the entry says so in its note.

Entries whose `id` begins with `auto_` come from a run that changed one token of a definition at a time
(a comparison, a number, a flag, a result, a destination), for definitions in `Verif/Model`. The build of
such a copy was stopped at the first proof that broke, which is all these entries give; they have no
claim of their own, and say even less than the others about which property is false. Edits that survived were
looked at one by one, and run again on the whole project where they might matter (`auto2_`). Some were
judged to change nothing at first and did change something: `auto2_Pattern:33:12` led to C80,
`auto2_Machine:295` to C79_refuted_limit.
