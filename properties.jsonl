{"id": "C01", "title": "A buffer sequence reads like one contiguous stream", "statement": "For every legal history of add_buffer / next / advance / prepare_rollback / commit_rollback / cancel_rollback calls on ContainerSequenceDataSource, the answers of empty(), final_buffer() and next() are exactly those of a plain cursor (absolute position + LIFO list of saved positions) over the concatenation of all the buffers added so far, however that text was cut into buffers (empty buffers included).", "quantifier": "every sequence of data source operations of any length, every content and number of buffers", "why_tests_cant": "The set of interleavings of buffer arrivals with rollback operations is infinite; a test only tries a few cuts and a few rollback nestings.", "anchors": ["include/abulafia/data_source/container_sequence.h: ContainerSequenceDataSource::{add_buffer,next,advance,empty,prepare_rollback,commit_rollback,cancel_rollback,cleanup_rollback_}"]}
{"id": "C02", "title": "The buffer sequence never touches a released buffer", "statement": "In every legal history ContainerSequenceDataSource never dereferences or increments an iterator into a buffer it has already released, never uses a singular iterator, and never pops an empty buffer list: no operation whose documented precondition holds has undefined behaviour.", "quantifier": "every sequence of data source operations respecting the asserted preconditions", "why_tests_cant": "Use-after-free only shows on particular interleavings of releases and rollbacks, and undefined behaviour may pass unnoticed in a test run.", "anchors": ["include/abulafia/data_source/container_sequence.h: advance, cleanup_rollback_, commit_rollback"]}
{"id": "C03", "title": "Buffers are released exactly when they can no longer be needed", "statement": "At every moment the buffers still held by ContainerSequenceDataSource are exactly the non-empty buffers from the one containing the oldest live rollback point (or the current position when there is no rollback point) to the last one added: nothing needed is dropped and nothing unneeded is kept.", "quantifier": "every reachable state of the data source", "why_tests_cant": "Retention depends on the whole history of prepare/commit/cancel; tests observe only the parsed text, not the retained memory.", "anchors": ["include/abulafia/data_source/container_sequence.h: advance (pop_front condition), cleanup_rollback_, add_buffer"]}
{"id": "C04", "title": "Rollback is last-in first-out and exact", "statement": "A commit_rollback returns the data source to exactly the position it had at the matching prepare_rollback, and a cancel_rollback leaves the position alone, whatever balanced sequence of operations (including arrival of new buffers, and prepare while no data was available) happened in between; in both cases the remaining rollback points are those that existed before the matching prepare.", "quantifier": "every balanced sequence of operations between a prepare and its commit/cancel, on both data sources", "why_tests_cant": "Nested rollbacks crossing buffer boundaries at arbitrary depth cannot be enumerated.", "anchors": ["include/abulafia/data_source/container_sequence.h: prepare_rollback/commit_rollback/cancel_rollback/add_buffer (empty_rollbacks_)", "include/abulafia/data_source/single_forward.h: prepare_rollback/commit_rollback/cancel_rollback"]}
{"id": "C05", "title": "parse() over an iterator range and a parser fed with buffers agree", "statement": "For every pattern and every text, parse() over an iterator pair and a make_parser() object that receives the same text as one FINAL buffer give the same Result, the same destination value, the same sequence of action calls, and have consumed the same number of characters.", "quantifier": "every pattern, destination and input text", "why_tests_cant": "Two independently written data sources must agree on all patterns and all inputs.", "anchors": ["include/abulafia/operations/parse.h: parse", "include/abulafia/operations/make_parser.h: ParserInterface", "include/abulafia/data_source/single_forward.h: SingleForwardDataSource", "include/abulafia/data_source/container_sequence.h: ContainerSequenceDataSource"]}
{"id": "C06", "title": "Character sets denote the documented sets", "statement": "any accepts every character; single(c) exactly c; range(a,b) exactly a..b inclusive; set(s) exactly the characters of s, for every char value including negative ones; ~s exactly the characters s rejects; a|b exactly those accepted by a or b, for every nesting of these operators.", "quantifier": "every character set expression and every character", "why_tests_cant": "Character set expressions nest arbitrarily and bitset indexing of negative chars is a classic boundary error.", "anchors": ["include/abulafia/char_set/any.h: Any", "include/abulafia/char_set/single.h: Single", "include/abulafia/char_set/range.h: Range", "include/abulafia/char_set/set.h: IndexedSet", "include/abulafia/char_set/not.h: Not", "include/abulafia/char_set/or.h: Or"]}
{"id": "C07", "title": "Digits of base 2..35 are recognised and valued correctly", "statement": "For every supported base B, a character is accepted as a digit iff it is one of the first B symbols of 0-9a-z (letters in either case), and its value is the rank of that symbol, always in [0,B).", "quantifier": "all bases 2..35 and all characters", "why_tests_cant": "Boundary mistakes appear only for particular bases and characters.", "anchors": ["include/abulafia/parsers/helpers/digit_values.h: DigitValues"]}
{"id": "C08", "title": "A character pattern consumes one accepted character or nothing", "statement": "char_(set) succeeds iff the next character belongs to the set, then consumes exactly that character and writes exactly it to the destination; otherwise it fails with input position and destination unchanged, also at the end of a finished input.", "quantifier": "every character set, input and position", "why_tests_cant": "Must hold for each set, each character and the end-of-input boundary.", "anchors": ["include/abulafia/parsers/coroutine/leaf/character.h: CharImpl::consume"]}
{"id": "C09", "title": "A literal matches exactly its text", "statement": "lit(\"s\") succeeds iff the input continues with s, consuming exactly |s| characters, and never writes to the destination, wherever buffer boundaries fall inside s.", "quantifier": "every literal, input, position and cut of the input into buffers", "why_tests_cant": "All literals, inputs and cuts cannot be enumerated.", "anchors": ["include/abulafia/parsers/coroutine/leaf/string_literal.h: StringLiteralImpl::consume"]}
{"id": "C10", "title": "uint_ is greedy, respects its digit limits and computes the positional value", "statement": "UInt<B,MIN,MAX> consumes the longest run of base-B digits not exceeding MAX (unlimited when MAX=0), succeeds iff at least MIN digits were consumed, and then the destination holds the positional base-B value of these digits.", "quantifier": "every base, MIN, MAX and input of any length", "why_tests_cant": "Digit runs are unbounded; value arithmetic must be right for all of them.", "anchors": ["include/abulafia/parsers/coroutine/leaf/numeric/uint.h: UIntImpl::consume", "include/abulafia/patterns/leaf/numeric/uint.h: UInt"]}
{"id": "C11", "title": "int_ accepts one optional sign and computes the signed value", "statement": "Int<B,MIN,MAX> accepts at most one leading '+' or '-', then behaves like UInt on the digits; on success the destination holds the value, negated iff the sign was '-'.", "quantifier": "every base, MIN, MAX and input of any length", "why_tests_cant": "Sign handling interacts with digit limits and resumption for unboundedly many inputs.", "anchors": ["include/abulafia/parsers/coroutine/leaf/numeric/int.h: IntImpl::consume"]}
{"id": "C12", "title": "Fixed-width numeric destinations: what happens beyond the range", "statement": "With an unsigned w-bit destination uint_ yields the value modulo 2^w; with a signed w-bit destination (w>=32) int_ yields the exact value and has no undefined behaviour whenever the magnitude fits in the positive range, and has undefined behaviour otherwise (in particular for the most negative value).", "quantifier": "every width and every digit string", "why_tests_cant": "Overflow needs all digit strings around unbounded thresholds; undefined behaviour is not testable.", "anchors": ["include/abulafia/parsers/coroutine/leaf/numeric/int.h: `dst.get() *= ...; dst.get() += ...; dst.get() *= -1`", "include/abulafia/parsers/coroutine/leaf/numeric/uint.h: UIntImpl"]}
{"id": "C13", "title": "symbol(map) takes the longest key that is a prefix of the input", "statement": "For every map of non-empty strings, symbol(map) succeeds iff some key is a prefix of the remaining input; it then consumes exactly the longest such key and writes the value stored under that key; wherever buffer boundaries fall.", "quantifier": "every map, every input, every position", "why_tests_cant": "Tries with nested prefixes and dead ends of any depth cannot be enumerated.", "anchors": ["include/abulafia/parsers/coroutine/leaf/string_symbol.h: SymbolImpl::consume", "include/abulafia/patterns/leaf/string_symbol.h: Symbol::Symbol (trie construction)"]}
{"id": "C14", "title": "symbol(map of characters) consumes the character it matches", "statement": "symbol(map<char,V>) succeeds iff the next character is a key, consumes that character and writes the stored value.", "quantifier": "every map and input", "why_tests_cant": "Holds or fails per map and input; a test that only looks at the written value misses the position.", "anchors": ["include/abulafia/parsers/coroutine/leaf/char_symbol.h: CharSymbolImpl::consume"]}
{"id": "C15", "title": "parse() implements the PEG semantics of the pattern", "statement": "For every pattern built from the library's combinators the verdict of parse() and the number of characters consumed are those given by the textbook PEG (recursive descent with ordered choice, greedy repetition and lookahead) reading of the pattern.", "quantifier": "every pattern (any nesting and recursion), every input", "why_tests_cant": "Patterns and inputs form an infinite, recursively generated space.", "anchors": ["include/abulafia/operations/parse.h: parse", "include/abulafia/parsers/coroutine/parser_factory.h: AdaptedParserFactory", "include/abulafia/parsers/coroutine/**"]}
{"id": "C16", "title": "Alternatives are tried in order and each starts from the same place", "statement": "a | b | ... behaves as its first child that does not fail; every alternative is attempted from the position where the first one was attempted, whatever the earlier alternatives consumed before failing.", "quantifier": "every list of alternatives and every input", "why_tests_cant": "Requires restoring the input after arbitrary partial matches of arbitrary sub-patterns.", "anchors": ["include/abulafia/parsers/coroutine/nary/alternative.h: AltImpl", "include/abulafia/parsers/coroutine/adapters/clean_failure.h: CleanFailureAdapter, CleanFailureFactoryAdapter"]}
{"id": "C17", "title": "Sequence runs its children in order; >> is associative", "statement": "a >> b >> c succeeds iff each child succeeds from where the previous one stopped; grouping with parentheses does not change verdict or consumption, and the builder flattens any mix of nested groupings into the same n-ary pattern.", "quantifier": "every tree of >> (and |) applications, every input", "why_tests_cant": "All parenthesisations of all patterns.", "anchors": ["include/abulafia/patterns/nary/nary_pattern.h: NaryPatternBuilder", "include/abulafia/parsers/coroutine/nary/sequence.h: SeqImpl"]}
{"id": "C18", "title": "Repetition is greedy and respects its bounds", "statement": "repeat<MIN,MAX>(p) applies p as often as possible but at most MAX times (MAX=0: no limit), succeeds iff p matched at least MIN times, and stops right after the last successful match of p.", "quantifier": "every MIN, MAX, p and input", "why_tests_cant": "Counts and inputs are unbounded.", "anchors": ["include/abulafia/parsers/coroutine/unary/repeat.h: RepeatImpl::consume"]}
{"id": "C19", "title": "A list matches zero or more items and never swallows a trailing separator", "statement": "op % sep always succeeds; it consumes a maximal alternation op (sep op)* and stops right after the last successful op, giving back a separator that is not followed by an op.", "quantifier": "every op, sep and input", "why_tests_cant": "List lengths are unbounded and giving back input is invisible to tests that do not look at positions.", "anchors": ["include/abulafia/parsers/coroutine/binary/list.h: ListImpl::consume"]}
{"id": "C20", "title": "Lookahead never consumes", "statement": "!p succeeds iff p fails from the current position and fails iff p succeeds; in both cases the input position is unchanged.", "quantifier": "every p and input", "why_tests_cant": "p can consume arbitrarily much before deciding.", "anchors": ["include/abulafia/parsers/coroutine/unary/not.h: NotImpl::consume"]}
{"id": "C21", "title": "Exception patterns", "statement": "a - b fails where b matches, and behaves exactly as a from the same position where b does not match.", "quantifier": "every a, b and input", "why_tests_cant": "b can consume arbitrarily much before failing.", "anchors": ["include/abulafia/parsers/coroutine/binary/except.h: ExceptImpl::consume"]}
{"id": "C22", "title": "An optional part is transparent to the rest of the grammar", "statement": "-p always succeeds, consuming what p consumes when p matches and nothing otherwise, and it has no influence on how the surrounding patterns backtrack.", "quantifier": "every p, surrounding pattern and input", "why_tests_cant": "The effect on backtracking shows only for particular surrounding patterns and inputs.", "anchors": ["include/abulafia/parsers/coroutine/unary/optional.h: OptImpl::consume"]}
{"id": "C23", "title": "Failure restores the input where it matters", "statement": "Whenever the library asks a sub-parser to fail cleanly (alternatives, repetitions, exceptions), a failure of that sub-parser leaves the input exactly where the sub-parser started.", "quantifier": "every pattern and input", "why_tests_cant": "Requires all sub-patterns and all ways of failing half-way.", "anchors": ["include/abulafia/parsers/coroutine/parser_factory.h: AdaptedParserFactory::create", "include/abulafia/parsers/coroutine/adapters/clean_failure.h: CleanFailureAdapter, CleanFailureFactoryAdapter", "FAILS_CLEANLY flags of every parser factory"]}
{"id": "C24", "title": "No rollback point outlives the parser that created it", "statement": "When a parser finishes (success or failure) the data source holds exactly the rollback points that existed before that parser was constructed; so no rollback underflows and input buffers are not retained for ever.", "quantifier": "every pattern and input", "why_tests_cant": "Balance has to hold on every control path of every combination of patterns.", "anchors": ["include/abulafia/parsers/coroutine/unary/optional.h: OptImpl", "include/abulafia/parsers/coroutine/unary/not.h: NotImpl", "include/abulafia/parsers/coroutine/binary/list.h: ListImpl", "include/abulafia/parsers/coroutine/leaf/string_symbol.h: SymbolImpl", "include/abulafia/parsers/coroutine/adapters/clean_failure.h: CleanFailureAdapter, CleanFailureFactoryAdapter"]}
{"id": "C25", "title": "Results do not depend on how the input is delivered", "statement": "For every pattern, feeding a text to a make_parser() object in any number of buffers cut anywhere (empty ones included), calling consume() any number of times in between, ends with the same Result, destination, action calls and consumed length as giving the whole text at once; and it terminates iff the one-shot parse terminates.", "quantifier": "every pattern, text and every delivery schedule", "why_tests_cant": "The number of cuts is exponential in the text and every parser must resume correctly at every point.", "anchors": ["include/abulafia/operations/make_parser.h: ParserInterface::consume", "every consume() in include/abulafia/parsers/coroutine"]}
{"id": "C26", "title": "A finished input always gives a verdict", "statement": "Once the FINAL buffer was added, consume() returns SUCCESS or FAILURE, never PARTIAL; parse() never returns PARTIAL.", "quantifier": "every pattern, text and schedule", "why_tests_cant": "Every parser at every suspended state must respect it.", "anchors": ["include/abulafia/operations/make_parser.h: ParserInterface", "include/abulafia/operations/parse.h: parse", "every PARTIAL_RESULT return in include/abulafia/parsers/coroutine"]}
{"id": "C27", "title": "PARTIAL is returned only when more data is really needed", "statement": "consume() returns PARTIAL only if all the data supplied so far has been read and the input has not been declared finished.", "quantifier": "every pattern, text and schedule", "why_tests_cant": "Must hold for all suspended states of all patterns.", "anchors": ["every PARTIAL_RESULT return in include/abulafia/parsers/coroutine"]}
{"id": "C28", "title": "An early verdict is definitive", "statement": "If consume() returns SUCCESS or FAILURE before the input is finished, then no further data could have changed that verdict, the consumed length, the destination or the action calls.", "quantifier": "every pattern, supplied prefix and every continuation", "why_tests_cant": "Quantifies over all continuations of the input.", "anchors": ["every consume() in include/abulafia/parsers/coroutine"]}
{"id": "C29", "title": "The destination never influences recognition", "statement": "Verdict and consumed length are the same whatever destination (or nil) is supplied, whatever values it holds, and whatever the actions compute.", "quantifier": "every pattern, pair of destinations and input", "why_tests_cant": "Relates two runs over all destinations.", "anchors": ["include/abulafia/dst_wrapper/*", "include/abulafia/support/nil.h: Nil", "include/abulafia/parsers/coroutine/**"]}
{"id": "C30", "title": "A failed iteration leaves no trace in a collection", "statement": "Where the library asks a sub-parser to be atomic (repetition items, list items, optional operands), a sub-parser that fails leaves the destination as it was before that sub-parser started.", "quantifier": "every sub-pattern without user writes through bound destinations, every input", "why_tests_cant": "All ways of failing half-way through nested patterns.", "anchors": ["include/abulafia/parsers/coroutine/adapters/atomic.h: AtomicAdapter", "ATOMIC flags of every parser factory", "include/abulafia/parsers/coroutine/parser_factory.h: AdaptedParserFactory, ConditionalAdapter"]}
{"id": "C31", "title": "Repetitions append one element per match, in input order", "statement": "Parsing repeat(p) (or p % sep) into a collection appends exactly one element per successful match of p, in input order, each being the value that p alone produces at that place; elements already present are kept.", "quantifier": "every p that writes its destination once, any number of matches", "why_tests_cant": "Number of matches is unbounded.", "anchors": ["include/abulafia/parsers/coroutine/unary/repeat.h: RepeatImpl", "include/abulafia/parsers/coroutine/binary/list.h: ListImpl", "include/abulafia/parsers/coroutine/adapters/atomic.h: AtomicAdapter, AtomicFactoryAdapter", "include/abulafia/dst_wrapper/collection_wrapper.h: CollectionWrapper"]}
{"id": "C32", "title": "Sequence children fill consecutive tuple slots", "statement": "In a sequence parsed into a tuple the k-th value-producing child writes only slot k; children that produce nothing (literals, discard, lookahead, void actions) occupy no slot and write nothing.", "quantifier": "every list of children", "why_tests_cant": "Quantifies over all mixtures of producing and non-producing children of any length.", "anchors": ["include/abulafia/parsers/coroutine/nary/sequence.h: choose_tuple_index, choose_dst_accessor"]}
{"id": "C33", "title": "Valueless patterns do not write the destination", "statement": "Literals, eoi, pass, fail, discard(p) and !p never modify the destination they are given.", "quantifier": "every such pattern, destination and input", "why_tests_cant": "p is an arbitrary pattern.", "anchors": ["include/abulafia/parsers/coroutine/unary/discard.h: DiscardImpl", "include/abulafia/parsers/coroutine/unary/not.h: NotImpl", "include/abulafia/parsers/coroutine/leaf/{string_literal,eoi,pass,fail}.h"]}
{"id": "C34", "title": "Actions run exactly on success of their operand", "statement": "p[f] has the verdict and consumption of p; f is called exactly once, after p succeeded, with the value p produced; it is not called when p fails or is suspended, and is never called twice for one match because of suspension.", "quantifier": "every p, f, input and delivery schedule", "why_tests_cant": "Every suspension point of an arbitrary operand.", "anchors": ["include/abulafia/parsers/coroutine/unary/action.h: ActionImpl::consume, act_dispatch"]}
{"id": "C35", "title": "A failed alternative leaves no trace in the destination", "statement": "When an alternative fails, what it already wrote to the destination is not visible in the final value produced by the alternative that matches.", "quantifier": "every pair of alternatives and input", "why_tests_cant": "Depends on all partial matches of arbitrary alternatives.", "anchors": ["include/abulafia/parsers/coroutine/nary/alternative.h: child_req_t (ATOMIC is inherited, not forced)"]}
{"id": "C36", "title": "A skipper is applied before every sub-parser and nowhere else", "statement": "apply_skipper(p, s) gives the verdict of the pattern obtained by prefixing p and every sub-pattern of p (outside lexeme) with the ignored repetition *s; lexeme(q) switches skipping off inside q.", "quantifier": "every pattern p, skipper s and input", "why_tests_cant": "All nestings and all amounts of skippable input.", "anchors": ["include/abulafia/parsers/coroutine/adapters/skip.h: SkipAdapter", "include/abulafia/parsers/coroutine/with_skipper.h: WithSkipperImpl", "include/abulafia/parsers/coroutine/unary/lexeme.h: LexemeImpl", "include/abulafia/parsers/coroutine/parser_factory.h: AdaptedParserFactory, ConditionalAdapter"]}
{"id": "C37", "title": "A skipper accepted by the compiler cannot hang the parser", "statement": "If apply_skipper(p, s) passes the library's compile-time checks (CONSUMES_ON_SUCCESS), then each successful application of s consumes input, so skipping terminates.", "quantifier": "every skipper pattern and input", "why_tests_cant": "Termination is not observable by tests.", "anchors": ["include/abulafia/parsers/coroutine/adapters/skip.h: skip_req_t", "CONSUMES_ON_SUCCESS static_asserts in pass.h and repeat.h"]}
{"id": "C38", "title": "Parsing terminates", "statement": "For every pattern in which repeated operands, list items (or separators) and skippers consume on success and in which recursion is not left recursion, parse() terminates on every input.", "quantifier": "every such (possibly recursive) pattern and every input", "why_tests_cant": "Termination on all inputs is not testable.", "anchors": ["include/abulafia/parsers/coroutine/unary/repeat.h: RepeatImpl", "include/abulafia/parsers/coroutine/binary/list.h: ListImpl", "include/abulafia/parsers/coroutine/adapters/skip.h: SkipAdapter, SkipFactoryAdapter", "include/abulafia/parsers/coroutine/recur.h: RecurChildReqs, RecurImpl"]}
{"id": "C39", "title": "Wrapping a pattern in Recur changes nothing", "statement": "Naming a pattern through a Recur gives the same verdict and consumption as using the pattern directly.", "quantifier": "every pattern and input", "why_tests_cant": "All patterns.", "anchors": ["include/abulafia/parsers/coroutine/recur.h: RecurImpl, RecurChildReqs, AdaptedParserFactory specialisation"]}
{"id": "C40", "title": "No parser underflows the rollback stack or reads past the data", "statement": "For every pattern, input and schedule, running the parser never pops an empty rollback stack, never calls next()/advance() on an empty data source and never leaves the child index range: the only undefined behaviours left are numeric overflow and use of an undefined recursion.", "quantifier": "every pattern, input and schedule", "why_tests_cant": "Undefined behaviour is not observable; the space is infinite.", "anchors": ["every consume() in include/abulafia/parsers/coroutine", "include/abulafia/data_source/*"]}
{"id": "C41", "title": "Round trip of a bracketed list of integers", "statement": "Parsing the text '[' n1 ',' n2 ',' ... ']' written for any list of integers with lit('[') >> (int_ % ',') >> lit(']') into a vector succeeds, consumes the whole text and yields exactly that list.", "quantifier": "every list of integers of any length and magnitude (unbounded destination type), any delivery schedule", "why_tests_cant": "Infinitely many lists.", "anchors": ["README.md / docs guide list example", "include/abulafia/parsers/coroutine/binary/list.h: ListImpl", "include/abulafia/parsers/coroutine/leaf/numeric/int.h: IntImpl", "include/abulafia/parsers/coroutine/adapters/atomic.h: AtomicAdapter, AtomicFactoryAdapter"]}
{"id": "C42", "title": "Nothing uninitialised is read", "statement": "A parse into initialised objects never copies an uninitialised scalar: the values handed to actions, the values copied out of the buffers of the atomic adapter, and the destination after the parse, whatever its result, are all initialised.", "quantifier": "every pattern, environment of Recur objects, destination, input and delivery schedule", "why_tests_cant": "An uninitialised read is undefined behaviour and usually goes unnoticed; whether a member has been written depends on the path taken through the pattern, and there are infinitely many patterns and inputs.", "anchors": ["include/abulafia/parsers/coroutine/unary/action.h: ActionImpl, ActionParam, act_dispatch", "include/abulafia/parsers/coroutine/adapters/atomic.h: AtomicAdapter, AtomicFactoryAdapter", "include/abulafia/parsers/coroutine/unary/construct.h: ConstructImpl"]}
{"id": "C43", "title": "The example calculator computes the value of the longest expression", "statement": "The calculator of the math_expression example, built from int_, lit, char_, sequences, alternatives, repetitions, bind_dst, actions, Recur and apply_skipper, succeeds exactly on the texts that start (after blanks) with an arithmetic expression; it consumes the longest such expression and leaves its value in the destination, with the usual precedence and left associativity, and with truncating division. Otherwise it fails and leaves every object unchanged.", "quantifier": "every text and every expression in which all numbers, all intermediate results and what stands in parentheses have a value as int (no overflow, no division by zero), any nesting depth and length, any blanks, any initial memory, any delivery schedule", "why_tests_cant": "Infinitely many expressions; precedence and associativity errors show only on particular combinations, and the interaction of skipper, recursion, clean failure and bound destination depends on where an operand is missing.", "anchors": ["examples/math_expression/main.cpp", "include/abulafia/parsers/coroutine/unary/action.h: ActionImpl, ActionParam, act_dispatch", "include/abulafia/parsers/coroutine/unary/bind_dst.h: BindDstImpl", "include/abulafia/parsers/coroutine/adapters/skip.h: SkipAdapter, SkipFactoryAdapter", "include/abulafia/parsers/coroutine/recur.h: RecurChildReqs, RecurImpl"]}
{"id": "C44", "title": "as<T...>() builds an object from exactly what its operand parsed, or nothing", "statement": "p.as<T...>() accepts and consumes what p does. On success the destination holds the object made from the elements p left in a new tuple (for a sequence: one argument per value-producing part, in order), whatever it held before. While the parser is suspended, and when p fails at whatever point, the destination and everything else that existed before are unchanged.", "quantifier": "every p (without actions that write through an ActionParam), argument types, destination, input and delivery schedule", "why_tests_cant": "Partial writes show only for operands that fail or suspend after some of their parts matched; p is an arbitrary pattern.", "anchors": ["include/abulafia/parsers/coroutine/unary/construct.h: ConstructImpl", "docs/guide/08_working_with_structs.md"]}
{"id": "C45", "title": "Writes are confined to the destination and the bound destination", "statement": "A parser, with whatever actions, at any time changes nothing that existed before it except what its destination and the bound destination of its context designate. bind_dst(p) is p with its own destination bound: nothing outside its destination changes, in particular not the bound destination of its context. parse and make_parser change nothing outside the destination they were given. An action with an ActionParam reads and writes exactly the bound destination.", "quantifier": "every pattern, every action, every data source, suspension at any point", "why_tests_cant": "Quantifies over all patterns, nestings of bind_dst and actions; a stray write is only visible in an object the test looks at.", "anchors": ["include/abulafia/parsers/coroutine/unary/bind_dst.h: BindDstImpl", "include/abulafia/parsers/coroutine/unary/action.h: ActionImpl, ActionParam, act_dispatch", "include/abulafia/dst_wrapper/"]}
{"id": "C46", "title": "The README list parser reads exactly the bracketed lists of numbers", "statement": "The first example of the README, '[' >> (int_ % ',') >> ']' with whitespace skipped, into a vector<int>: if the text starts with a (possibly empty) comma-separated list of numbers in brackets, with any whitespace before brackets, numbers and commas, it succeeds, consumes exactly that list and appends exactly those numbers, in order. Otherwise it fails, and the vector has at most got the numbers of the list that was begun.", "quantifier": "every text, any number of numbers (of magnitude that fits int), any whitespace, any initial vector and memory, any delivery schedule", "why_tests_cant": "The project tests one text without odd spacing; lists of all lengths, spacings, signs, broken and unfinished lists are infinitely many, and an error in the rollback after a dangling comma or sign shows only on some of them.", "anchors": ["README.md", "tests/documentation/test_readme.cpp", "include/abulafia/parsers/coroutine/binary/list.h: ListImpl", "include/abulafia/parsers/coroutine/adapters/skip.h: SkipAdapter, SkipFactoryAdapter", "include/abulafia/parsers/coroutine/adapters/atomic.h: AtomicAdapter, AtomicFactoryAdapter"]}
{"id": "C47", "title": "The README rectangle parser builds the rectangle that was written, or none", "statement": "The second example of the README, two or four numbers in brackets with whitespace skipped, as<int, int>() or as<int, int, int, int>(): if the text starts with two or four comma-separated numbers in brackets it succeeds, consumes exactly that text and constructs the destination from exactly those numbers, in order, even though the first alternative fails late on four numbers. Otherwise it fails and every object is unchanged.", "quantifier": "every text, numbers of magnitude that fits int, any whitespace, any initial memory, any delivery schedule", "why_tests_cant": "The project tests two texts; traces of the abandoned first alternative and misplaced arguments depend on where it fails.", "anchors": ["README.md", "tests/documentation/test_readme.cpp", "include/abulafia/parsers/coroutine/unary/construct.h: ConstructImpl", "include/abulafia/parsers/coroutine/nary/alternative.h: WrappedParser, AltSubParser, AltImpl", "include/abulafia/parsers/coroutine/adapters/clean_failure.h: CleanFailureAdapter, CleanFailureFactoryAdapter"]}
{"id": "C48", "title": "nil is accepted by every pattern and generates nothing", "statement": "Passing nil as destination works for every pattern: the parse behaves as with any other destination (same verdict, same consumed text), no object is written, and a pattern that builds no object of its own (no as<...>(), no action that takes a value) builds none and cannot overflow or read uninitialised data.", "quantifier": "every pattern, every text, every delivery schedule, every destination compared with", "why_tests_cant": "Tests instantiate a handful of patterns with nil; the claim compares two instantiations of every pattern on every text.", "anchors": ["docs/guide/02_parsers.md:52", "include/abulafia/support/nil.h: Nil", "include/abulafia/dst_wrapper/select_wrapper.h: SelectDstWrapper", "include/abulafia/parsers/coroutine/unary/construct.h: ConstructImpl"]}
{"id": "C49", "title": "*UInt<10,2,2> reads exactly the pairs of digits", "statement": "The fixed-width example of the guide, *UInt<10,2,2> into a vector<unsigned short>, succeeds on every text, appends the numbers written by the pairs of decimal digits the text starts with, in order, and leaves what follows the last pair unread, be it a single digit; however the text is cut into buffers.", "quantifier": "every text, any initial vector and memory, any delivery schedule", "why_tests_cant": "Any number of pairs, and cuts in the middle of a pair; the rollback over a lone last digit depends on both.", "anchors": ["docs/guide/02_parsers.md:67", "docs/guide/04_resumable_parsers.md:16", "include/abulafia/parsers/coroutine/leaf/numeric/uint.h: UIntImpl", "include/abulafia/parsers/coroutine/unary/repeat.h: RepeatImpl"]}
{"id": "C50", "title": "The player parser of the guide reads two names and a score", "statement": "name >> name >> uint_ with lexeme names under a whitespace skipper, and the same with discarded spaces written by hand: if the text starts with two names of letters and digits and a number, separated by spaces, both succeed, append the names to the two strings, store the number and consume exactly that text. Otherwise both fail; the strings have got at most letters and digits of the text and the score is 0.", "quantifier": "every text, any names, numbers and spacing, any initial contents, any delivery schedule", "why_tests_cant": "Names, spaces and scores of any length; a name that swallows the score or a skipper that runs inside a lexeme shows only on some texts.", "anchors": ["docs/guide/03_skippers.md", "include/abulafia/parsers/coroutine/unary/lexeme.h: LexemeImpl", "include/abulafia/parsers/coroutine/adapters/skip.h: SkipAdapter, SkipFactoryAdapter", "include/abulafia/parsers/coroutine/unary/discard.h: DiscardImpl"]}
{"id": "C51", "title": "An action on the item of a repetition sees every item once, in order", "statement": "The action examples of the guide, *char_()[f]: an f without parameter is called once per character; an f(char) is called with every character in order; what an f(char) returns is appended to the destination in order, converted to its element type. Nothing else changes, and the result does not depend on the delivery.", "quantifier": "every text, every function, any initial destination, any delivery schedule", "why_tests_cant": "Ranges over all functions and all texts; a repeated call after a suspended item shows only under particular deliveries.", "anchors": ["docs/guide/05_actions.md", "include/abulafia/parsers/coroutine/unary/action.h: ActionImpl, ActionParam, act_dispatch", "include/abulafia/parsers/coroutine/unary/repeat.h: RepeatImpl"]}
{"id": "C52", "title": "The recursive example of the guide reads exactly the nested lists", "statement": "int_ | ('(' >> my_recur % ',' >> ')'), with my_recur standing for the whole: if the text starts with a number or a (possibly empty) comma-separated list of such things in parentheses, nested to any depth, it succeeds and consumes exactly that; otherwise it fails. This holds for every destination, and with nil nothing is written and nothing else can happen, however the text is delivered.", "quantifier": "every text, any nesting depth and list length, every destination, any delivery schedule", "why_tests_cant": "Nesting depth is unbounded, and the rollback after a missing parenthesis deep inside goes through every level.", "anchors": ["docs/guide/06_recursivity.md", "include/abulafia/patterns/recur.h: RecurPayload, RecurMemoryPool, Recur", "include/abulafia/parsers/coroutine/recur.h: RecurChildReqs, RecurImpl", "include/abulafia/parsers/coroutine/binary/list.h: ListImpl"]}
{"id": "C53", "title": "What the compile-time checks let through", "statement": "The static_asserts on bases, digit counts and consumption let a pattern through exactly if its number patterns make sense (2 <= base <= 35, at least one digit, max not below min), its sequences and alternatives have children, and no skipper in it reaches pass or *p except through a sequence, a list or a Recur. In particular no skipper that consumes whenever it matches is rejected.", "quantifier": "every pattern", "why_tests_cant": "A rejected pattern does not compile, so no test contains one; that the checks reject nothing good is a statement about all patterns.", "anchors": ["include/abulafia/patterns/leaf/numeric/int.h: Int", "include/abulafia/patterns/leaf/numeric/uint.h: UInt", "include/abulafia/parsers/helpers/digit_values.h: DigitValues", "include/abulafia/parsers/coroutine/leaf/pass.h: PassImpl", "include/abulafia/parsers/coroutine/unary/repeat.h: RepeatImpl", "include/abulafia/parsers/coroutine/adapters/skip.h: SkipAdapter, SkipFactoryAdapter"]}
{"id": "C54", "title": "A sequence or alternative goes on with the child it is at", "statement": "On a data source that is not resumable the code starts every sequence and alternative at its first child without looking; on a resumable one it dispatches on the stored index with visit_val. Both give the child the object is at: abu_assume(child_parsers_.index() == ID) is never violated, however often consume is called, and visit_val calls its visitor with the value given.", "quantifier": "every pattern (also recursive ones), destination and text, any delivery schedule and number of calls of consume", "why_tests_cant": "In release builds a violated abu_assume is undefined behaviour rather than a failing assertion, and which child is active depends on where the input was cut.", "anchors": ["include/abulafia/support/visit_val.h: val_visitor", "include/abulafia/support/assert.h: abu_assume", "include/abulafia/parsers/coroutine/nary/sequence.h: choose_dst_accessor, WrappedParser, SeqSubParser, SeqImpl", "include/abulafia/parsers/coroutine/nary/alternative.h: WrappedParser, AltSubParser, AltImpl"]}
{"id": "C55", "title": "A Recur stands for the pattern last defined through any copy of it", "statement": "After any history of making pools and Recur objects, copying them (alone or inside patterns), defining them and dropping pools: a Recur stands for the pattern last given to ABU_Recur_define through it or through any copy of it, in whatever order other objects were made and defined (so mutually recursive grammars can be set up in any order). If it was never defined, or its pool is gone, its use is undefined behaviour. Setting up goes wrong only by naming a pool that is gone: making a Recur in it or defining one of its objects.", "quantifier": "every history of operations on any number of pools and Recur objects", "why_tests_cant": "The number of objects, copies and redefinitions and their order are unbounded; a dangling or aliased handle shows only in particular orders.", "anchors": ["include/abulafia/patterns/recur.h: RecurPayload, RecurMemoryPool, Recur", "include/abulafia/parsers/coroutine/recur.h: RecurChildReqs, RecurImpl"]}
{"id": "C56", "title": "prefixed_hex of the guide reads prefixed hexadecimal numbers", "statement": "(lit(\"0x\") | lit(\"0X\")) >> UInt<16, MIN, MAX>(): if the text starts with 0x or 0X and at least MIN hexadecimal digits, it succeeds, consumes the prefix and as many digits as there are but at most MAX (0: no limit), and stores the number they write in base 16 (modulo the range of the unsigned destination). With a prefix and fewer digits it fails; without a prefix it fails having read and stored nothing, in particular a 0 that is not followed by x.", "quantifier": "every text, every MIN and MAX, every unsigned width, any delivery schedule", "why_tests_cant": "The two literals share their first character, so the second is tried after a rollback, possibly in another buffer; digit counts and bounds are unbounded.", "anchors": ["docs/guide/02_parsers.md", "include/abulafia/patterns/leaf/string_literal.h: StringLiteral", "include/abulafia/parsers/coroutine/nary/alternative.h: WrappedParser, AltSubParser, AltImpl", "include/abulafia/parsers/coroutine/leaf/numeric/uint.h: UIntImpl"]}
{"id": "C57", "title": "*(ows >> int_) of the guide reads a list of integers", "statement": "With ows = ignore(*char_(\" \\r\\n\\t\")), *(ows >> int_) appends to a vector<int> exactly the numbers the text starts with, each with any number of spaces before it, and leaves what follows the last number, including spaces. Every text is covered.", "quantifier": "every text whose numbers fit int, any delivery schedule", "why_tests_cant": "Spaces read before a number that turns out not to be there have to be given back, however many there are and in however many buffers.", "anchors": ["docs/guide/03_skippers.md", "include/abulafia/parsers/coroutine/unary/repeat.h: RepeatImpl", "include/abulafia/parsers/coroutine/adapters/atomic.h: AtomicAdapter, AtomicFactoryAdapter", "include/abulafia/parsers/coroutine/adapters/clean_failure.h: CleanFailureAdapter, CleanFailureFactoryAdapter"]}
{"id": "C58", "title": "Without lexeme the first name takes everything", "statement": "The player example of the guide with the skipper but without lexeme: on every text the first name gets all letters and digits at the start of the text with the spaces between them removed (John Doe    123 gives JohnDoe123), the last name gets nothing, and the parser fails because no score is left.", "quantifier": "every text, any delivery schedule", "why_tests_cant": "Claimed for every input, of any length and with any spaces.", "anchors": ["docs/guide/03_skippers.md", "include/abulafia/patterns/unary/lexeme.h: Lexeme", "include/abulafia/parsers/coroutine/adapters/skip.h: SkipAdapter, SkipFactoryAdapter"]}
{"id": "C59", "title": "The reading loop of the guide parses the file", "statement": "The loop of the guide that reads a file in chunks of a fixed size, adds each to the parser object (as final iff the file gave less than a whole chunk) and calls consume until the result is not PARTIAL, ends with the same verdict, destinations, action calls and unread text as parse on the whole text of the file, and ends iff parse does; the result is not PARTIAL.", "quantifier": "every pattern, destination, file and chunk size > 0", "why_tests_cant": "The last chunk may be full, partial or empty, and the verdict may come before the end of the file; sizes are unbounded.", "anchors": ["docs/guide/04_resumable_parsers.md", "include/abulafia/operations/make_parser.h: ParserInterface", "include/abulafia/data_source/container_sequence.h: ContainerSequenceDataSource"]}
{"id": "C60", "title": "Expressions mean what they say", "statement": "An expression of character and string literals, character sets, patterns and the library's operators and functions that compiles matches what it says: each literal stands for itself (for its characters, when joined to a character set with |), >> for one after the other, | for the first that matches, - for exclusion, % for lists, *, +, -, ! for repetition, option and negative lookahead, ~ for the complement of a set, whatever the grouping. It compiles iff every operator of patterns has at least one pattern among its operands (a character set and a pattern do not mix under |).", "quantifier": "every expression and every text of chars", "why_tests_cant": "Expressions nest without bound, and each operator has overloads that depend on the types of both operands.", "anchors": ["include/abulafia/patterns/traits.h: is_pattern, converts_to_pattern, is_valid_unary_operand, are_valid_binary_operands", "include/abulafia/patterns/pattern.h: Pattern", "include/abulafia/patterns/nary/nary_pattern.h: NaryPatternBuilder", "include/abulafia/patterns/leaf/char_literal.h: lit", "include/abulafia/patterns/leaf/string_literal.h: StringLiteral", "include/abulafia/char_set/or.h: Or"]}
{"id": "C61", "title": "Buffers are let go of when they are read", "statement": "A parser object holds, at any moment, exactly the buffers in which there is still something to read when its pattern can be decided one character at a time, so nothing at all each time consume returns PARTIAL; when the pattern looks ahead, it holds exactly those after the verdict (docs/guide/04: the data is let go of as soon as it will not be needed again).", "quantifier": "every pattern, destination, text, cutting into buffers and schedule of consume calls", "why_tests_cant": "A rollback point that is never closed is not visible in any result; it shows only in the memory held after arbitrarily many buffers.", "anchors": ["docs/guide/04_resumable_parsers.md", "include/abulafia/operations/make_parser.h: ParserInterface", "include/abulafia/data_source/container_sequence.h: ContainerSequenceDataSource", "include/abulafia/parsers/coroutine/unary/optional.h: OptImpl", "include/abulafia/parsers/coroutine/adapters/clean_failure.h: CleanFailureAdapter, CleanFailureFactoryAdapter"]}
{"id": "C62", "title": "Parsing into destinations of the right types", "statement": "When every object in memory has a value of its type and the destination type suits the pattern (numbers into number types, items of repetitions and lists into elements of a collection, values of a sequence into the parts of a tuple or all into one destination, results of actions and symbol tables into what converts from them, as<...>() into what is constructible from its parts, Recur objects set and suited for all types they are used with), no parse writes anything of another type, writes through a reference to no object, needs a missing conversion or uses an unset Recur: it ends with a result and values of the right types everywhere, or because a number overflowed a signed type or a scalar was copied before it had a value. With number types that do not overflow and patterns that write what they promise, no error is left; with loops and recursion that consume, every text is then answered by SUCCESS or FAILURE.", "quantifier": "every pattern, set of recursive patterns, destination, memory, text and delivery of it", "why_tests_cant": "Destinations nest without bound, and which part of which destination a deeply nested pattern writes to depends on all combinators above it and on the buffers the factories insert.", "anchors": ["include/abulafia/dst_wrapper/select_wrapper.h: SelectDstWrapper", "include/abulafia/dst_wrapper/value_wrapper.h: ValueWrapper", "include/abulafia/dst_wrapper/collection_wrapper.h: CollectionWrapper", "include/abulafia/parsers/coroutine/nary/sequence.h: choose_dst_accessor, WrappedParser, SeqSubParser, SeqImpl", "include/abulafia/parsers/coroutine/adapters/atomic.h: AtomicAdapter, AtomicFactoryAdapter", "include/abulafia/parsers/coroutine/unary/action.h: ActionImpl, ActionParam, act_dispatch", "include/abulafia/parsers/coroutine/unary/construct.h: ConstructImpl"]}
{"id": "C63", "title": "Destinations the reference calls compatible", "statement": "A pattern can be parsed into every destination that docs/reference.md calls compatible with it (the tables of patterns, the rules for alternatives and sequences): the program compiles, and what is written has the type of the object it is written to.", "quantifier": "every pattern built with the documented constructs, recursive or not, every destination the rules give for it, every text and delivery of it", "why_tests_cant": "The rules compose: destinations of nested patterns are built from those of their parts, without bound.", "anchors": ["docs/reference.md", "include/abulafia/dst_wrapper/collection_wrapper.h: CollectionWrapper", "include/abulafia/parsers/coroutine/nary/sequence.h: choose_dst_accessor, WrappedParser, SeqSubParser, SeqImpl", "include/abulafia/patterns/nary/sequence.h: Seq", "include/abulafia/parsers/coroutine/leaf/numeric/uint.h: UIntImpl"]}
{"id": "C64", "title": "Parser objects used in turns do not interfere", "statement": "A program that creates several parser objects, feeds them and calls consume on them in any order gets from each object what it would get if that object were the only one: the same answer, the same unread text, the same value in its destination, the same calls of its actions. It has undefined behaviour only if one of the objects has, alone. The order of operations on different objects is not observable, and nothing outside the destinations is changed. This holds when destinations do not overlap and no object's actions act on what another object's actions depend on; patterns, recursive ones included, may be shared.", "quantifier": "every number of objects, patterns, destinations, contents of memory, and every interleaving of creations, buffers and consume calls", "why_tests_cant": "Interleavings grow exponentially with the number of operations, and the objects share one memory in which each allocates buffers between steps of the others.", "anchors": ["include/abulafia/operations/make_parser.h: ParserInterface", "include/abulafia/context.h: Context", "include/abulafia/data_source/container_sequence.h: ContainerSequenceDataSource", "docs/guide/04_resumable_parsers.md"]}
{"id": "C65", "title": "Character sets and texts of different character types", "statement": "A character set accepts exactly the characters it denotes, also when the text has another character type (char, char32_t) than the set.", "quantifier": "every expression building a character set, of either type, and every character of a text of either type", "why_tests_cant": "Sets nest without bound, and a code point is mistaken for another only when their low bytes agree, which tests with ASCII text never show.", "anchors": ["include/abulafia/char_set/range.h: Range", "include/abulafia/char_set/single.h: Single", "include/abulafia/char_set/not.h: Not", "include/abulafia/char_set/or.h: Or", "include/abulafia/char_set/set.h: Set, IndexedSet", "include/abulafia/parsers/coroutine/leaf/character.h: CharImpl"]}
{"id": "C66", "title": "Counters of parser objects do not overflow", "statement": "The int counters of digits and of repetitions do not overflow on texts of at most INT_MAX characters, if every repetition has an operand that consumes a character whenever it succeeds, or an upper bound. So the parsers do what they would do with unbounded counters. Without the first condition *pass overflows on every text; one character more than INT_MAX is enough for *char_ and uint_.", "quantifier": "every largest value of the counters' type, every pattern, recursive or not, every text up to that length, every delivery of it in buffers", "why_tests_cant": "An overflow takes more than two billion steps; no test suite has an input of that size.", "anchors": ["include/abulafia/parsers/coroutine/unary/repeat.h: RepeatImpl", "include/abulafia/parsers/coroutine/leaf/numeric/uint.h: UIntImpl", "include/abulafia/parsers/coroutine/leaf/numeric/int.h: IntImpl"]}
{"id": "C67", "title": "Grammars may be rewritten", "statement": "Rewriting a pattern, or the definitions of Recur objects, by the laws of parsing expression grammars does not change which texts it matches and how much of them: sequences and alternatives are associative with neutral elements, an alternative already tried may be dropped, a common start may be factored out, optional, list, except, + and bounded repetitions may be replaced by what they stand for, lookaheads and character sets obey boolean laws, literals may be split, and discard, lexeme, actions and the like do not matter. Alternatives do not commute, and common ends may not be factored out.", "quantifier": "every number of applications of the laws, in any place of the pattern and of the definitions it uses, every text", "why_tests_cant": "Rewriting composes without bound, and a rewritten grammar can differ only on texts on which some alternative fails late.", "anchors": ["include/abulafia/parsers/coroutine/nary/sequence.h: choose_dst_accessor, WrappedParser, SeqSubParser, SeqImpl", "include/abulafia/parsers/coroutine/nary/alternative.h: WrappedParser, AltSubParser, AltImpl", "include/abulafia/parsers/coroutine/unary/repeat.h: RepeatImpl", "include/abulafia/parsers/coroutine/unary/optional.h: OptImpl", "include/abulafia/parsers/coroutine/binary/list.h: ListImpl", "include/abulafia/parsers/coroutine/binary/except.h: ExceptImpl", "docs/reference.md"]}
{"id": "C68", "title": "The call stack is bounded by the text", "statement": "Patterns without Recur need a call stack whose depth depends on the pattern only, not on the text. Grammars with finitely many Recur objects and without left recursion need a depth that is at most linear in the length of the text. With room for that many calls, of consume and of destructors of parser objects, the parsers do exactly what they would do on an unbounded stack. Nested texts do need a stack that grows with them, and left recursion needs more than any stack has.", "quantifier": "every pattern, every grammar with finitely many Recur objects and no left recursion, every text, every delivery of it in buffers, every size of the stack", "why_tests_cant": "A stack overflow shows only on texts that nest deeper than any test, and a bound on the depth speaks of all texts.", "anchors": ["include/abulafia/parsers/coroutine/recur.h: RecurChildReqs, RecurImpl", "include/abulafia/patterns/recur.h: RecurPayload, RecurMemoryPool, Recur", "include/abulafia/parsers/coroutine/nary/sequence.h: choose_dst_accessor, WrappedParser, SeqSubParser, SeqImpl", "include/abulafia/parsers/coroutine/unary/repeat.h: RepeatImpl", "include/abulafia/operations/parse.h: parse", "include/abulafia/operations/make_parser.h: ParserInterface"]}
{"id": "C69", "title": "What may stand in a sequence", "statement": "A pattern that compiles may be a part of a sequence: the sequence compiles if its parts do, whatever the parts are.", "quantifier": "every pattern, every sequence of patterns", "why_tests_cant": "Code that does not compile is in no test; which combinations of templates are ill-formed is a statement about all of them.", "anchors": ["include/abulafia/parsers/coroutine/nary/sequence.h: choose_dst_accessor, WrappedParser, SeqSubParser, SeqImpl", "include/abulafia/parsers/coroutine/unary/lexeme.h: LexemeImpl", "include/abulafia/parsers/coroutine/unary/bind_dst.h: BindDstImpl", "docs/guide/03_skippers.md"]}
{"id": "C70", "title": "Rollback points at the same time", "statement": "The number of rollback points that exist at the same time does not depend on the text for a pattern without Recur; with Recur it is at most proportional to the length of the text. After the verdict there is none left.", "quantifier": "every pattern, every environment of Recur patterns without left recursion, every text and every delivery of it to a parser object", "why_tests_cant": "The bound is over all texts; a leak of one rollback point per repetition goes unnoticed on the short texts of tests.", "anchors": ["include/abulafia/data_source/single_forward.h: SingleForwardDataSource", "include/abulafia/data_source/container_sequence.h: ContainerSequenceDataSource", "include/abulafia/parsers/coroutine/unary/optional.h: OptImpl", "include/abulafia/parsers/coroutine/binary/list.h: ListImpl"]}
{"id": "C71", "title": "Time of a parse", "statement": "The number of iterations of consume() that a call of parse goes through is at most a polynomial in the length of the text, with a degree that is read off the pattern (the depth to which unbounded loops are nested); it is linear for patterns that look at one character at a time. A parser object takes at most a constant more for every call of consume, however the text is delivered.", "quantifier": "every pattern, every environment of Recur patterns, every destination, every text and every delivery of it to a parser object", "why_tests_cant": "Growth is a statement about all lengths; tests have short texts and do not measure.", "anchors": ["include/abulafia/operations/parse.h: parse", "include/abulafia/parsers/coroutine/unary/repeat.h: RepeatImpl", "include/abulafia/parsers/coroutine/nary/alternative.h: WrappedParser, AltSubParser, AltImpl", "include/abulafia/parsers/coroutine/recur.h: RecurChildReqs, RecurImpl", "include/abulafia/parsers/coroutine/parser_factory.h: AdaptedParserFactory, ConditionalAdapter"]}
{"id": "C72", "title": "Iterators that pass only once", "statement": "parse() may be given any pair of iterators, also input iterators such as std::istream_iterator, whose earlier copies become invalid with every increment: it returns the same result and the same values as on iterators that can go back, and leaves the same text in the stream.", "quantifier": "every pattern, every environment of Recur patterns, every destination, every text", "why_tests_cant": "The tests parse strings. On a stream, whether the parser goes back depends on the text, and going back is undefined behaviour, which need not show.", "anchors": ["include/abulafia/operations/parse.h: parse", "include/abulafia/data_source/single_forward.h: SingleForwardDataSource", "include/abulafia/parsers/coroutine/parser_factory.h: AdaptedParserFactory, ConditionalAdapter", "docs/guide/02_parsers.md"]}
{"id": "C73", "title": "Literals and symbol tables of another character type", "statement": "lit(s) and symbol(table) may be given with char or char32_t and used on texts of either: a literal matches the text that begins with the same characters, a symbol table takes the longest key the text begins with, and neither matches other characters.", "quantifier": "every literal, every table of strings or characters, both key types, both text types, every text", "why_tests_cant": "The tests use the same type for pattern and text. A char key can match 2^24 characters of a char32_t text.", "anchors": ["include/abulafia/parsers/coroutine/leaf/string_symbol.h: SymbolImpl", "include/abulafia/parsers/coroutine/leaf/char_symbol.h: CharSymbolImpl", "include/abulafia/parsers/coroutine/leaf/string_literal.h: StringLiteralImpl", "include/abulafia/patterns/leaf/string_symbol.h: Symbol"]}
{"id": "C74", "title": "Actions that throw", "statement": "An exception thrown by an action leaves parse() (or consume() of a parser object) at once: up to it everything happens as without exceptions, no action is called after it, and the destination is as it was before the parse. When no call throws, nothing changes.", "quantifier": "every pattern, every environment of Recur patterns, every destination, every text and every delivery of it to a parser object, every set of calls that throw", "why_tests_cant": "No test throws. Which call throws can depend on all calls before it.", "anchors": ["include/abulafia/parsers/coroutine/unary/action.h: ActionImpl, ActionParam, act_dispatch", "include/abulafia/operations/parse.h: parse", "include/abulafia/operations/make_parser.h: ParserInterface"]}
{"id": "C75", "title": "What every pattern recognises", "statement": "A parse with any pattern recognises exactly what recursive descent with one stack of saved positions shared by all parts of the pattern recognises: a part that may have to be undone saves the position when it is begun, and goes back to the position saved last, whichever part saved it. The result is never PARTIAL, there is one outcome at most, and a parser object answers the same however its text is delivered.", "quantifier": "every pattern whose sequences and alternatives have a part, skippers and Recur included, every environment of Recur patterns, every destination, every text, every delivery of it", "why_tests_cant": "The outcome depends on saved positions of parts far away in the pattern; tests try a few patterns on a few texts, and avoid those for which the grammar is not followed.", "anchors": ["include/abulafia/parsers/coroutine/parser_factory.h: AdaptedParserFactory, ConditionalAdapter", "include/abulafia/parsers/coroutine/unary/optional.h: OptImpl", "include/abulafia/data_source/single_forward.h: SingleForwardDataSource"]}
{"id": "C76", "title": "The values a grammar computes", "statement": "Describe for every pattern, from the values of its parts, the value a match puts into the destination and the calls of actions in order, with no parser, data source, rollback point or temporary object: a character is itself, a number what its digits stand for, a sequence fills the slots of a tuple or adds all its parts to the same object, an alternative has the value of the first part that matches, repetitions and lists append one element per match, as<...>() makes an object from the values of the parts, an action has the value its function returns, Recur that of the pattern it stands for. Whenever this description gives a value, every parse of the text succeeds with that value, these calls and the same text unread, and when it gives none every parse fails; so a text has one value at most. In particular a recursive grammar for binary trees reads back every tree from its notation.", "quantifier": "every tidy pattern and environment of Recur patterns, every destination type and content covered by the rules, every text, every list of calls made before, every delivery of the text; every binary tree of integers that fit the integer type", "why_tests_cant": "The rules combine without bound: trees of any depth, lists of tuples of lists, actions inside repetitions inside alternatives. Tests fix one grammar and a few texts.", "anchors": ["include/abulafia/parsers/coroutine/nary/sequence.h: choose_dst_accessor, WrappedParser, SeqSubParser, SeqImpl", "include/abulafia/parsers/coroutine/nary/alternative.h: WrappedParser, AltSubParser, AltImpl", "include/abulafia/parsers/coroutine/unary/repeat.h: RepeatImpl", "include/abulafia/parsers/coroutine/unary/construct.h: ConstructImpl", "include/abulafia/parsers/coroutine/unary/action.h: ActionImpl, ActionParam, act_dispatch", "include/abulafia/dst_wrapper/collection_wrapper.h: CollectionWrapper", "include/abulafia/dst_wrapper/value_wrapper.h: ValueWrapper"]}
{"id": "C77", "title": "The values a grammar computes when characters are skipped", "statement": "With a skipper that matches one character of a set (a set, an alternative of sets, the same discarded or in a lexeme), a match computes what C76 describes, except that before every token (character, string, symbol, number, end of input, lexeme) the characters of the set at the current place are passed over, and nowhere else: same values, same calls of actions in the same order, same success or failure, and the same text left unread up to characters of the set. In particular a recursive grammar reads back every binary tree from its words in order, with any characters of the set between them.", "quantifier": "every set of characters and every such skipper for it, every pattern and environment of Recur patterns that leave no stale rollback point, every destination type and content covered by the rules, every text, every list of calls made before, every delivery of the text; every binary tree of integers that fit, every way of placing skipped characters between its words", "why_tests_cant": "Where the skip adapters stand depends on the requirements passed down through the whole grammar, and skipping happens again after every rollback: only a proof over all grammars shows that the adapters together skip exactly before the tokens. Tests place blanks in a few spots of a few texts.", "anchors": ["include/abulafia/parsers/coroutine/adapters/skip.h: SkipAdapter, SkipFactoryAdapter", "include/abulafia/parsers/coroutine/parser_factory.h: AdaptedParserFactory, ConditionalAdapter", "include/abulafia/parsers/coroutine/with_skipper.h: WithSkipperImpl", "include/abulafia/parsers/coroutine/unary/lexeme.h: LexemeImpl", "include/abulafia/parsers/coroutine/nary/sequence.h: choose_dst_accessor, WrappedParser, SeqSubParser, SeqImpl", "include/abulafia/parsers/coroutine/nary/alternative.h: WrappedParser, AltSubParser, AltImpl", "include/abulafia/parsers/coroutine/recur.h: RecurChildReqs, RecurImpl"]}
{"id": "C78", "title": "Parser objects can be copied", "statement": "A copy of a parser object is an object of its own: fed like the original, it does what the original does. (False of the code: the copy shares the data source of the original by reference and cannot be given text, nor outlive the original. What holds: a copy goes on from where the original was, fed through the original.)", "quantifier": "every copyable pattern, environment, destination and memory, every sequence of buffers and calls of consume before and after the copy is made, every sequence of copies, destructions, buffers and calls for the restrictions", "why_tests_cant": "Nothing in the library forbids the copy, and a test that copies an object may well appear to work: the iterators into the wrong list and the reference to the original only show as undefined behaviour.", "anchors": ["include/abulafia/operations/make_parser.h: ParserInterface", "include/abulafia/context.h: Context", "include/abulafia/data_source/container_sequence.h: ContainerSequenceDataSource", "docs/guide/04_resumable_parsers.md"]}
{"id": "C79", "title": "Parser objects can be used again after an action has thrown", "statement": "When an action throws out of consume() of a parser object, the object can still be used: consume() called again calls the action again with the same value, and everything goes on as though the call that threw had not been made. (False of the code: the operand of the action is asked again, too, which for a character reads the next one, for int_ changes the sign back, and for an optional part or an operand that has to fail cleanly uses up a rollback point twice; a string has been moved away. What holds: it is so for the patterns whose operands can be asked again.)", "quantifier": "every pattern whose actions are around operands that can be asked again and give a number or nothing, every environment of such patterns, every destination and memory, every sequence of buffers and calls of consume, every choice of the calls that throw, every content of moved-from objects", "why_tests_cant": "What is left of the objects when an exception passes depends on where in the grammar the action stands, on the adapters around its operand and on the moment of the throw. Tests throw from a few actions, and rarely go on afterwards.", "anchors": ["include/abulafia/parsers/coroutine/unary/action.h: act_dispatch, ActionImpl", "include/abulafia/operations/make_parser.h: ParserInterface", "include/abulafia/parsers/coroutine/leaf/character.h", "include/abulafia/parsers/coroutine/leaf/string_literal.h", "include/abulafia/parsers/coroutine/leaf/numeric/int.h", "include/abulafia/parsers/coroutine/leaf/numeric/uint.h", "include/abulafia/parsers/coroutine/unary/optional.h", "include/abulafia/parsers/coroutine/adapters/clean_failure.h"]}
{"id": "C80", "title": "PARTIAL means that more text is needed", "statement": "consume() of a parser object returns PARTIAL only as long as the text supplied so far leaves the result open. (False of the code in general: eoi | pass and a character set without characters wait for a character that cannot change anything. What holds: leaf patterns with something to match wait exactly as long as what they do depends on how the text goes on, and tidy patterns without skipper at least as long. There are exact conditions for the leaf patterns too. A character, a character symbol or eoi waits exactly if there is no text, a literal exactly if the text is a part of it and not all of it, a symbol exactly if there is no text or some key goes on after it, a number exactly if the text is an optional sign and fewer digits than allowed. A tidy pattern without skipper built from them waits exactly if its parts, tried in the order of the grammar, come to one that waits; a repetition of a character exactly if the text has characters of the set only and fewer than allowed. Under a skipper that one character decides, a tidy pattern waits exactly if the pattern with the skipping written out does; under other skippers no verdict comes too early.)", "quantifier": "every leaf pattern and every tidy pattern, without skipper or under a skipper, destination and memory, every text, every cut of it into buffers and every sequence of calls of consume in between, as long as the input has not been declared finished", "why_tests_cant": "The tests of the library look at results of complete texts, where waiting for one character too many makes no difference; and the cuts of a text and the tables of symbols cannot be tried out.", "anchors": ["docs/guide/04_resumable_parsers.md", "include/abulafia/parsers/coroutine/leaf/string_symbol.h", "include/abulafia/parsers/coroutine/leaf/string_literal.h", "include/abulafia/parsers/coroutine/leaf/character.h", "include/abulafia/parsers/coroutine/leaf/char_symbol.h", "include/abulafia/parsers/coroutine/leaf/numeric/uint.h", "include/abulafia/parsers/coroutine/leaf/numeric/int.h", "include/abulafia/parsers/coroutine/leaf/eoi.h", "include/abulafia/parsers/coroutine/nary/sequence.h", "include/abulafia/parsers/coroutine/nary/alternative.h", "include/abulafia/parsers/coroutine/unary/repeat.h", "include/abulafia/parsers/coroutine/binary/list.h", "include/abulafia/parsers/coroutine/adapters/skip.h"]}
{"id": "C81", "title": "A parser object may be moved", "statement": "A parser object made by make_parser that has not answered yet may be moved, for instance into a container; the object in the new place goes on where the old one was.", "quantifier": "for all patterns, destinations, memories, user operations before the move and after it, on the object moved to and on the data source of the object moved from", "why_tests_cant": "The tests never move a parser object, and the failure is undefined behaviour, which depends on whether the object moved from still exists, on the standard library and on where the text was at the move.", "anchors": ["include/abulafia/operations/make_parser.h:22", "include/abulafia/context.h:43", "include/abulafia/data_source/container_sequence.h:37", "include/abulafia/data_source/container_sequence.h:117"]}
{"id": "C82", "title": "peek() foretells consume()", "statement": "Where a parser class has a member function peek(), it returns what consume() of the same object would return at that point, and changes neither the data source nor a destination. An answer other than PARTIAL is the one that the parser comes to, whatever text arrives later.", "quantifier": "every parser class that has peek(), every state of its objects, every content of the data source, every later delivery of text", "why_tests_cant": "No test calls peek() other than through eoi, and whether it agrees with consume() depends on what has arrived of the text at that moment.", "anchors": ["include/abulafia/parsers/coroutine/leaf/eoi.h: EoiImpl::peek", "include/abulafia/parsers/coroutine/leaf/char_symbol.h: CharSymbolImpl::peek", "include/abulafia/parsers/coroutine/unary/not.h: NotImpl::peek", "include/abulafia/parsers/coroutine/unary/optional.h: OptImpl::peek", "include/abulafia/parsers/coroutine/unary/lexeme.h: LexemeImpl::peek", "include/abulafia/parsers/coroutine/leaf/pass.h: PassImpl::peek", "include/abulafia/parsers/coroutine/leaf/fail.h: FailImpl::peek"]}
{"id": "C83", "title": "variant_cat makes the variant of both types", "statement": "variant_cat<L, R>::type can hold exactly the types that L and R can hold (the alternatives of a variant, the type itself otherwise), each of them once, in the order of L and in the order of R, and those of L first if there is nothing in both; is_one_of<T, ARGS...> says whether T is among ARGS.", "quantifier": "all types, nested variants included, and all lists of types put together one after the other", "why_tests_cant": "It is a function on types; tests try a few of them, and there are none.", "anchors": ["include/abulafia/support/variant_utils.h: variant_cat", "include/abulafia/support/type_traits.h: is_one_of"]}
{"id": "C84", "title": "An action is called with what it asks for", "statement": "A function of at most one parameter can be an action (docs/guide/05_actions.md). Without a parameter it is called without arguments; a parameter behaves as the destination of the operand, and the function is given what the operand has written into an object of that type; its result is assigned unless it returns void. A function with a value and an auto parameter is given the bound destination as well. No other functions compile.", "quantifier": "all pointers to functions and all objects with one call operator: const or not, noexcept or not, with any parameters (by value, any kind of reference, auto) of any types, and any result", "why_tests_cant": "It is decided by templates when the program is compiled: a test that exercises a function that is refused does not compile, and a test with a function that is accepted says nothing of others.", "anchors": ["include/abulafia/support/function_traits.h: function_traits", "include/abulafia/parsers/coroutine/unary/action.h: has_incoming_val", "include/abulafia/parsers/coroutine/unary/action.h: determine_landing_type", "include/abulafia/parsers/coroutine/unary/action.h: act_dispatch", "docs/guide/05_actions.md: Taking parameters"]}
{"id": "C85", "title": "The example program answers every line", "statement": "The program in examples/math_expression asks for a line, prints the value of a line that is an arithmetic expression and \"expression parse failure\" for any other line, and starts over. It ends at the first empty line and at the end of the input.", "quantifier": "all inputs, of any number of lines of any length; lines with expressions of any depth, whose values and intermediate values fit the type int", "why_tests_cant": "The program is a loop over an unbounded input and no test runs it; a session by hand shows a few lines.", "anchors": ["examples/math_expression/main.cpp: main", "examples/math_expression/main.cpp: make_binop"]}
{"id": "C86", "title": "Round trip of arithmetic expressions", "statement": "An arithmetic expression, printed with parentheses only where precedence and association to the left require them, is read by the calculator as a whole and evaluated to the value of the expression. If the program is given such expressions line by line it prints their values in order and ends.", "quantifier": "all expressions over integers of any depth with values and intermediate values that fit the type int; all destinations; any number of lines", "why_tests_cant": "Expressions can be nested in unboundedly many ways, and a mistake in precedence or association shows only for some of them.", "anchors": ["examples/math_expression/main.cpp: make_binop", "examples/math_expression/main.cpp: main"]}
{"id": "C87", "title": "Lists and rectangles that were written are read back", "statement": "A list of ints written in decimal notation, separated by commas and in brackets, is read back by the list parser of the README: it succeeds, yields exactly that list and leaves exactly what follows the closing bracket. The same holds of rectangles with two or four numbers and the second parser of the README. Different lists are written differently.", "quantifier": "every list of values of type int of any length, every text after it, any delivery schedule", "why_tests_cant": "There are infinitely many lists, and the one value that cannot be read back is at the end of the range.", "anchors": ["README.md", "tests/documentation/test_readme.cpp", "include/abulafia/parsers/coroutine/leaf/numeric/int.h: IntImpl"]}
