# Formal model of oni-comb-rs in Lean 4

Properties are listed in `properties.jsonl` (C01…). The Lean project is in `lean/`.
`MANIFEST.json` maps properties to theorem names. `seeded/LOG.jsonl` records the
mutation tests; the theorems that failed are the first ones in each module, lemmas included, since the build stops
at modules that import a failed one.

## Trusted base

* Lean 4.33.0's kernel. Theorems may depend on `propext`, `Classical.choice`, `Quot.sound` only.
* The reading of `/repo` that produced the model: the code was never run. Every definition cites
  the file and lines it models.
* Modelling conventions (below).

## Modelling conventions

* `Parser<'a, I, A>` (`Rc<dyn Fn(&ParseState) -> ParseResult>`) is a total Lean function
  `State I → Res I A`. Closures passed by the user (`map` functions, predicates, continuations) are
  pure total functions; a user closure that panics or has side effects is outside the model.
* `Res` has four constructors: `success value length`, `failure error committed`, and two outcomes
  that are not values in Rust: `panic` (the call unwinds: slice out of range, `unwrap` of `None`,
  `RefCell` double borrow, integer overflow or division by zero where modelled) and `diverge` (the
  call never returns).
* `usize` is `Nat`. Lengths and offsets are bounded by the input length (C04), so no overflow can
  occur for inputs that fit in memory.
* `&[I]` is `List I`; slicing `s[a..b]` is an explicit partial operation giving `panic` out of range.
* Loops without a bound (`repeat_sep` without upper bound, `rest_left1`) are defined with an amount
  of fuel computed from the input (remaining length + 2); running out of fuel is `diverge`. That this
  is exact — the loop really runs forever in that case — is itself proved against a step semantics of
  the loop that has no fuel (C14).
* Recursive grammars tied through `lazy` take a recursion depth; theorems state that for every input
  a sufficient depth exists and that results do not depend on it beyond that.
* Texts of `Mismatch`/`Conversion` messages are not modelled (they are `format!`ed debug output);
  labels given to `name`/`expect` are.
* Reference versions (`elm_ref` …) and cloning versions are the same function in the model:
  `Clone` of an element is the identity.

* `crond` (cron parser): the parsers that the code wraps in `cache()` are modelled without cache in `Model/Crond` and
  with all their caches in `Model/CrondCache`; C106 proves that the results are the same. The rounding of instants and the iterator are on integer nanoseconds.
  Local dates (C109) come from any function that satisfies `Clock` (`Spec/Calendar`): the proleptic Gregorian
  calendar with a fixed offset from UTC, or `ZoneClock`, where the offset depends on the instant.

* `toys`: `Rc<Expr>` is the tree; `HashMap` is its lookup function; recursion depth and loop rounds are
  bounded by fuel, `Runs`/`Panics` mean "for some fuel" and more fuel never changes a finished run.
  `i64` arithmetic is exact integer arithmetic followed by an overflow check (panic) or wrap-around,
  depending on the build. Native stack overflow is not modelled. `Display` of `i64` and `bool` (decimal digits without
  leading zeros, `true`/`false`) is modelled, not proved from the standard library.

* The toys parser (`toys/src/parsers.rs`) is modelled completely, without `cache()` and `debug()`; `Model/ToysCache` has the
  caches, and C106 proves that the results are the same. The regular
  expressions are matching functions; `\d` beyond ASCII is a parameter. The string literal is the one of the
  JSON character example, which is the same code. The specification (`Spec/ToysText.lean`) is a grammar of
  relations between trees and texts with a switch `lax`: what the parser returns is in the lax language, what is in
  the strict language is read.

* `uri`: a Rust `String` is the list of its bytes. `FromStr`/`Display` of `std::net::Ipv6Addr` are
  parameters (`Std`); theorems that need it assume `StdOk`: the standard library reads the IPv6 texts of
  the RFC. `exists_stdOk` shows that the assumption can be met.
  `Props/UriIpv6.lean` takes for `Display` the algorithm of the current standard library (`Model/UriIpv6Show.lean`,
  written down from its documentation). `String::from_utf8`, `str::parse` of
  unsigned integers and their `Display` are modelled, and so is the order of `str` (bytewise). The specification (`Spec/Uri.lean`) is the grammar
  of RFC 3986 as predicates on texts.

* `hocon`: a `HashMap` is the list of its entries in iteration order and theorems quantify over the order.
  `rust_decimal::Decimal::from_str`, environment variables and the file system are parameters (`Std`).
  `Display` of `Decimal` is a parameter of the model of `Display` (`Model/HoconDisplay.lean`). Conversions
  between numbers and Rust integers are modelled (`Model/HoconNumber.lean`, after version 1.35 of `rust_decimal`), those
  from and to `f32` and `f64` are not.
  Strings are lists of bytes. The specification is in `Spec/Hocon*.lean`: definitions of keys, descent along
  a path, denotation of references as an inductive relation, and a canonical document text.

* JSON examples (`parser/examples/json_char.rs`, `json_byte.rs`): one model over a `Kind` that holds what
  differs (element type, string construction, hexadecimal digits). `f64::from_str` is a parameter. The
  specification (`Spec/Json.lean`) is the grammar of RFC 8259 as inductive relations between values and texts,
  with a switch `lax` for the two liberties the code takes.

* Grammars with caches (`Model/CacheGrammar.lean`): a parser with `cache` in it is a relation between a state, the
  contents of the caches before, the outcome and the contents after; the addresses in the keys are arbitrary. A cached
  parser that calls itself is not in this model (it is in `Model/Cache.lean`).

* Steps (`Model/Steps.lean`; `Model/JsonSteps.lean` for the JSON examples, `Model/CalcSteps.lean` for the calculator, `Model/UriSteps.lean` for the URI parser and `Model/HoconSteps.lean` for HOCON, where conversions of what has been read are not counted, `Model/CrondSteps.lean` for the cron parser, where `.cache()` is left out; `Spec/CacheTicks.lean` and `Spec/CrondCacheTicks.lean` are the same with all caches and a clock, finding a stored result being one step; what the search of a regular expression and the conversion of a numeral take is not counted): the combinators once more, each with the number of parser runs that it causes. That the
  results are those of the model is proved (`c139_counts`); that the runs are those of the code is part of the model, like
  the definitions they stand beside. Copies of slices, of states and of results are not counted.

* Benchmark grammars (`parser/benches/oni_comb_json.rs`, without the measuring code): with all their caches.
  `f64::from_str` and `String::from_utf8_lossy` are parameters; C105 assumes that the first accepts the numbers of the
  grammar and that the second leaves UTF-8 alone.

* Calculator example (`parser/examples/calculator.rs`): parser and evaluator. `rust_decimal` is a parameter
  (`Std`; an operation that panics is `none`), as are the digits outside ASCII that `\d` matches; the theorems
  assume that `Decimal::from_str` rejects non-ASCII texts. The `panic!` arms of the operator matches are
  unreachable and not modelled. The specification (`Spec/Calculator.lean`) is a left recursive grammar and
  arithmetic terms with a printer that uses minimal parentheses.

* The operators of `Parser` (`internal/parser_impl/*`) are in `Model/Operators.lean`. The methods there only delegate to
  the functions modelled, so they have no definitions of their own, except `surround`, which reorders its arguments.

## Checking the reading

`Verif/Tests/*.lean` run the repository's own unit tests on the model by kernel evaluation: those of the parser
library (`parser/src/lib.rs`, except the one for `regex`, and the examples of its documentation), `crond`, `toys`, `hocon`, the URI model and the calculator
example. They are tests of the model against the expectations of the authors, not proofs of properties, and no claim
in `MANIFEST.json` rests on them. Tests that draw texts from generators are represented by samples where a theorem
does not already cover all texts. All of them pass on the model, except that `test_additive` of the calculator
example expects a tree that the code does not build (`cargo test` does not run tests of examples by default).

## Not modelled

* `log`/`debug` printing itself, `Rc`/lifetimes, memory exhaustion, stack overflow. Of performance, numbers of steps or calls are
  counted in the claims that say so (up to C152) and the depth of nested calls in C153; time and the native stack are not modelled.
* The `regex` crate. The parser `regex` is modelled twice: with any engine that returns a matched prefix as a
  parameter, and with an engine of our own for the usual operators (`Model/Regex.lean`: leftmost match, greedy,
  alternatives tried in order), which represents the crate on the expressions it covers. `chrono` (date-time
  fields are parameters; day numbers use the proleptic Gregorian formula), `std::net::Ipv6Addr`
  text conversions (its `Display` has a model, see `uri` above), `f64` parsing/printing, the file system (`include` in hocon), `println!` output.
* Of the second trait implementation `ParserParsers` in `core/parsers.rs` only the functions that differ, `parse` and
  `filter`, are modelled (`Model/ParserParsers.lean`).

## Plan per property

| id | what is modelled | how it is proved |
|----|------------------|------------------|
| C01–C03, C07–C11, C20, C27, C28, C30, C34 | the combinator functions, one Lean function each | case analysis on outcomes, equality of parsers as functions |
| C04–C06 | an inductive closure `Built` of parsers under all primitives/combinators | induction over the way a parser is built, loop invariants |
| C12–C16 | `repeat_sep` loop | induction on the loop; independent inductive spec of "maximal run"; step semantics for termination |
| C117, C118 | operators of `Parser` (`Model/Operators`, `Spec/Operators`) | equality of parsers as functions; induction over terms of operators |
| C17–C19 | `rest_left1` recursion | independent inductive spec of operator chains, fold |
| C21–C26 | element / elements / taken parsers, `Element` impls | list lemmas; whole-domain table for bytes, arithmetic for chars |
| C29 | collect | slices |
| C31 | cache as a state machine over call histories | invariant over histories; witness for the collision |
| C32, C33 | error excerpt, regex with abstract engine and with a backtracking engine (`Model/Regex`) | soundness and completeness of the engine for a matching relation (`Spec/Regex`), theorems about where the added `^` binds |
| C35–C37 | crond grammar written with the modelled combinators | per field inversion/round-trip lemmas; structural induction on lists |
| C38, C39 | evaluator | refinement to set membership; witness for weekday and step 0 |
| C40, C41 | iterator as state machine on minutes | invariant over number of `next` calls |
| C42 | day-number formula | arithmetic |
| C43–C48 | toys interpreter with fuel, environment chain | structural/fuel induction; witnesses |
| C49–C54, C68–C71 | uri grammar and Display functions, printed IPv6 addresses (`Model/UriIpv6Show`) | inversion lemmas for the grammar; witnesses |
| C55–C61 | hocon value operations, key scanner, numbers, durations | structural induction; witnesses |
| C85–C95 | hocon loader from text to `get_value`, strings with escapes, file system and environment as parameters (`World`) | composition of the text, merge and resolution theorems; predicates kept by every parser (`Yields`, `Calm`, `Live`) by induction on the grammar |
| C88 | documents with dotted keys (`Lemmas/HoconDotted`) | the layouts of C97 followed by the expansion of dotted keys (C57); no overlapping keys, no references |
| C96–C98 | hocon documents with free layout (`Spec/HoconLayout`), concatenations, JSON texts | mutual induction over the grammar of documents; exact traces of the misread documents |
| C98 (texts that are read) | JSON values as configuration values, JSON texts with white space (`Spec/HoconJson`) | the texts lie in the layout grammar and in the grammar of the RFC: induction over JSON values and mutual induction over texts |
| C99 | `Display` of configuration values (`Model/HoconDisplay`) | the printer lies in the layout grammar; exact trace of the misread brace |
| C100 | accessors (`Model/HoconAccess`) | composition with C97, C98 and C61 |
| C101 | `parse_from_string` with the excerpt for the error message | `config` never fails, so that `end` is the only source of errors |
| C102, C32 | errors with text and offsets (`Spec/Errors`) | induction over the way a parser is built, loop invariants |
| C103 | `ParserParsers` | case analysis on outcomes |
| C107, C108 | methods of `ParseResult` and `ParseError` (`Model/ParseResult`) | case analysis; induction over nested errors |
| C109 | schedules on the calendar (`Spec/Calendar`) | day numbers of dates are injective and cover all days; a year of either length follows within eight years |
| C106 | crond and toys grammars with all their caches | store invariants, length of what a cached parser and an operator take |
| C31 (grammars), C104, C105 | grammars with caches as relations over stores (`Spec/CacheGrammar`), benchmark grammars | invariant of the stores by induction over the grammar; a guarded copy of the grammar shows that no cache is asked at offsets 0 and 1; exact traces of string literals |
| C110 | `Monoid::combine` (`Spec/HoconCombine`) | chains as lists of definitions; exact condition for associativity |
| C111, C112 | order of queries, text of paths | composition with the round trips of C54 and the path grammar |
| C119 | shape of parsed documents (`Spec/HoconShape`) | a predicate kept by every parser of the grammar |
| C87, C59 (any parsed text) | what values stand for (`Spec/HoconExpand`), answers (`Spec/HoconAnswers`) | the first pass refines the relation, mutual induction over values; composition with C119 and the resolution theorems |
| C120 | optional references behind other definitions | composition with C97; direct computation for the chain of three definitions |
| C121 | the path parsers that URIs do not use (`Model/UriPath`, `Spec/UriPath`) | inversion lemmas; the paths of the RFC are the texts of path characters |
| C122 | conversions between integers and numbers (`Model/HoconNumber`, `Spec/HoconNumber`) | arithmetic; composition with C97 and C100 |
| C123 | toys states that agree on the mentioned variables (`Spec/ToysNames`) | simulation of two runs, induction on the fuel |
| C124 | renamed toys programs (`Spec/ToysNames`) | the same simulation, definitions by induction on their list |
| C125 | scope of a call in toys | instance of C123; violation by computation for all states |
| C126 | orders of the maps of a document | relation `Same` kept by lookup, resolution (induction on its depth), merge; written out dotted keys determined by the set of paths (`Tree`) |
| C127 | functions called in an expression and reached (`Spec/ToysFunctions`) | two configurations that agree on the reached functions, induction on the fuel; definitions by induction on their list |
| C128 | pairs of parsers assembled alike (`Spec/Twins`) | relational induction over the way they are assembled; the equations are the instances for graphs of functions |
| C129 | parsing expression grammars, their derivations and their parsers (`Spec/Peg`) | soundness by induction on the unrolling and the expression, completeness by induction on the derivation |
| C130 | the same grammars, conditions on them (`NoIdleLoop`, `NoLeftRecursion` in `Spec/Peg`) | induction on the length of the text, the order of the rules and the expression |
| C131 | the same grammars without `attempt`, with `flat_map` or `+` (`bareOf`; condition `Predictive` in `Spec/Peg`) | comparison with the parser of C129 by induction: where it fails committed, the next element rules out the other alternative |
| C132 | interpreter and `call_main` against a big-step semantics with errors (`Exec` in `Spec/ToysMeaning`), one store per function; debug build (overflow panics) | completeness by induction on the execution, soundness by induction on the fuel; invariant `Scope`: nothing a function uses is visible from outside |
| C133 | the same semantics with a type system (`Typed` in `Spec/ToysTypes`: contexts of variables set for sure) | type soundness by induction on the execution, transferred to the interpreter by C132; parts the execution comes to (`Comes`) |
| C134 | `Counting`, `Simple`, `NoRecursion` in `Spec/ToysEnds` | all integers stay in 64 bits (fuel induction); loops by the distance to the bound; functions by the number of functions that are reached |
| C135 | the grammars of C131 read as context-free grammars (`Lang`, `LL1` in `Spec/PegLanguage`) | soundness by fuel induction; where the next element is foreign nothing is read (well-founded induction on left calls); completeness by induction on the derivation; answers by induction on the rest of the text |
| C136 | expression parsers for a table of operators (`Spec/OperatorTable`), levels written with `chain_left1` and `rest_right1` | soundness by induction on unrolling and level; completeness by induction on the derivation, with the chain an expression of a left level is; printed trees are derivable |
| C137 | calls of a cached parser in which the wrapped parser runs (`cacheRuns`, `cacheAfter` in `Model/Cache`) | which keys the map has after a history, by induction on the history; violated for every parser by calls from different addresses |
| C138 | error offsets of LL(1) grammars, specification `Spec/ErrorPosition` (`Viable`, `FirstWrong`) | induction on the unrolling and the expression, with what a success and a failure say about all texts of the language; sequences are divided in one way only (C135); violated for repeated and optional items, `of_many1`, `seq` and `+`; never too late in any grammar |
| C139 | number of steps, `Model/Steps` (the combinators, counting runs of parsers without parts and of lazy parsers) and `Spec/PegSteps` (grammars in three writings, counted) | the counted parsers are proved to be the parsers, and the steps to be what a clock shows that the parsers without parts advance while the combinators with a store run (`Spec/PegTicks`); a part that cannot start with the next element costs a constant (weights by recursion on the absence of left recursion), every element read costs at most a constant, and after a failure inside a part everything that follows misses; a grammar outside LL(1) that takes 2^k steps |
| C140 | `Spec/ToysRewrite`: expressions that do the same in every situation, replacement of parts at any depth | a run with replaced parts and replaced functions is simulated by a run of the original (induction on the fuel), in both directions; the laws by the same simulation; expressions with effects that must not be moved |
| C141 | pairs of parsers assembled alike for two types of elements (`Spec/Recoded`) | relational induction over the way they are assembled, with the text translated element by element; bytes and characters with the same code are in the same classes; a character outside ASCII is several bytes |
| C142 | parsers and two texts that agree for the next elements (`Spec/Lookahead`) | four degrees of dependence (success only, success and failures after which another parser is tried, success and failures, everything), one rule for each way of assembling; texts that differ arbitrarily far ahead for the violations |
| C143 | texts of fields that may be put for each other in every expression (`Spec/CrondSame`) | the answer depends on a field only through what `visit` says of it; equality of sets of values; first of January for the violations |
| C144 | number of steps of the two examples, `Model/JsonSteps` (the parsers of `Model/Json` written with the counted combinators); for the clock `Spec/JsonTicks` (the same with the combinators that change a store) | the counted parsers are proved to be the parsers and the steps to be what the clock shows; a part is fair (`Lemmas/Fair`) if its steps are bounded by a multiple of the elements it takes, and in case of a failure that lets another alternative run, by a constant and a multiple of what it cannot give back; alternatives are told apart by their first element, so that only escapes in strings are read twice, by a bounded number |
| C145 | number of steps of the calculator, `Model/CalcSteps` (the parsers of `Model/Calculator` written with the counted combinators; `regex` takes one step for every character that it copies, `String::from_iter`, elements_parsers_impl.rs:93); for the clock `Spec/CalcTicks` | the counted parsers are proved to be the parsers and the steps to be what the clock shows; by induction on the depth, an operand takes a multiple of what it reads and may besides look once at the blanks behind it, as do products and sums (once for each of the two operators), whose blanks are charged to what reads them next; violated: in a sum of ones each addend copies all that follows, a sum of odd numbers |
| C146 | number of steps of the cron parser, `Model/CrondSteps` (the parsers of `Model/Crond` written with the counted combinators, without `.cache()`); for the clock `Spec/CrondTicks`, with the caches `Spec/CrondCacheTicks` | the counted parsers are proved to be the parsers and the steps to be what the clock shows; every field is fair (`Lemmas/Fair`): a value has bounded length, so a range that turns out to be a number is given back at bounded cost, and items of a list are paid by what they take; with caches, the store invariant of C106 together with the clock (`Lemmas/CacheTicks`) |
| C147 | number of steps of the URI parser, `Model/UriSteps` (the parsers of `Model/Uri` written with the counted combinators); for the clock `Spec/UriTicks` | the counted parsers are proved to be the parsers and the steps to be what the clock shows; outside of loops each part takes a multiple of what is left (`Lemmas/Lin`), so that reading a part again adds to the multiple; the items of loops (characters, segments, parameters) pay with what they take (`Lemmas/Fair`), for parameters because the text of a value is always valid UTF-8 |
| C148 | grammars with caches and a clock (`Spec/CacheTicks`, `Spec/CacheSteps`: the combinators of `Model/CacheGrammar`; the grammar without caches is counted as in `Model/Steps`) | the invariant of the stores of C31 together with the clock, by induction over the grammar; behind the first element, so that the keys of different places differ |
| C149 | number of steps of the HOCON parser, `Model/HoconSteps` (the parsers of `Model/HoconParse` written with the counted combinators); for the clock `Spec/HoconTicks` | the counted parsers are proved to be the parsers and the steps to be what the clock shows; lower bound by induction over the number of lines `key={` that follow: an object attempt reads each of them as a property, whose value is in turn first tried as an object, and fails at the end of the text or at a line that is no property (`include`, `+=`, a stray `]`), whether or not braces are closed behind it. Upper bound for the documents of `Spec/HoconText`, with and without comments: a parser that does not refer to itself takes at most `K * (left + 1) ^ 3` steps (each repetition raises the exponent by one), and by induction over the literal a value takes at most twelve times its length as many, since each alternative that is tried before the right one is refused at its first byte |
| C150 | parsers without recursion and the same with a clock, `Spec/Plain` over the combinators of `Model/CacheGrammar`; the steps are counted with `Model/Steps` | induction over how the parser is put together; a repetition without upper bound raises the exponent by one, one with an upper bound only the factor; the exponent is reached by `many0(elm_any >> peek(many0(…)))` on texts of `d * m` elements, which need `m ^ d` steps |
| C151 | the parser of C136 and the same with a clock, `Spec/OperatorTicks`; the textbook writing `E ::= T op E \| T` with `attempt`, also there | amortised bound: a level that succeeds pays its steps out of the elements it takes, one that fails softly takes a constant number, one that fails hard ends the run; for the textbook induction over the brackets, each pair is read twice |
| C152 | `program`, `function_definition`, `line`, `r#if`, `r#while`, `r#for` and `block` of toys with a clock that counts the calls of `r#if`, `Spec/ToysTicks`; without caches, every `r#if` having new ones | induction over the open blocks: the statement behind `else` is read for the inner and for the outer `if`; that it is wrong for lack of a brace follows from C76 (what is read is a statement) and C79 (there always is an answer) |
| C153 | the combinators of `Model/CacheGrammar` with the stack as store: `frame` counts a call of a closure and its return, `Spec/Depth` | upper bound by induction over how a parser has been made, for all turns of loops; lower bound by induction over the operators of a chain |
| C116 | scheme and `is_absolute` | what is read in front of the fragment has no number sign; the first colon ends the scheme |
| C113 | the program of `toys/src/main.rs` | composition of the text, loop and interpreter theorems |
| C114, C115 | `Display` of toys values, `reset` | prefix codes by induction over values; output is only appended, by fuel induction |
| C64–C66 | toys interpreter | fuel induction |
| C62, C72–C74 | JSON example grammars with recursion depth | soundness by induction on the depth, completeness by mutual induction on the grammar |
| C63, C75 | calculator example grammar with recursion depth | induction on the depth; left recursion turned into lists of operands; induction on arithmetic terms |
| C76–C84 | toys grammar with recursion depth | soundness and completeness by induction on the depth; C81 and C83 composed with the interpreter theorems; induction on the length of the text for C80 |

Where the code violates the property, a theorem named `…_violated` proves the negation with a
concrete witness and the part that does hold is proved under a name ending in `_partial`.
