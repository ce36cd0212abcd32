{"id": "C01", "title": "Ordered choice backtracks exactly on uncommitted failure", "statement": "`p.or(q)` (`p | q`) returns exactly what `q` returns when run at the same position if `p` fails uncommitted, and exactly what `p` returns otherwise (success or committed failure). Choice is associative, an always-uncommitted-failing parser is its left unit, and a parser that never fails uncommitted is a left zero.", "quantifier": "all parsers p, q, r, all inputs, all start offsets", "why_tests_cant": "Parsers are arbitrary functions; a test fixes particular parsers and texts, the laws are about every pair and every commit status.", "anchors": ["parser/src/internal/parsers_impl/operator_parsers_impl.rs:or", "parser/src/core/committed_status.rs", "parser/src/core/parse_result.rs"]}
{"id": "C02", "title": "Monad laws of flat_map and successful", "statement": "`successful(a).flat_map(f)` behaves as `f(a)`, `p.flat_map(successful)` behaves as `p`, and `p.flat_map(f).flat_map(g)` behaves as `p.flat_map(|x| f(x).flat_map(g))`: same value, same consumed length, same error and same committed status.", "quantifier": "all parsers p, all continuations f and g, all inputs and offsets", "why_tests_cant": "Refactoring grammars relies on the laws for all continuations; commit-status bookkeeping (`length != 0`) differs between the two nestings and only a proof covers every combination of zero and non-zero consumption.", "anchors": ["parser/src/internal/parsers_impl.rs:flat_map", "parser/src/internal/parsers_impl.rs:successful", "parser/src/core/parse_result.rs:add_commit", "parser/src/core/parse_result.rs:advance_success"]}
{"id": "C03", "title": "Functor laws of map and agreement with flat_map", "statement": "`p.map(id)` behaves as `p`, `p.map(f).map(g)` as `p.map(g . f)`, and `p.map(f)` as `p.flat_map(|a| successful(f(a)))`; map never changes consumption, error or committed status.", "quantifier": "all parsers, all functions, all inputs and offsets", "why_tests_cant": "Quantifies over all functions and all outcomes of p.", "anchors": ["parser/src/internal/parsers_impl.rs:map", "parser/src/internal/parsers_impl.rs:flat_map"]}
{"id": "C04", "title": "A success never consumes past the end of the input", "statement": "Every parser assembled from the public primitives and combinators (without `regex` and without hand written `Parser::new`) that is started inside the input and succeeds has consumed a number of elements that lies inside the input.", "quantifier": "all parsers assembled from the combinators with arbitrary pure closures, all inputs, all in-range offsets", "why_tests_cant": "The set of assembled parsers is infinite and nests without bound; needs induction over the way a parser is built.", "anchors": ["parser/src/core/parse_state.rs:advance_by", "parser/src/internal/parsers_impl/", "parser/src/internal/parsers_impl.rs"]}
{"id": "C05", "title": "Assembled parsers never panic inside the library", "statement": "A parser assembled from the public primitives and combinators, started inside the input, never makes the library index or slice out of range: it returns Success or Failure (or loops), it does not panic.", "quantifier": "all assembled parsers with pure total closures, all inputs, all in-range offsets", "why_tests_cant": "The slice operations are guarded only by arithmetic on lengths returned by nested parsers; unbounded nesting.", "anchors": ["parser/src/core/parse_state.rs:input", "parser/src/core/parse_state.rs:slice_with_len", "parser/src/internal/parsers_impl/taken_parsers_impl.rs"]}
{"id": "C06", "title": "Position independence", "statement": "Running a parser at offset k of an input gives the same value, consumed length and success/failure/commit outcome as running it at offset 0 of the input with the first k elements removed (error offsets shift, values of `last_offset`/`next_offset` excepted).", "quantifier": "all assembled parsers without position-observing primitives, all inputs, all k", "why_tests_cant": "Relates two runs of an arbitrary nested parser at every offset.", "anchors": ["parser/src/core/parse_state.rs", "parser/src/core/parser_runner.rs", "parser/src/internal/parsers_impl/"]}
{"id": "C07", "title": "Sequencing composes values and consumption left to right", "statement": "`p.and_then(q)` (`p + q`), `p.skip_left(q)` (`p * q`), `p.skip_right(q)` (`p - q`), `q.surround(l, r)` succeed exactly if each part succeeds where the previous part stopped; the consumed length is the sum, the value is the pair / right / left / middle value; and_then is associative up to re-pairing.", "quantifier": "all parsers, inputs, offsets", "why_tests_cant": "All combinations of part outcomes and lengths.", "anchors": ["parser/src/internal/parsers_impl/operator_parsers_impl.rs:and_then", "parser/src/internal/parsers_impl/skip_parser_impl.rs"]}
{"id": "C08", "title": "Sequencing commits after consumption", "statement": "Once the first part of a sequence has consumed at least one element, a failure of the rest is committed so that an enclosing `|` does not silently try another branch. (Holds for flat_map; the code violates it for and_then, skip_left, skip_right, surround.)", "quantifier": "all parsers p, q, inputs, offsets", "why_tests_cant": "The commit status is visible only through arbitrary enclosing alternatives.", "anchors": ["parser/src/internal/parsers_impl.rs:flat_map", "parser/src/internal/parsers_impl/operator_parsers_impl.rs:and_then", "parser/src/internal/parsers_impl/skip_parser_impl.rs"]}
{"id": "C09", "title": "attempt makes every failure recoverable and changes nothing else", "statement": "`p.attempt()` never fails committed, has the same successes and the same errors as p, is idempotent, and `p.attempt().or(q)` always runs q when p fails.", "quantifier": "all parsers, inputs, offsets", "why_tests_cant": "Quantifies over all parsers and commit statuses.", "anchors": ["parser/src/internal/parsers_impl/operator_parsers_impl.rs:attempt", "parser/src/core/parse_result.rs:with_uncommitted"]}
{"id": "C10", "title": "opt always succeeds and reports whether the parser matched", "statement": "`p.opt()` never fails; it yields Some(v) with p's consumption if p succeeds with v and None consuming nothing if p fails (even committed).", "quantifier": "all parsers, inputs, offsets", "why_tests_cant": "All parsers including committed failures after partial consumption.", "anchors": ["parser/src/extension/parsers/operator_parsers.rs:opt"]}
{"id": "C11", "title": "Lookahead consumes nothing", "statement": "A success of `p.peek()`, `p.exists()` or `p.not()` consumes zero elements; peek returns p's value, exists returns whether p succeeds and never fails, not succeeds exactly when p fails and fails only uncommitted; exists and not are complementary.", "quantifier": "all parsers, inputs, offsets", "why_tests_cant": "All parsers and positions.", "anchors": ["parser/src/internal/parsers_impl/peek_parsers_impl.rs", "parser/src/internal/parsers_impl/operator_parsers_impl.rs:not", "parser/src/internal/parsers_impl/operator_parsers_impl.rs:exists"]}
{"id": "C12", "title": "many0 collects the maximal run and never fails", "statement": "`p.of_many0()` never fails: it returns, in order, the values of the maximal sequence of consecutive successes of p and consumes the sum of their lengths; p fails at the position where it stops.", "quantifier": "all parsers p, inputs, offsets", "why_tests_cant": "Unbounded number of repetitions.", "anchors": ["parser/src/internal/parsers_impl/repeat_parsers_impl.rs:repeat_sep", "parser/src/internal/parsers_impl/repeat_parsers_impl.rs:many0"]}
{"id": "C13", "title": "many1 requires one element and equals p followed by many0", "statement": "`p.of_many1()` fails (uncommitted) exactly if p does not succeed at the start position and otherwise returns the same list and consumption as p followed by `p.of_many0()`.", "quantifier": "all parsers p, inputs, offsets", "why_tests_cant": "Unbounded number of repetitions.", "anchors": ["parser/src/internal/parsers_impl/repeat_parsers_impl.rs:many1"]}
{"id": "C14", "title": "Repetition terminates for parsers that make progress and only those", "statement": "Unbounded repetition of p (with optional separator s) terminates on every input if p (or s) never succeeds without consuming; if the element and separator succeed at some reached position without consuming, the repetition never terminates.", "quantifier": "all parsers, inputs, offsets, iteration counts", "why_tests_cant": "Termination and non-termination cannot be observed by tests.", "anchors": ["parser/src/internal/parsers_impl/repeat_parsers_impl.rs:repeat_sep"]}
{"id": "C15", "title": "Repetition counts respect the given range", "statement": "A success of `p.repeat(range)` / `of_many_n_m` / `of_count` (with or without separator) holds a number of elements inside the range; a failure is reported only if fewer elements than the lower bound could be matched. (The code violates the upper bound when it excludes one element: `..=0`, `0..1`, `of_count(0)`.)", "quantifier": "all parsers, all ranges, inputs, offsets", "why_tests_cant": "Arbitrary bounds and unbounded repetition.", "anchors": ["parser/src/internal/parsers_impl/repeat_parsers_impl.rs:repeat_sep", "parser/src/utils/range.rs"]}
{"id": "C16", "title": "Separated repetition consumes elements alternating with separators", "statement": "The text consumed by `of_many0_sep`/`of_many1_sep` is element (separator element)*, i.e. it never ends in a separator. (The code violates this: a trailing separator is consumed.) In every case the text is element (separator element)* optionally followed by one separator after which no element matched.", "quantifier": "all element and separator parsers, inputs, offsets", "why_tests_cant": "Unbounded lists; which prefix is consumed depends on arbitrary parsers.", "anchors": ["parser/src/internal/parsers_impl/repeat_parsers_impl.rs:repeat_sep"]}
{"id": "C17", "title": "chain_left1 is a left fold over the operator chain", "statement": "`p.chain_left1(op)` reads p (op p)* and its value is the left-to-right fold of the operators over the operands; an operator followed by a failing operand is a committed failure when the operator consumed input and otherwise ends the chain before the operator.", "quantifier": "all operand/operator parsers, inputs, offsets, chain lengths", "why_tests_cant": "Chains are unbounded.", "anchors": ["parser/src/internal/parsers_impl/operator_parsers_impl.rs:chain_left1", "parser/src/internal/parsers_impl/operator_parsers_impl.rs:rest_left1"]}
{"id": "C18", "title": "chain_right1 associates to the right", "statement": "`p.chain_right1(op)` (also scan_right1) combines operands from the right: `a op b op c` means `a op (b op c)`. (The code violates this: it associates to the left; the value is the right fold only for associative operators.)", "quantifier": "all operand/operator parsers, inputs, offsets, chain lengths", "why_tests_cant": "Chains are unbounded; for associative operators tests cannot see the difference.", "anchors": ["parser/src/internal/parsers_impl/operator_parsers_impl.rs:chain_right1", "parser/src/internal/parser_impl/operator_parser_impl.rs:scan_right1"]}
{"id": "C19", "title": "rest_right1 continues the chain", "statement": "`p.rest_right1(op, x)` continues with every following operator/operand pair. (The code violates this: it applies at most one operator.)", "quantifier": "all operand/operator parsers, inputs, offsets", "why_tests_cant": "Chains are unbounded.", "anchors": ["parser/src/internal/parsers_impl/operator_parsers_impl.rs:rest_right1"]}
{"id": "C20", "title": "chain_left0/chain_right0 never lose the default", "statement": "`p.chain_left0(op, x)` returns the chain value when a chain is present, and the default x without consuming when p fails uncommitted at the start.", "quantifier": "all parsers, inputs, offsets", "why_tests_cant": "All parsers and commit statuses.", "anchors": ["parser/src/extension/parsers/operator_parsers.rs:chain_left0", "parser/src/extension/parsers/operator_parsers.rs:chain_right0"]}
{"id": "C21", "title": "take_while takes the longest matching prefix", "statement": "`take_while0(f)`, `take_while1(f)`, `take_while_n_m(n,m,f)` return the longest prefix of the remaining input whose elements satisfy f. (The code violates this as soon as a matching element follows a non-matching one.)", "quantifier": "all predicates, inputs, offsets", "why_tests_cant": "All predicates and inputs.", "anchors": ["parser/src/internal/parsers_impl/taken_parsers_impl.rs:take_while0", "parser/src/internal/parsers_impl/taken_parsers_impl.rs:take_while1", "parser/src/internal/parsers_impl/taken_parsers_impl.rs:take_while_n_m"]}
{"id": "C22", "title": "take_till stops right after the first matching element", "statement": "`take_till0(f)` returns the remaining input up to and including the first element satisfying f, or all of it if there is none; `take_till1` agrees but fails Incomplete if there is none.", "quantifier": "all predicates, inputs, offsets", "why_tests_cant": "All predicates and inputs.", "anchors": ["parser/src/internal/parsers_impl/taken_parsers_impl.rs:take_till0", "parser/src/internal/parsers_impl/taken_parsers_impl.rs:take_till1"]}
{"id": "C23", "title": "take and skip are exact", "statement": "`take(n)` succeeds exactly if n elements remain, returning precisely those and consuming n; `skip(n)` succeeds under the same condition and consumes n; take(n) followed by take(m) reads the same text as take(n+m).", "quantifier": "all n, m, inputs, offsets", "why_tests_cant": "All counts and inputs.", "anchors": ["parser/src/internal/parsers_impl/taken_parsers_impl.rs:take", "parser/src/internal/parsers_impl/skip_parser_impl.rs:skip"]}
{"id": "C24", "title": "seq and tag match exactly a literal prefix", "statement": "`seq(s)`/`tag(s)` succeed exactly if s is a prefix of the remaining input and then consume exactly |s|; `tag_no_case` does so up to letter case; a failure is committed exactly if at least one but not all elements matched before a differing element was found, and running out of input is always an uncommitted Incomplete.", "quantifier": "all literals, inputs, offsets", "why_tests_cant": "All literals and inputs.", "anchors": ["parser/src/internal/parsers_impl/elements_parsers_impl.rs"]}
{"id": "C25", "title": "Element parsers accept exactly one element of their set", "statement": "`elm`, `elm_of`, `elm_in`, `elm_from_until`, `none_of`, `elm_pred`, `elm_any` succeed exactly if an element remains and belongs to the specified set (inclusive/exclusive end respected), return it and consume exactly one; all their failures are uncommitted.", "quantifier": "all sets, ranges, predicates, inputs, offsets", "why_tests_cant": "All sets and inputs.", "anchors": ["parser/src/internal/parsers_impl/element_parsers_impl.rs", "parser/src/extension/parsers/element_parsers.rs", "parser/src/utils/set.rs"]}
{"id": "C26", "title": "Character classes agree with ASCII for every byte and character", "statement": "The predefined classes (alpha, digit, hex digit, alphanumeric, space, multi space, digit 1-9) contain exactly the ASCII characters their name says, for u8 and char, and both element types agree on ASCII. (The code violates this for octal digits, which include '8', and `is_ascii_digit_non_zero`, which includes non-digits.)", "quantifier": "all bytes and all Unicode scalar values", "why_tests_cant": "Whole-domain claim over 1.1 million characters.", "anchors": ["parser/src/core/element.rs", "parser/src/lib.rs:elm_digit_1_9", "parser/src/lib.rs:elm_oct_digit"]}
{"id": "C27", "title": "filter succeeds exactly on accepted values", "statement": "`p.with_filter(f)` succeeds with v exactly if p succeeds with v and f(v); rejected values give an uncommitted failure located right after the rejected text; with_filter_not is the complement: for every success of p exactly one of the two succeeds.", "quantifier": "all parsers, predicates, inputs, offsets", "why_tests_cant": "All parsers and predicates.", "anchors": ["parser/src/internal/parsers_impl.rs:filter", "parser/src/core/parser_filter.rs"]}
{"id": "C28", "title": "Conversions keep consumption and fail uncommitted", "statement": "`p.map_res(f)`/`p.map_opt(f)` succeed with w exactly if p succeeds with some v and f converts v to w, with p's consumption; a failed conversion is an uncommitted Conversion failure; failures of p pass unchanged.", "quantifier": "all parsers, conversion functions, inputs, offsets", "why_tests_cant": "All parsers and functions.", "anchors": ["parser/src/internal/parsers_impl/conversion_parsers_impl.rs"]}
{"id": "C29", "title": "collect returns exactly the consumed text", "statement": "A success of `p.collect()` returns the slice of the input p consumed; concatenating the collected texts of sequenced parsers gives the text consumed by the sequence.", "quantifier": "all parsers, inputs, offsets", "why_tests_cant": "All parsers, all nested compositions.", "anchors": ["parser/src/internal/parsers_impl/collect_parsers_impl.rs", "parser/src/core/parse_state.rs:slice_with_len"]}
{"id": "C30", "title": "Naming, expecting and logging do not change what is parsed", "statement": "`p.name(n)`, `p.expect(n)`, `p.log(..)`, `p.debug(..)` and lazily built parsers have the same successes, the same failures and the same committed status as p; only error payloads are wrapped, and naming keeps the innermost custom error.", "quantifier": "all parsers, labels, inputs, offsets", "why_tests_cant": "All parsers.", "anchors": ["parser/src/internal/parsers_impl/logging_parsers_impl.rs", "parser/src/internal/parsers_impl/lazy_parsers_impl.rs"]}
{"id": "C31", "title": "Caching is transparent", "statement": "`p.cache()` returns, for every call in every sequence of calls, what p returns. (The code violates this: the key identifies offsets 0 and 1 and uses the address of the state, and a recursive use of the cached parser panics; it is transparent for histories in which equal keys mean equal states.)", "quantifier": "all pure parsers, all finite call histories, all address assignments", "why_tests_cant": "Depends on the whole history of calls and on the addresses the allocator/stack hands out.", "anchors": ["parser/src/internal/parsers_impl/cache_parsers_impl.rs"]}
{"id": "C32", "title": "Error input excerpt is available for every returned error", "statement": "`ParseError::input()`/`input_string()` of an error returned by a parser yields an excerpt and does not panic. (The code violates this: excerpt bounds are absolute while the stored slice is relative.)", "quantifier": "all errors returned by element parsers, inputs, offsets", "why_tests_cant": "All inputs and positions.", "anchors": ["parser/src/core/parse_error.rs:input", "parser/src/internal/parsers_impl/element_parsers_impl.rs"]}
{"id": "C33", "title": "regex consumes what it matched", "statement": "`regex(re)` succeeds exactly if the expression matches at the current position, returns the matched text and consumes exactly the matched characters. (The code violates this for non-ASCII matches, where it consumes the UTF-8 byte length, and for expressions with alternatives at the top level, where every alternative but the first can match further on: the text in front of the match is skipped but not counted.)", "quantifier": "all expressions (modelled engine) and all engines that match a prefix, inputs, offsets", "why_tests_cant": "All texts, all expressions.", "anchors": ["parser/src/internal/parsers_impl/elements_parsers_impl.rs:regex"]}
{"id": "C34", "title": "end and whole-input parsing", "statement": "`(p - end()).parse(input)` succeeds exactly if p succeeds consuming all of the input.", "quantifier": "all parsers, inputs", "why_tests_cant": "All parsers and inputs.", "anchors": ["parser/src/internal/parsers_impl/primitive_parsers_impl.rs:end"]}
{"id": "C35", "title": "Cron parser accepts every canonical expression and returns its tree", "statement": "For every cron expression tree whose values lie in the field ranges, parsing its canonical text `min hour day month dow` returns exactly that tree.", "quantifier": "all well-formed expression trees (lists of any length)", "why_tests_cant": "Infinite set of expressions, lists unbounded.", "anchors": ["crond/src/cron_parser.rs"]}
{"id": "C36", "title": "Cron parser only produces in-range values", "statement": "Whatever text is accepted, every number in the resulting tree lies in its field's range (minutes 0-59, hours 0-23, days 1-31, months 1-12, weekdays 1-7) and the tree has the documented shape.", "quantifier": "all character sequences", "why_tests_cant": "All inputs.", "anchors": ["crond/src/cron_parser.rs"]}
{"id": "C37", "title": "Cron parsing never panics or loops", "statement": "`CronParser::parse` returns Ok or Err for every string.", "quantifier": "all strings", "why_tests_cant": "All inputs; termination.", "anchors": ["crond/src/cron_parser.rs"]}
{"id": "C38", "title": "Evaluation matches cron semantics", "statement": "An accepted expression is satisfied by a date-time exactly if minute, hour, day of month, month and day of week each belong to the set denoted by their field. (The code violates this for day of week, which is compared with the minute, for */k in fields that start at 1, and for ranges that contain L.)", "quantifier": "all accepted expressions, all date-times", "why_tests_cant": "All expressions and all times.", "anchors": ["crond/src/cron_evaluator.rs", "crond/src/cron_specification.rs"]}
{"id": "C39", "title": "Evaluation never panics", "statement": "Evaluating an accepted expression never panics. (The code violates this for a step of 0, which the grammar accepts.)", "quantifier": "all accepted expressions, all date-times", "why_tests_cant": "All expressions and all times.", "anchors": ["crond/src/cron_evaluator.rs:visit"]}
{"id": "C40", "title": "Schedule iteration is sorted, sound and complete", "statement": "`upcoming` yields date-times in strictly increasing order, each satisfying the expression, and no satisfying minute-aligned time from the start on is skipped.", "quantifier": "all specifications, start times, number of items taken", "why_tests_cant": "Unbounded iteration.", "anchors": ["crond/src/cron_interval_iterator.rs", "crond/src/cron_schedule.rs", "crond/src/cron_interval.rs"]}
{"id": "C41", "title": "Bounded schedule iteration stays inside the interval", "statement": "Iterating a closed interval yields exactly the satisfying minutes between its ends. (The code violates this: the first item after the end can be yielded.)", "quantifier": "all specifications, intervals", "why_tests_cant": "Unbounded iteration, all boundary alignments.", "anchors": ["crond/src/cron_interval_iterator.rs:next", "crond/src/cron_interval.rs"]}
{"id": "C42", "title": "Days of a month", "statement": "`get_days_from_month(y, m)` is the Gregorian length of month m in year y; for December of the last year chrono can represent the call panics.", "quantifier": "all years chrono can represent and all months 1-12", "why_tests_cant": "Leap-year rule over all years.", "anchors": ["crond/src/lib.rs:get_days_from_month"]}
{"id": "C43", "title": "Toys arithmetic and comparison mean what they say", "statement": "Evaluating an expression built from integer literals and arithmetic/comparison operators returns the mathematical value whenever every intermediate result fits in 64 bits and no divisor is zero; && and || follow boolean logic.", "quantifier": "all such expression trees", "why_tests_cant": "Trees of unbounded depth.", "anchors": ["toys/src/interpreter.rs:interpret"]}
{"id": "C44", "title": "Function calls bind parameters", "statement": "Inside a called function each parameter denotes the value of the corresponding argument. (The code violates this: parameters are inserted into a copy of the new environment and are lost.)", "quantifier": "all functions, argument lists, environments", "why_tests_cant": "All programs.", "anchors": ["toys/src/interpreter.rs:FunctionCall", "toys/src/environment.rs"]}
{"id": "C45", "title": "Function calls do not leak local variables", "statement": "After a call returns the caller's variables have the same values as before the call.", "quantifier": "all programs, environments", "why_tests_cant": "All bodies, unbounded nesting.", "anchors": ["toys/src/interpreter.rs:FunctionCall"]}
{"id": "C46", "title": "Assignment updates the visible variable", "statement": "After `x = e` evaluates, reading x gives the value of e and other variables are unchanged. (The code violates this for variables of an enclosing scope: it panics.)", "quantifier": "all expressions, environments", "why_tests_cant": "All environments with chains of any depth.", "anchors": ["toys/src/interpreter.rs:Assignment", "toys/src/environment.rs:find_binding"]}
{"id": "C47", "title": "while and for loops iterate as written", "statement": "`while (c) b` runs b until c is false; `for (i in a to b) s`, where b is an arithmetic expression and s does not assign i, runs s once for each integer a <= i < b in order. (b is evaluated again before each round.)", "quantifier": "all bounds, all loop lengths", "why_tests_cant": "Unbounded iteration count.", "anchors": ["toys/src/interpreter.rs:While", "toys/src/parsers.rs:for_in_expr"]}
{"id": "C48", "title": "Global variables are visible in main", "statement": "A `global x = e` definition makes x denote the value of e in functions. (The code violates this: the binding is dropped.)", "quantifier": "all programs with global definitions", "why_tests_cant": "All programs.", "anchors": ["toys/src/interpreter.rs:call_main"]}
{"id": "C49", "title": "URI printing inverts URI parsing", "statement": "If a text parses as a URI consuming n bytes then printing the URI gives exactly these n bytes (ports without leading zeros, no IPv6 literal), and reading the printed form again returns the same URI, for IPv6 hosts too.", "quantifier": "all byte sequences", "why_tests_cant": "All inputs.", "anchors": ["uri/src/models/uri.rs", "uri/src/parsers/uri_parsers.rs"]}
{"id": "C50", "title": "URI parsing rejects trailing garbage", "statement": "`Uri::parse(text)` succeeds only if the whole text is a URI. (The code violates this.)", "quantifier": "all texts", "why_tests_cant": "All inputs.", "anchors": ["uri/src/models/uri.rs:parse"]}
{"id": "C51", "title": "URI parsing recovers the components", "statement": "For every scheme, user info, registered host name, port, path, query and fragment in the RFC 3986 character sets, parsing the printed URI returns the same components. (The code violates this for hosts that merely begin like an IPv4 address and for paths that begin with two slashes.)", "quantifier": "all component values of any length", "why_tests_cant": "Unbounded component lengths.", "anchors": ["uri/src/parsers/"]}
{"id": "C52", "title": "URI parsing only accepts RFC 3986 characters and never panics", "statement": "`Uri::parse` returns Ok or Err for every string and every accepted byte belongs to the RFC 3986 character set; percent signs are always followed by two hex digits.", "quantifier": "all byte sequences", "why_tests_cant": "All inputs.", "anchors": ["uri/src/parsers/basic_parsers.rs", "uri/src/models/uri.rs:parse"]}
{"id": "C53", "title": "Dotted decimal hosts", "statement": "The IPv4 parser accepts exactly the dotted-decimal texts of four numbers 0-255 without leading zeros as a prefix, and returns the address with these octets.", "quantifier": "all byte sequences", "why_tests_cant": "All inputs and 2^32 addresses.", "anchors": ["uri/src/parsers/ip_v4_address_parsers.rs"]}
{"id": "C54", "title": "Query parameter grouping", "statement": "`Query::params()` maps every key to the values given for it, in order of appearance; printing a query joins the pairs with & and keeps the order.", "quantifier": "all parameter lists", "why_tests_cant": "Unbounded lists.", "anchors": ["uri/src/models/query.rs"]}
{"id": "C55", "title": "The last definition of a key wins", "statement": "When a key is defined repeatedly with scalar values the last definition is the one returned. (The code violates this at top level: the first one is kept.)", "quantifier": "all documents/values", "why_tests_cant": "Unbounded numbers of definitions.", "anchors": ["hocon/src/model/config_value.rs:merge_with", "hocon/src/parsers.rs:config", "hocon/src/parsers.rs:object"]}
{"id": "C56", "title": "Merging objects keeps all keys", "statement": "Merging object b into object a gives an object whose keys are those of a and b, where objects under a common key are merged recursively, arrays appended.", "quantifier": "all objects of any depth", "why_tests_cant": "Unbounded depth and size.", "anchors": ["hocon/src/model/config_object_value.rs:merge_with", "hocon/src/model/config_value.rs:merge_with"]}
{"id": "C57", "title": "Dotted keys do not disturb other keys", "statement": "Expanding dotted keys (`a.b = 1`) into nested objects keeps every other key of the object. (The code violates this: undotted keys are dropped as soon as one dotted key exists.)", "quantifier": "all objects", "why_tests_cant": "Unbounded objects.", "anchors": ["hocon/src/model/config_value.rs:resolve"]}
{"id": "C58", "title": "Path lookup descends through objects", "statement": "`get_value(\"a.b.c\")` returns the value reached by looking up a, then b, then c, taking the latest definition at each step; has_path agrees with get_value.", "quantifier": "all values, all paths of any length", "why_tests_cant": "Unbounded depth.", "anchors": ["hocon/src/model/config_value.rs:get_value", "hocon/src/model/config_value.rs:has_path"]}
{"id": "C59", "title": "Reference resolution terminates and substitutes", "statement": "Resolving a document replaces every reference by the referenced value and terminates. (The code violates this: cyclic references never return, an optional reference to nothing panics, and so does a reference with a dot behind its path.)", "quantifier": "all documents", "why_tests_cant": "Termination.", "anchors": ["hocon/src/model/config_value.rs:resolve"]}
{"id": "C60", "title": "Numbers keep their value", "statement": "A number literal, including its sign and exponent, denotes that number. (The code violates this: the sign is dropped.)", "quantifier": "all number literals", "why_tests_cant": "All literals.", "anchors": ["hocon/src/parsers.rs:number_value"]}
{"id": "C61", "title": "Durations use their unit", "statement": "A duration literal `<n><unit>` for each documented unit spelling is parsed completely with that unit and converts to the right amount of time. (The code violates this for the longer spellings: a shorter alternative matches first.)", "quantifier": "all amounts, all unit spellings", "why_tests_cant": "All amounts.", "anchors": ["hocon/src/parsers.rs:duration", "hocon/src/model/config_duration_value.rs"]}
{"id": "C62", "title": "JSON grammar round trip", "statement": "For every JSON value, parsing its printed text with the example JSON grammar returns that value.", "quantifier": "all JSON values of any size and depth", "why_tests_cant": "Unbounded depth and size.", "anchors": ["parser/examples/json_char.rs", "parser/examples/json_byte.rs"]}
{"id": "C63", "title": "Calculator grammar computes conventional arithmetic", "statement": "Parsing and evaluating the text of an expression with + - * / and parentheses gives the conventional value: * and / bind tighter than + and -, all associate to the left.", "quantifier": "all expressions of any size and depth", "why_tests_cant": "Unbounded depth.", "anchors": ["parser/examples/calculator.rs"]}
{"id": "C64", "title": "Literals evaluate to themselves", "statement": "Integer, string, boolean and array literals evaluate to the corresponding value. (The code violates this: boolean and array literals parse but always panic.)", "quantifier": "all literals, all environments", "why_tests_cant": "All literals.", "anchors": ["toys/src/interpreter.rs:interpret", "toys/src/parsers.rs:primary"]}
{"id": "C65", "title": "Logical operators do not evaluate the right operand needlessly", "statement": "`false && e` and `true || e` return without evaluating e. (The code violates this: both operands are always evaluated.)", "quantifier": "all expressions, environments", "why_tests_cant": "All right operands, including ones that panic, print or loop.", "anchors": ["toys/src/interpreter.rs:Binary"]}
{"id": "C66", "title": "Output order and determinism of the interpreter", "statement": "A run has at most one outcome; output is only ever appended; println prints its value after whatever its argument prints; if runs exactly one branch.", "quantifier": "all expressions, environments, runs of any length", "why_tests_cant": "Runs of unbounded length.", "anchors": ["toys/src/interpreter.rs:interpret"]}
{"id": "C67", "title": "Offsets reported by next_offset and last_offset", "statement": "`p.next_offset()` succeeds exactly when p does, consumes the same and returns the position behind the match; `last_offset()` returns the position of the last consumed element (0 if there is none). Failures are unchanged.", "quantifier": "all parsers, inputs and positions", "why_tests_cant": "All parsers.", "anchors": ["parser/src/extension/parser/offset_combinator.rs", "parser/src/internal/parsers_impl/offset_parsers_impl.rs"]}
{"id": "C68", "title": "Adding query parameters", "statement": "`Query::add(k, v)` appends v to the values get_param(k) reports and leaves every other key alone, and the printed query grows at its end; `add_opt` does the same for Some and nothing for None.", "quantifier": "all queries, keys and values", "why_tests_cant": "All queries.", "anchors": ["uri/src/models/query.rs:add", "uri/src/models/query.rs:add_opt", "uri/src/models/query.rs:get_param"]}
{"id": "C69", "title": "Adding parts to a path", "statement": "`Path::add_part(s)` appends the parts in order; the printed path grows by them. (The code violates this for the empty path, which silently drops them.)", "quantifier": "all paths and parts", "why_tests_cant": "All paths.", "anchors": ["uri/src/models/path.rs:add_part", "uri/src/models/path.rs:add_parts"]}
{"id": "C70", "title": "IPv6 literals", "statement": "Exactly the IPv6 addresses of RFC 3986 between brackets are read as IPv6 hosts, with their eight segments. (The code violates this: seven groups before the double colon are not read, and the result has no host at all.)", "quantifier": "all texts", "why_tests_cant": "All texts of all group counts, positions of the double colon and embedded IPv4 addresses.", "anchors": ["uri/src/parsers/ip_v6_address_parsers.rs", "uri/src/parsers/host_parsers.rs:ip_literal"]}
{"id": "C71", "title": "User information", "statement": "A user information part in front of `@` is read as user name and password, never as the host. (The code violates this for an empty password and for a password with a colon: the user name becomes the host and the real host is ignored.)", "quantifier": "all user names, passwords, hosts and ports", "why_tests_cant": "All inputs; the failure needs an unusual but legal user info.", "anchors": ["uri/src/parsers/user_info_parsers.rs", "uri/src/parsers/authority_parsers.rs"]}
{"id": "C72", "title": "Language of the JSON examples", "statement": "The example JSON grammars accept exactly the JSON texts of RFC 8259 and return the value a text denotes. (The code violates this: a comma after the last element and control characters inside strings are accepted.)", "quantifier": "all texts, all nesting depths", "why_tests_cant": "All texts of unbounded length and nesting, and all the texts that must be refused.", "anchors": ["parser/examples/json_char.rs", "parser/examples/json_byte.rs"]}
{"id": "C73", "title": "The JSON examples always answer", "statement": "Whatever the input, the JSON parsers return a value or an error: they neither panic nor run forever, and the answer does not depend on how deep the lazy grammar is unrolled.", "quantifier": "all inputs", "why_tests_cant": "All inputs, including deeply nested and truncated ones.", "anchors": ["parser/examples/json_char.rs", "parser/examples/json_byte.rs"]}
{"id": "C74", "title": "Duplicate keys in the JSON examples", "statement": "If a key is written more than once in an object, the returned map has exactly one entry for it, with the value written last; keys written once keep their value and no other keys appear.", "quantifier": "all lists of members", "why_tests_cant": "All numbers and orders of duplicates.", "anchors": ["parser/examples/json_char.rs:object", "parser/examples/json_byte.rs:object"]}
{"id": "C75", "title": "Blanks in calculator expressions", "statement": "Blanks between the tokens of an expression do not change its value. (The code violates this: blanks at the beginning, at the end and after a sign are rejected, unless a parenthesis is next to them.)", "quantifier": "all expressions and all placements of blanks", "why_tests_cant": "All expressions and placements.", "anchors": ["parser/examples/calculator.rs:space", "parser/examples/calculator.rs:primary0", "parser/examples/calculator.rs:multitive", "parser/examples/calculator.rs:additive"]}
{"id": "C76", "title": "The toys parser invents nothing", "statement": "Whenever `program()`, `lines()` or `expression()` of toys returns a syntax tree, the input (for `program` and `expression`: a prefix of it, for `lines` all of it) is a text of the language with exactly that tree.", "quantifier": "all inputs", "why_tests_cant": "All inputs, accepted and rejected, of unbounded length and nesting.", "anchors": ["toys/src/parsers.rs:program", "toys/src/parsers.rs:lines", "toys/src/parsers.rs:expression"]}
{"id": "C77", "title": "The toys parser reads every program", "statement": "A program text, with any layout and any nesting of definitions, statements and expressions, is read completely and with the tree it denotes.", "quantifier": "all programs and layouts of the language", "why_tests_cant": "All programs, layouts and nesting depths.", "anchors": ["toys/src/parsers.rs:program", "toys/src/parsers.rs:line", "toys/src/parsers.rs:primary"]}
{"id": "C78", "title": "Syntax errors in toys programs are reported", "statement": "A text that is not a program is answered with an error. (The code violates this: `program()` succeeds on every input, and everything from the first faulty definition on is dropped without notice.)", "quantifier": "all inputs", "why_tests_cant": "All inputs.", "anchors": ["toys/src/parsers.rs:program", "toys/src/parsers.rs:lines"]}
{"id": "C79", "title": "The toys parser always answers", "statement": "Whatever the input, `program()` and `lines()` neither panic nor run forever, and the answer does not depend on how deep the lazy grammar is unrolled.", "quantifier": "all inputs", "why_tests_cant": "All inputs, including deeply nested and truncated ones.", "anchors": ["toys/src/parsers.rs:program", "toys/src/parsers.rs:lines"]}
{"id": "C80", "title": "Every name can be used as a variable in toys", "statement": "A variable can be read under every name that can be assigned. (The code violates this: names that begin with `f` or with `true` cannot be read.)", "quantifier": "all names, all expressions", "why_tests_cant": "All names in all contexts.", "anchors": ["toys/src/parsers.rs:bool_literal", "toys/src/parsers.rs:identifier", "toys/src/parsers.rs:primary"]}
{"id": "C81", "title": "Precedence of operators in toys", "statement": "Operators bind as usual: `*`, `/` and `%` alike and tighter than `+` and `-`, these tighter than comparisons, these tighter than `&&`, and that tighter than `||`; a program that prints an expression prints its value. (The code violates this for `%` and for the logical operators.)", "quantifier": "all expressions and layouts", "why_tests_cant": "All expressions.", "anchors": ["toys/src/parsers.rs:multitive", "toys/src/parsers.rs:moditive", "toys/src/parsers.rs:additive", "toys/src/parsers.rs:comparative"]}
{"id": "C82", "title": "The keyword else in toys", "statement": "Only the word `else` starts the second branch of an `if`. (The code violates this: any word that begins with `else` does, and the rest of the word becomes a statement.)", "quantifier": "all conditions, statements and names", "why_tests_cant": "All statements after an `if`.", "anchors": ["toys/src/parsers.rs:r#if"]}
{"id": "C83", "title": "Counting loops in toys, from text to output", "statement": "The program `for (x in a to b) println(x);` prints the integers from a up to but not including b in order, for all bounds given by arithmetic.", "quantifier": "all variable names that can be read, all bounds", "why_tests_cant": "All names, bounds and layouts of the bounds.", "anchors": ["toys/src/parsers.rs:r#for", "toys/src/interpreter.rs:interpret"]}
{"id": "C84", "title": "Toys programs are not ambiguous", "statement": "No text of the (strict) language denotes two different programs, or two different expressions.", "quantifier": "all texts", "why_tests_cant": "All texts.", "anchors": ["toys/src/parsers.rs:program", "toys/src/parsers.rs:expression"]}
{"id": "C85", "title": "Everything hocon returns is text", "statement": "Every string in a parsed or loaded configuration (string values, keys, reference paths, include names) is the UTF-8 encoding of a sequence of characters, whatever bytes are read; and `String::from_utf8`, as used by the parsers, accepts exactly these encodings.", "quantifier": "all inputs, all environments whose variables are text", "why_tests_cant": "All byte sequences, in particular the invalid ones.", "anchors": ["hocon/src/parsers.rs:string", "hocon/src/parsers.rs:key", "hocon/src/parsers.rs:hocon"]}
{"id": "C86", "title": "Hocon objects have one entry per key", "statement": "In a parsed or loaded configuration no object, at any depth, has two entries for one key.", "quantifier": "all inputs", "why_tests_cant": "All inputs and nesting depths.", "anchors": ["hocon/src/parsers.rs:object", "hocon/src/model/config_object_value.rs:combine", "hocon/src/model/config_object_value.rs:merge_with"]}
{"id": "C87", "title": "Several values at top level of a hocon document", "statement": "A document of several objects or arrays is the first one with the others merged into it in order, and later settings win; dotted keys stand for nested objects and includes for the included document. (The code violates this: the first setting stays unless it is an object or an array, and an object on one line with a block on the next line is taken for the key of the block.)", "quantifier": "all documents", "why_tests_cant": "All numbers of values and all contents.", "anchors": ["hocon/src/model.rs:parse_from_string", "hocon/src/model/config_value.rs:merge_with"]}
{"id": "C88", "title": "What is written in a hocon document is what get_value returns", "statement": "For a document of definitions, loading it and asking `get_value` for a path returns the value that is written at this path, and nothing for paths that are not written. (The code violates this for documents with a dotted key, which lose the other keys, and for dotted keys in braces, which are not found.)", "quantifier": "all documents, all paths", "why_tests_cant": "All documents, nesting depths, comments and paths, from text to answer.", "anchors": ["hocon/src/model.rs:parse_from_string", "hocon/src/model.rs:get_value", "hocon/src/parsers.rs:hocon", "hocon/src/model/config_value.rs:resolve"]}
{"id": "C89", "title": "The hocon parser always answers", "statement": "Whatever the input, `hocon()` does not run forever, its answer does not depend on how deep the lazy grammar is unrolled, and it panics only at a number with an exponent but no fraction or one that Decimal cannot hold.", "quantifier": "all inputs", "why_tests_cant": "All inputs, including deeply nested and truncated ones.", "anchors": ["hocon/src/parsers.rs:hocon", "hocon/src/parsers.rs:number"]}
{"id": "C90", "title": "Empty hocon documents and missing files", "statement": "A document without settings loads as an empty configuration and a missing file is reported as an error. (The code violates both: it panics.)", "quantifier": "all documents of blanks and comments, all missing files", "why_tests_cant": "All layouts.", "anchors": ["hocon/src/model.rs:parse_from_string", "hocon/src/model.rs:load_from_file", "hocon/src/model.rs:read_to_string"]}
{"id": "C91", "title": "Including a file in hocon", "statement": "`include file(\"p\")` loads the settings of the file p. (The code violates this: the quotes become part of the file name, so that an existing file is not found and the loader panics.)", "quantifier": "all file names and file contents", "why_tests_cant": "All names and contents.", "anchors": ["hocon/src/parsers.rs:include", "hocon/src/model/config_value.rs:resolve", "hocon/src/model.rs:load_from_file"]}
{"id": "C92", "title": "Durations between Rust and hocon", "statement": "A std or chrono duration converted to a configuration value and back is the same duration. (The code violates this for large durations: an error on the way back or a panic on the way there.)", "quantifier": "all durations", "why_tests_cant": "All durations; the failures are at large values.", "anchors": ["hocon/src/model/config_duration_value.rs"]}
{"id": "C93", "title": "Quoted strings in hocon", "statement": "A string in quotes is read as exactly the text between the quotes. (The code violates this: the empty string and strings with brackets or single quotes are errors, and leading blanks are dropped.)", "quantifier": "all string contents", "why_tests_cant": "All contents.", "anchors": ["hocon/src/parsers.rs:string", "hocon/src/parsers.rs:quote_string_value"]}
{"id": "C94", "title": "Comments in hocon do not change the meaning", "statement": "Adding comment lines and trailing comments to a document does not change what it means. (The code violates this: two comment lines with Windows line ends, or three lines the last two of which are indented, are a syntax error at the beginning. With a comment behind the sign of a setting, an indented comment line and an indented value, whatever the value is, the setting holds the text of its line as a string.)", "quantifier": "all documents and all comments", "why_tests_cant": "All documents, numbers and places of comments.", "anchors": ["hocon/src/parsers.rs:comment", "hocon/src/parsers.rs:space_or_comment", "hocon/src/parsers.rs:hocon"]}
{"id": "C95", "title": "Escapes in hocon strings", "statement": "In a string in quotes `\\n`, `\\t`, `\\r`, `\\b`, `\\f`, `\\\\`, `\\/`, `\\\"` and `\\uXXXX` (surrogate pairs included) stand for the characters known from JSON and everything else for itself, so that `get_value` returns the text denoted; any other escape is a syntax error. (The code violates this: a string with a bracket or a single quote in it is a syntax error.)", "quantifier": "all string contents", "why_tests_cant": "All mixtures of plain text and escapes.", "anchors": ["hocon/src/parsers.rs:string"]}
{"id": "C96", "title": "Concatenation of strings and references in hocon", "statement": "A value written as strings and references next to each other, `k=\"http://\"${host}\":80\"`, is the concatenation of the strings and of what the references stand for. (The code violates this: a reference or a quoted string directly behind any value is a syntax error, and a reference inside an unquoted string stays as text. The code that replaces a concatenation value does join the parts in order, but leaves out parts that are not strings, without a report.)", "quantifier": "all documents, all strings and references", "why_tests_cant": "All values, strings and documents, and all ways of resolving the references.", "anchors": ["hocon/src/parsers.rs:config_value", "hocon/src/parsers.rs:enumeration_config_value", "hocon/src/model/config_value.rs:resolve"]}
{"id": "C97", "title": "Layout of hocon documents", "statement": "Blanks, empty lines and comment lines between the parts of a document, `:` for `=`, blocks without `=`, quoted or unquoted keys and strings, commas or line ends between entries and a comma behind the last one do not matter: the document denotes the values of its grammar, one list of values only, and `get_value` returns what it denotes at a path. A key given again in braces has one more definition, a setting given again is merged. (The code violates this: a comma between settings outside of braces is a syntax error, or part of an unquoted string in front of it. What holds is stated for the grammar, which says what the parser needs behind numbers, unquoted strings and closing braces.)", "quantifier": "all documents of the grammar, all nesting depths", "why_tests_cant": "All documents and layouts.", "anchors": ["hocon/src/parsers.rs:hocon", "hocon/src/parsers.rs:config_value", "hocon/src/parsers.rs:property", "hocon/src/parsers.rs:space_or_comment"]}
{"id": "C98", "title": "JSON texts are hocon documents", "statement": "Every JSON text whose top level is an object or an array is accepted by `hocon()` and denotes the same value there. (The code violates this: arrays with objects on separate lines, or with an array behind an object, are syntax errors.)", "quantifier": "all JSON texts", "why_tests_cant": "All texts; the failures depend on the combination of nesting and line ends.", "anchors": ["hocon/src/parsers.rs:array", "hocon/src/parsers.rs:object", "hocon/src/parsers.rs:key"]}
{"id": "C99", "title": "Printed configurations can be read again", "statement": "The text that `to_string` gives for a configuration is parsed as the same configuration (the newest definition of each key). (The code violates this: a configuration in which an array comes first is printed as a syntax error, and strings are printed without escapes.)", "quantifier": "all configurations, all orders of the maps", "why_tests_cant": "All values, nesting depths and map orders.", "anchors": ["hocon/src/model.rs:fmt", "hocon/src/model/config_value.rs:fmt", "hocon/src/model/config_object_value.rs:fmt", "hocon/src/model/config_array_value.rs:fmt", "hocon/src/parsers.rs:hocon"]}
{"id": "C100", "title": "Typed access to hocon values", "statement": "`is_null`, `as_bool`, `as_string`, `as_number`, `as_duration`, `as_std_duration`, `as_array` and `as_object` return what is written in the document at the path, `None` for values of other types, and never panic. (The code violates this: `as_duration` and `as_std_duration` panic on large durations that the parser accepts.)", "quantifier": "all documents, paths and accessors", "why_tests_cant": "All documents and amounts.", "anchors": ["hocon/src/model/config_value.rs:as_duration", "hocon/src/model/config_value.rs:as_std_duration", "hocon/src/model/config_value.rs:as_string", "hocon/src/model.rs:get_value"]}
{"id": "C101", "title": "Syntax errors in hocon documents are reported", "statement": "If a text is not a hocon document, `ConfigFactory::parse_from_string` and `load_from_file` return `Err(ConfigError)` and do not panic. (The code violates this: the text excerpt for the error message is cut out at a wrong place, so that the call panics whenever the readable part is not shorter than the rest, for instance for settings with a closing brace too many; errors in included files always panic.)", "quantifier": "all texts", "why_tests_cant": "All texts; whether the call panics depends on the place of the error.", "anchors": ["hocon/src/model.rs:parse_from_string", "parser/src/core/parse_error.rs:input", "parser/src/core/parse_error.rs:input_string", "parser/src/internal/parsers_impl/primitive_parsers_impl.rs:end"]}
{"id": "C102", "title": "Errors point into the text", "statement": "The text carried by the error of a failed parse is the rest of the input from some place on, and every offset that an error mentions, at any layer of nested errors, is inside the input or one behind its end; for every grammar built from the combinators.", "quantifier": "all grammars, all inputs", "why_tests_cant": "All combinations of combinators and all inputs.", "anchors": ["parser/src/core/parse_error.rs", "parser/src/core/parse_state.rs", "parser/src/internal/parsers_impl"]}
{"id": "C103", "title": "The two implementations of Parsers agree", "statement": "`ParserParsers` and `ParsersImpl` implement the same trait, so `parse` and `filter` of both give the same values, errors and commitments. (The code violates this: `ParserParsers::parse` replaces every error by the same text, and its `filter` commits when it rejects a value.)", "quantifier": "all parsers, all inputs", "why_tests_cant": "All parsers and inputs.", "anchors": ["parser/src/core/parsers.rs:ParserParsers"]}
{"id": "C104", "title": "The cached JSON grammar of the benchmark", "statement": "The JSON grammars of the benchmark, in which most parts are wrapped in `cache()`, give on every text the value or error that they would give without caches, at whatever addresses the parser states lie; the one over characters is equivalent to the example `json_char`.", "quantifier": "all texts, all addresses of states", "why_tests_cant": "All texts, nesting depths and addresses; a wrong cache hit depends on addresses that a test does not control.", "anchors": ["parser/benches/oni_comb_json.rs:json", "parser/benches/oni_comb_json.rs:json_bytes", "parser/src/internal/parsers_impl/cache_parsers_impl.rs:cache"]}
{"id": "C105", "title": "The benchmark over bytes reads JSON", "statement": "`json_bytes` of the benchmark gives for every JSON text the value that the example `json_byte` gives. (The code violates this: escapes in strings are kept as they are written and `\\u` escapes are rejected.)", "quantifier": "all texts", "why_tests_cant": "All texts and nesting depths.", "anchors": ["parser/benches/oni_comb_json.rs:string_bytes", "parser/benches/oni_comb_json.rs:json_bytes"]}
{"id": "C106", "title": "The caches of crond and toys cannot be observed", "statement": "`CronParser::parse` and the `program` and `lines` parsers of toys, in which nearly every part is wrapped in `cache()`, give on every text the value or error that they would give without caches, at whatever addresses the parser states lie.", "quantifier": "all texts, all addresses of states", "why_tests_cant": "All texts, nesting depths and addresses; a wrong cache hit depends on addresses that a test does not control.", "anchors": ["crond/src/cron_parser.rs:parse", "toys/src/parsers.rs:program", "toys/src/parsers.rs:lines", "parser/src/internal/parsers_impl/cache_parsers_impl.rs:cache"]}
{"id": "C107", "title": "ParseResult is a lawful result type", "statement": "The accessors of `ParseResult` (`is_success`, `success`, `is_failure`, `failure`, `committed_status`, `to_result`) return what its constructors were given; `map` and `flat_map` obey the laws of functors and monads and leave failures as they are; `map_err`, `with_uncommitted`, `add_commit` and `advance_success` change only what they name; the combinators of parsers act on results as these methods do, and `parse_as_result` is the `to_result` of `parse`.", "quantifier": "all results, all functions, all parsers", "why_tests_cant": "All results and all functions passed to the methods.", "anchors": ["parser/src/core/parse_result.rs", "parser/src/core/committed_status.rs", "parser/src/core/parser_runner.rs"]}
{"id": "C108", "title": "Errors can be inspected and shown", "statement": "Every `ParseError` is of exactly one kind; what `Display` shows contains every offset, what every inner error shows, and the names given with `expect` and `name`; `input_string` is the text at the error. (The code violates this: `name` is dropped for parsers that have a name or a filter already, and over bytes `input_string` is empty where the excerpt is not valid UTF-8, in particular for every character that is not ASCII.)", "quantifier": "all errors, all parsers and inputs", "why_tests_cant": "All nested errors, all texts.", "anchors": ["parser/src/core/parse_error.rs:fmt", "parser/src/core/parse_error.rs:input_string", "parser/src/internal/parsers_impl/logging_parsers_impl.rs:name", "parser/src/internal/parsers_impl/logging_parsers_impl.rs:expect"]}
{"id": "C109", "title": "A schedule finds its next date", "statement": "If some date and time that exists in the Gregorian calendar satisfies a cron expression, the iterator of `upcoming` returns an item, from any start, at most eight years later (nine in a zone with summer time, for times that the clocks do not skip); its items are exactly the minutes whose local date and time satisfies the expression. (The code violates the converse: expressions that no date satisfies, such as `0 0 30 2 *`, are accepted, and `next` then never returns.)", "quantifier": "all expressions, start instants and time zones", "why_tests_cant": "All instants and dates; leap days can be eight years apart.", "anchors": ["crond/src/cron_schedule.rs:upcoming", "crond/src/cron_specification.rs:is_satisfied_by", "crond/src/cron_interval_iterator.rs:proceed_next"]}
{"id": "C110", "title": "Configuration values form a monoid", "statement": "`Monoid::combine` for configuration values and objects is associative and has a neutral element, as the trait requires; the definitions of both sides are kept, oldest first. (The code violates this: the right side is dropped unless it consists of several definitions, so that the grouping of three values matters; no value is neutral. Objects keep the keys of both sides, and the empty object is neutral.)", "quantifier": "all values and objects", "why_tests_cant": "All triples of values; the grouping matters only for certain chains.", "anchors": ["hocon/src/model/config_value.rs:combine", "hocon/src/model/config_object_value.rs:combine", "hocon/src/model.rs:Monoid"]}
{"id": "C111", "title": "Queries of URIs are ordered", "statement": "`<`, `>` and `partial_cmp` compare any two queries, alphabetically by their texts; the order is total, transitive and antisymmetric and agrees with `==` (`partial_cmp` is `Equal` exactly for equal queries). (The code violates the last part: a query with a value has the text of another query, whose key contains `=`. Queries of parsed URIs agree.)", "quantifier": "all queries", "why_tests_cant": "All pairs and triples of queries.", "anchors": ["uri/src/models/query.rs:partial_cmp"]}
{"id": "C112", "title": "The text of a path determines it", "statement": "Different paths have different texts, absolute paths begin with a slash, and a path whose text is empty is empty. (The code violates this: `to_string` writes the parts without slashes, so that `of_absolute([\"a\", \"b\"])` is printed as `ab`. Paths as the parser builds them, with the slashes in the parts, have the text that they were read from.)", "quantifier": "all paths", "why_tests_cant": "All lists of parts.", "anchors": ["uri/src/models/path.rs:fmt", "uri/src/models/path.rs:is_empty", "uri/src/models/path.rs:non_empty"]}
{"id": "C113", "title": "The demo program of toys plays FizzBuzz", "statement": "The program in `toys/src/main.rs`, with any two arithmetic expressions as bounds of its loop, is parsed and run without panic and prints a line of dashes, then for each integer from the first bound up to but not including the second `FizzBuzz`, `Fizz`, `Buzz` or the number itself, then a line of dashes.", "quantifier": "all bounds that fit in 64 bits, all arithmetic texts denoting them", "why_tests_cant": "All bounds and all spellings of them.", "anchors": ["toys/src/main.rs:main", "toys/src/parsers.rs:program", "toys/src/interpreter.rs:call_main"]}
{"id": "C114", "title": "What toys prints can be told apart", "statement": "`println` writes one line per value, an integer as the literal that denotes it, and different values are printed differently. (The code violates the last part: texts are written without quotes, so a text can look like any other value. Values without texts are told apart.)", "quantifier": "all values, all sequences of values", "why_tests_cant": "All values and nesting depths of arrays.", "anchors": ["toys/src/values.rs:fmt", "toys/src/interpreter.rs:interpret"]}
{"id": "C115", "title": "An interpreter can be used again after reset", "statement": "After `reset` a program runs exactly as on a new interpreter, whatever ran before: same value, same output, same panics. Without `reset`, functions and variables of earlier programs stay visible.", "quantifier": "all programs, all earlier runs", "why_tests_cant": "All pairs of programs and all interpreter states.", "anchors": ["toys/src/interpreter.rs:reset", "toys/src/interpreter.rs:call_main"]}
{"id": "C116", "title": "Absolute URIs have a scheme", "statement": "`Uri::parse` accepts only texts with a scheme in front of the first colon, as RFC 3986 requires, and `is_absolute` holds exactly for the URIs that have a scheme and no fragment. (The code violates this: the scheme may be missing as long as the colon is there, and `is_absolute` asks only for the fragment. Texts without a colon are rejected, and `is_absolute` holds exactly if no `#` was read.)", "quantifier": "all texts and URIs", "why_tests_cant": "All texts.", "anchors": ["uri/src/models/uri.rs:is_absolute", "uri/src/parsers/uri_parsers.rs:uri"]}
{"id": "C117", "title": "Operators can be regrouped", "statement": "Any two ways of grouping parsers combined with `+`, `-` and `*` that keep the same values give the same parser (same values, consumption, errors and commitment): `(a * b) * c = a * (b * c)`, `(a - b) - c = a - (b - c)`, `a * b - c = a * (b - c)`, `a - b * c = a - b - c`, ...; `p.surround(l, r)` is `l * p - r`; a common beginning of alternatives can be factored out, `a * b | a * c = a * (b | c)`; `!p` succeeds exactly where p fails.", "quantifier": "all parsers and states", "why_tests_cant": "All parsers: an equation between parsers, not between their results on some inputs.", "anchors": ["parser/src/internal/parser_impl/add_impl.rs:add", "parser/src/internal/parser_impl/sub_parser_impl.rs:sub", "parser/src/internal/parser_impl/mul_parser_impl.rs:mul", "parser/src/internal/parser_impl/bitor_impl.rs:bitor", "parser/src/internal/parser_impl/not_impl.rs:not", "parser/src/internal/parser_impl/skip_parser_impl.rs:surround"]}
{"id": "C118", "title": "begin succeeds only at the beginning of the input", "statement": "`begin()` succeeds exactly at offset 0, as `end()` succeeds exactly at the end, and consumes nothing. (The code violates this: `begin()` is `empty()` and succeeds everywhere.)", "quantifier": "all states and parsers", "why_tests_cant": "All parsers and positions.", "anchors": ["parser/src/extension/parsers/primitive_parsers.rs:begin"]}
{"id": "C119", "title": "The shape of parsed documents", "statement": "Whatever text is parsed, the result is a document as the loader expects it: one object of settings, or includes, or a list of objects and arrays; each key once and not empty, paths in references, no includes inside of values, concatenations of strings and references only. Every string can be written in it. (The code violates the last part: no text denotes the empty string.)", "quantifier": "all texts", "why_tests_cant": "All texts: a statement about every result of the parser.", "anchors": ["hocon/src/parsers.rs:hocon", "hocon/src/parsers.rs:string"]}
{"id": "C120", "title": "An optional reference overrides an earlier value", "statement": "`x = 1`, then `x = ${?H}`: `x` is the value of `H` if there is one, and otherwise the value that was defined last before. (The code violates this: with two earlier definitions in braces the first of them comes back, and outside of braces the reference is ignored even if there is a value for it.)", "quantifier": "all documents with such definitions, all environments", "why_tests_cant": "All documents, values and environments.", "anchors": ["hocon/src/model/config_value.rs:resolve", "hocon/src/model/config_value.rs:prev_latest", "hocon/src/model/config_value.rs:push", "hocon/src/parsers.rs:config"]}
{"id": "C121", "title": "Paths are read as far as they go and printed back", "statement": "The parser path never fails, consumes the longest beginning of the input that is a path of RFC 3986 and returns a value that is printed as what was consumed; path_absolute and path_noscheme read exactly the texts of path-absolute and path-noscheme; and the kind of the value (abempty, absolute, noscheme, rootless) is the one of the text. (The code violates the last part: every path-absolute comes back as abempty and every path-noscheme as rootless, also in parsed URIs.)", "quantifier": "all byte sequences", "why_tests_cant": "The unit tests draw some generated paths of at most ten segments and look only at texts that are read to the end; that nothing longer could have been read, and that no other text is accepted, is a statement about all inputs.", "anchors": ["uri/src/parsers/path_parsers.rs:5-108"]}
{"id": "C122", "title": "Integers survive the way through hocon numbers", "statement": "A Rust integer turned into a `ConfigNumberValue` comes back unchanged from `to_T` for every integer type `T` that holds it, and `to_T` is `None` for every other type; likewise an integer written in a document is given out by exactly the types that hold it; `to_T` never gives an integer that is not the number. (The code violates this: 128-bit integers of size `2^96` or more make `From` panic, and a number with a fraction is cut off silently, so that `2.9` is given out as 2.)", "quantifier": "all integers and types, all documents of one setting with a number", "why_tests_cant": "The range of the types cannot be enumerated, and the pairs of type and value decide.", "anchors": ["hocon/src/model/config_number_value.rs:14-24", "hocon/src/model/config_number_value.rs:60-98", "hocon/src/model/config_value.rs:as_number"]}
{"id": "C123", "title": "Only the variables a toys program mentions matter", "statement": "Whether the run of a statement ends, whether it panics, its value and its output depend only on the variables that occur in it or in the functions: in two states that agree on these, also about the scope in which they are, it does the same, and afterwards these variables again have the same values in both.", "quantifier": "all statements, functions, states and run lengths", "why_tests_cant": "All pairs of states: a statement about two runs at a time.", "anchors": ["toys/src/interpreter.rs:interpret", "toys/src/environment.rs:find_binding"]}
{"id": "C124", "title": "The names in a toys program are arbitrary", "statement": "Renaming variables, parameters and functions consistently (different names stay different, `main` keeps its name) changes nothing that can be seen of a program: neither its output and its result nor whether it panics or runs forever.", "quantifier": "all programs and renamings", "why_tests_cant": "All programs and all renamings.", "anchors": ["toys/src/interpreter.rs:call_main", "toys/src/interpreter.rs:interpret", "toys/src/environment.rs:find_binding"]}
{"id": "C125", "title": "A toys function does not depend on the variables of its caller", "statement": "What a function does depends only on its arguments: the local variables of the function that calls it are not visible. (The code violates this: the scope of a call is nested in the scope of its caller, so a variable that is not bound in the function is looked up in the caller.)", "quantifier": "all functions, arguments and states of the caller", "why_tests_cant": "All callers: the defect is invisible if the names are different.", "anchors": ["toys/src/interpreter.rs:interpret", "toys/src/environment.rs:find_binding"]}
{"id": "C126", "title": "The order of maps does not matter for a hocon document", "statement": "Loading the same document gives the same configuration in every run, although the maps in it are iterated in an order that differs from run to run: dotted keys are written out, values merged, references replaced and paths looked up with the same result. (The code violates this for documents with a dotted key that is the beginning of another one: `a.b=true` and `a.b.c=false` give a boolean or an object at `a.b`.)", "quantifier": "all documents, environments and iteration orders", "why_tests_cant": "A test runs with one order; the orders cannot be chosen because the hasher is random.", "anchors": ["hocon/src/model/config_value.rs:resolve", "hocon/src/model/config_object_value.rs:merge_with", "hocon/src/model/config_value.rs:get_value"]}
{"id": "C127", "title": "The order of the definitions of a toys program does not matter", "statement": "Only the functions that are reached from an expression through calls matter for its run; a function that is called by no definition can be left out of a program; definitions of different functions can change places, and of two definitions of one function the last one is in force; any order of the definitions of a program gives the same run. (The code violates the last part: the expressions of global variables are run while the definitions are collected, so one that calls a function defined later panics.)", "quantifier": "all programs, states and run lengths", "why_tests_cant": "All programs and all orders of their definitions: a statement about two runs at a time.", "anchors": ["toys/src/interpreter.rs:call_main", "toys/src/interpreter.rs:interpret"]}
{"id": "C128", "title": "What is done with the values does not influence what is read", "statement": "Two parsers assembled in the same way from all combinators of the library, recursively as well, with functions in between that take related values to related values, have the same outcomes everywhere: the same consumption, errors and commitment, and related values. In particular functions can be applied to the parts or to the whole: `p.map(f).of_many0()` is `p.of_many0().map(each f)`, `p.map(f) | q.map(f)` is `(p | q).map(f)`, ..., `p.map(f).collect()` is `p.collect()`, and to compute with the values of an operator chain while it is read is to build a tree and to compute with it afterwards.", "quantifier": "all parsers, all functions, all relations", "why_tests_cant": "All parsers and functions: an equation between parsers.", "anchors": ["parser/src/internal/parsers_impl.rs:map", "parser/src/internal/parsers_impl/repeat_parsers_impl.rs:repeat_sep", "parser/src/internal/parsers_impl/operator_parsers_impl.rs:rest_left1", "parser/src/internal/parsers_impl/operator_parsers_impl.rs:or"]}
{"id": "C129", "title": "Grammars written with attempt are parsing expression grammars", "statement": "A parsing expression grammar (Ford: elements and texts, sequence, prioritised choice, greedy repetition, option, lookahead, recursive rules) written with the library (`elm_pred`, `seq`/`tag`, `+`, `p.attempt() | q`, `of_many0`, `of_many1`, `opt`, `!p`, `peek`, `lazy`) does what the formal semantics says: it succeeds with a length exactly if the expression reads so many elements, fails exactly if the expression fails, and runs forever exactly if there is no derivation, for instance with left recursion; the outcome is unique.", "quantifier": "all grammars, expressions, texts and positions", "why_tests_cant": "All grammars and texts: a refinement of a formal semantics.", "anchors": ["parser/src/internal/parsers_impl/operator_parsers_impl.rs:or", "parser/src/internal/parsers_impl/operator_parsers_impl.rs:and_then", "parser/src/internal/parsers_impl/operator_parsers_impl.rs:attempt", "parser/src/internal/parsers_impl/repeat_parsers_impl.rs:repeat_sep", "parser/src/internal/parsers_impl/lazy_parsers_impl.rs:lazy"]}
{"id": "C130", "title": "Well formed grammars always answer", "statement": "A parsing expression grammar written with the library in which no rule can come back to itself before it has read something, and in which nothing is repeated that may read nothing, always answers: the parser of every expression succeeds or fails on every text at every position. Where something that reads nothing is repeated, it runs forever.", "quantifier": "all grammars that meet the two conditions, all expressions, texts and positions", "why_tests_cant": "All grammars and texts; a test that hangs does not tell why.", "anchors": ["parser/src/internal/parsers_impl/repeat_parsers_impl.rs:repeat_sep", "parser/src/internal/parsers_impl/lazy_parsers_impl.rs:lazy"]}
{"id": "C131", "title": "Grammars whose alternatives start differently need no attempt", "statement": "In a parsing expression grammar in which the next element decides between alternatives (where the first alternative may have read an element when it fails, the second one cannot start with it and is not empty) `attempt` can be left out, although `flat_map` and `seq`/`tag` commit: the parser gives the same answers. With `+` in place of `flat_map` and without texts of several elements it can always be left out. Otherwise alternatives are lost: after a first alternative that has read something the second one is not tried.", "quantifier": "all grammars, expressions, texts and positions", "why_tests_cant": "Whether an attempt is missing shows only on texts that lead into the wrong alternative.", "anchors": ["parser/src/internal/parsers_impl/operator_parsers_impl.rs:or", "parser/src/internal/parsers_impl.rs:flat_map", "parser/src/internal/parsers_impl/elements_parsers_impl.rs:seq"]}
{"id": "C132", "title": "Toys programs mean what a textbook says", "statement": "A toys program of functions without parameters, in which no function uses a variable that a function uses which it calls directly or through others, does what the usual semantics of an imperative language says, in which every function has variables of its own: it ends with a value and an output exactly if the semantics executes its main function so, panics exactly if the execution ends with an error (unset variable, unknown function, operands of the wrong kind, overflow, division by zero, empty block), and runs forever exactly if there is no execution; the execution is unique. The same from the text of a program, whatever its layout.", "quantifier": "all such programs", "why_tests_cant": "All programs: a refinement of a formal semantics.", "anchors": ["toys/src/interpreter.rs:interpret", "toys/src/interpreter.rs:call_main", "toys/src/environment.rs:find_binding"]}
{"id": "C133", "title": "Toys programs that type check go wrong only in arithmetic", "statement": "A toys program of functions without parameters (as in the previous property) that passes a simple type check, in which every variable that is read has been set on all ways, operands are integers or booleans as the operator wants, conditions are booleans and called functions exist, panics exactly if its execution comes to an arithmetic operation of two integers without result (more than 64 bits, or division by zero); if it ends, its value has the type of its main function.", "quantifier": "all programs that type check", "why_tests_cant": "All programs: type soundness.", "anchors": ["toys/src/interpreter.rs:interpret", "toys/src/interpreter.rs:call_main", "toys/src/environment.rs:find_binding"]}
{"id": "C134", "title": "Toys programs whose loops count always end", "statement": "A toys program in which no function calls itself, directly or through others, and whose only loops are `for (x in a to b)` with a bound built from integers, variables and operators, whose body assigns neither x nor a variable of the bound, always ends: with a value or with a panic, with and without overflow checks, whatever functions are called in the loops. Recursion alone, or a body that assigns the counter, is enough for a program that never ends.", "quantifier": "all such programs, both build modes", "why_tests_cant": "All programs; a test that hangs does not tell why, and a counter that wraps around is out of reach of tests.", "anchors": ["toys/src/interpreter.rs:interpret", "toys/src/interpreter.rs:call_main", "toys/src/parsers.rs:for"]}
{"id": "C135", "title": "LL(1) grammars are recognised exactly, without attempt", "statement": "Written with the library (`elm_pred`, `seq`/`tag`, `flat_map` or `+`, `|`, `of_many0`, `of_many1`, `opt`, `lazy`), a grammar in extended Backus-Naur form in which the next element decides (alternatives start differently, only the last one may be empty; what may be left out or repeated does not start with an element that may follow; no left recursion) accepts, followed by `end`, exactly the texts of its context-free language and answers every other text with an error, although no `attempt` is written; with `attempt` the accepted texts are the same. In the middle of a text what is described is read to its end if something follows that may follow, so no text can be divided in two ways. No grammar without lookahead reads a text it does not describe. The conditions are needed: `w | wcv` never accepts `wcv`, and `a* a` never succeeds at all.", "quantifier": "all LL(1) grammars, expressions, texts", "why_tests_cant": "All texts of a language, and all texts outside of it; a test grammar shows a few of each.", "anchors": ["parser/src/internal/parsers_impl/operator_parsers_impl.rs:or", "parser/src/internal/parsers_impl.rs:flat_map", "parser/src/internal/parsers_impl/elements_parsers_impl.rs:seq", "parser/src/internal/parsers_impl/repeat_parsers_impl.rs:repeat_sep"]}
{"id": "C136", "title": "Operator tables are read with the right precedence and associativity", "statement": "For any table of binary operators, with any number of ranks, each rank associating to the left or to the right, the parser written level by level (`chain_left1` for ranks that associate to the left, `next.flat_map(|x| rest_right1(lazy(level), op, x))` for those that associate to the right, brackets through `lazy`) accepts, followed by `end`, exactly the expressions of the textbook grammar with the values they have there, answers every other text with an error, and no expression has two values. An expression printed with brackets only where the ranks ask for them is read back with the value of its tree. The operands are anything with a parser assembled from the library that reads exactly them up to an operator, a closing bracket or the end.", "quantifier": "all operator tables, operand parsers, texts and expression trees", "why_tests_cant": "All tables and all expressions of any depth; a test shows a few expressions of one table.", "anchors": ["parser/src/internal/parsers_impl/operator_parsers_impl.rs:chain_left1", "parser/src/internal/parsers_impl/operator_parsers_impl.rs:rest_right1", "parser/src/internal/parsers_impl/lazy_parsers_impl.rs:lazy"]}
{"id": "C137", "title": "A cached parser runs at most once at each place", "statement": "Whatever the calls of one cached parser on one text, the wrapped parser runs at most once at each offset, so that a cached parser does work for at most as many runs as the text has places.", "quantifier": "all parsers, all histories of calls", "why_tests_cant": "All histories, and all addresses the states may have; a test sees the addresses of one run.", "anchors": ["parser/src/internal/parsers_impl/cache_parsers_impl.rs:cache"]}
{"id": "C138", "title": "A syntax error names the first element that cannot be right", "statement": "If a text is not in the language of an LL(1) grammar written with the library, the parser followed by `end` fails, and the offset that the error displays is the place, counted from 1, of the first element with which no text of the language goes on: everything before it is the beginning of a text of the language, one element more is not; if the text only ends too early, it is the place behind its end. In any grammar, an error never names a later place.", "quantifier": "all LL(1) grammars, expressions, texts; the last sentence for all grammars without lookahead predicates", "why_tests_cant": "All texts outside of a language, and that no continuation would have made the element right.", "anchors": ["parser/src/internal/parsers_impl/elements_parsers_impl.rs:seq", "parser/src/internal/parsers_impl/element_parsers_impl.rs:elm_pred_ref", "parser/src/internal/parsers_impl/operator_parsers_impl.rs:or", "parser/src/internal/parsers_impl.rs:flat_map", "parser/src/internal/parsers_impl/repeat_parsers_impl.rs:repeat_sep", "parser/src/core/parse_error.rs:fmt"]}
{"id": "C139", "title": "LL(1) grammars are parsed in a number of steps proportional to the length of the text", "statement": "For every grammar with finitely many rules in which the next element decides (LL(1)) there is a constant C such that parsing any text t as a whole takes at most C * (|t| + 1) steps, whether t is accepted or rejected, and whether the grammar is written with flat_map, with and_then, or with and_then and attempt. A step is a run of a parser without parts, a run of a lazy parser, or a comparison of an element of a literal. Outside LL(1) there is no such bound: with and_then (with or without attempt) there is a grammar of one rule that accepts k parentheses only after 2^k steps.", "quantifier": "all LL(1) grammars (any element type, finitely many rules, any depth), all three ways to write them, all texts; all k for the exponential grammar", "why_tests_cant": "Tests measure some texts; whether there is a text that makes a grammar slow is a question about all texts, and backtracking costs show only in deep nesting.", "anchors": ["parser/src/internal/parsers_impl/operator_parsers_impl.rs:or", "parser/src/internal/parsers_impl/operator_parsers_impl.rs:and_then", "parser/src/internal/parsers_impl/repeat_parsers_impl.rs:repeat_sep", "parser/src/internal/parsers_impl.rs:flat_map", "parser/src/internal/parsers_impl/lazy_parsers_impl.rs:lazy"]}
{"id": "C140", "title": "Equals may be replaced by equals in toys programs", "statement": "If in the bodies of functions and in the values of globals of a toys program any parts, at any depth and in any number of places, are replaced by expressions that do the same (same value, same effects, panic or no end, for all functions, variables, outputs and builds), then the program returns the same value, leaves the same variables and prints the same, panics, or never ends, exactly as before, also when its functions call each other. Expressions that do the same: e and (e), { e } and e, an arithmetic expression and its value, an `if` whose condition has a known truth and the branch taken, `while (c) b` and `if (c) { b while (c) b }`, a block with and without the braces of a block inside it, a block with and without a literal whose value is not used, and sums, products and comparisons for equality of variables and literals in either order. Expressions that print or assign cannot be left out or reordered.", "quantifier": "all programs, all places, all replacements, all states and both builds", "why_tests_cant": "A refactoring has to be right in all programs and states, including those that do not end; a test runs one program before and after.", "anchors": ["toys/src/interpreter.rs:interpret", "toys/src/interpreter.rs:call_main", "toys/src/interpreter.rs:While", "toys/src/interpreter.rs:Block", "toys/src/interpreter.rs:FunctionCall"]}
{"id": "C141", "title": "A grammar means the same for bytes and for characters", "statement": "If the same grammar is assembled from the library once for `u8` and once for `char` (literals translated, predicates that agree, functions in between that take related values to related values), then on the bytes of any ASCII text and on its characters the two parsers give the same outcome: related values and the same length, the same error with the same offset and the same commitment, panic, or no end; recursive grammars included. The element parsers of the library (classes, ranges, lists, literals) agree in this sense for all 256 bytes and the characters with the same codes, and more generally the statement holds for any two types of elements and any injective translation between them (any translation, if no literal is used). Outside ASCII it fails: every character of code 128 or more is one element as `char` and several as bytes.", "quantifier": "all pairs of grammars assembled alike, all translations of elements, all texts and places", "why_tests_cant": "All grammars and all texts; a test compares two parsers on a few inputs.", "anchors": ["parser/src/core/element.rs", "parser/src/internal/parsers_impl/element_parsers_impl.rs:elm_pred_ref", "parser/src/internal/parsers_impl/elements_parsers_impl.rs:seq", "parser/src/internal/parsers_impl/taken_parsers_impl.rs:take_while0", "parser/src/internal/parsers_impl/repeat_parsers_impl.rs:repeat_sep"]}
{"id": "C142", "title": "What is read does not depend on text far ahead", "statement": "A parser that has read something reads the same if the text is changed or goes on differently more than k elements behind it, for a k that can be computed from the grammar: 1 for elements, sets of elements, classes and `end`, the length for literals, `take` and `skip`, 0 for `take_till1`, the larger one for alternatives, options, repetitions and sequences of such parts, the sum where a part behind another one of bounded length decides whether there is a further item; changing values, errors or adding names does not change k. So a text read in pieces has to be read only k elements further than a result. The numbers of the JSON examples look at most three elements ahead (and sometimes three).", "quantifier": "all parsers assembled in this way (recursive ones included), all element types, texts, places and continuations of the text", "why_tests_cant": "All continuations of all texts; a test sees some continuation.", "anchors": ["parser/src/internal/parsers_impl/element_parsers_impl.rs:elm_pred_ref", "parser/src/internal/parsers_impl/elements_parsers_impl.rs:seq", "parser/src/internal/parsers_impl/taken_parsers_impl.rs:take_while0", "parser/src/internal/parsers_impl/taken_parsers_impl.rs:take_till0", "parser/src/internal/parsers_impl/repeat_parsers_impl.rs:repeat_sep", "parser/src/internal/parsers_impl.rs:flat_map", "parser/src/internal/parsers_impl/operator_parsers_impl.rs:or"]}
{"id": "C143", "title": "Different ways to write a cron field mean the same", "statement": "In every cron expression a field may be replaced by another text that denotes the same values, in all fields at once, without changing the schedule: the same items from every start in every zone, the same answer (or panic) on every date and time. In particular: leading zeros, names of weekdays for numbers and a comma at the end; the items of a list in any order, with or without repetitions; a-a for a, a-b/1 for a-b; a-b/k for the list of its values; two ranges that meet or overlap for one; items left out that others contain; the range of all values or */1 for *; */k for the range of all values with that step.", "quantifier": "all accepted texts of fields, all expressions around them, all dates and times, zones, starts and numbers of items", "why_tests_cant": "All pairs of texts with the same meaning in all expressions on all dates; a test compares two schedules for a while.", "anchors": ["crond/src/cron_parser.rs:list", "crond/src/cron_parser.rs:digit_instruction", "crond/src/cron_evaluator.rs:visit", "crond/src/cron_evaluator.rs:eval", "crond/src/cron_interval_iterator.rs:next"]}
{"id": "C144", "title": "JSON documents are read in linear time, accepted or rejected", "statement": "The JSON parsers of the examples (for characters and for bytes) take a number of steps that is at most 100 times the length of the text and one more, on every text: accepted, rejected, cut off anywhere, however deeply nested. A step is a run of a parser without parts (an element, a set of elements, `end`), a run of `lazy(value)`, or the comparison of an element of a literal. An accepted text takes at least one step for each of its elements.", "quantifier": "all texts, all nesting depths, all conversions of numbers, both example parsers", "why_tests_cant": "All texts, in particular those made to cause backtracking; a test measures a few.", "anchors": ["parser/examples/json_char.rs:json", "parser/examples/json_byte.rs:json", "parser/src/internal/parsers_impl/operator_parsers_impl.rs:or", "parser/src/internal/parsers_impl/repeat_parsers_impl.rs:repeat_sep", "parser/src/internal/parsers_impl/lazy_parsers_impl.rs:lazy"]}
{"id": "C145", "title": "Arithmetic expressions are read in linear time, accepted or rejected", "statement": "The parser of the calculator example takes a number of steps proportional to the length of the text, on every text: accepted, rejected, cut off anywhere, with any signs and blanks, however deeply nested. A step is a run of a parser without parts (an element, `regex`, `end`), a run of `lazy(primary)` or `lazy(expr)`, or the copying of a character in `regex`.", "quantifier": "all texts, all nesting depths, all decimal number types", "why_tests_cant": "All texts, in particular long and deeply nested ones; a test measures a few.", "anchors": ["parser/examples/calculator.rs:calculator", "parser/examples/calculator.rs:primary", "parser/examples/calculator.rs:value", "parser/src/internal/parsers_impl/elements_parsers_impl.rs:regex", "parser/src/internal/parsers_impl/operator_parsers_impl.rs:rest_left1"]}
{"id": "C146", "title": "Cron expressions are read in linear time, accepted or rejected", "statement": "The cron parser takes at most 124 steps for each character of the text, and 790 more, on every text: accepted, rejected or cut off anywhere, with lists of any length, although each item of a list is first tried as a range and then again as a number. A step is a run of a parser without parts (an element, `end`) or the comparison of a letter of a weekday's name. The same bound holds with all the `.cache()` calls, at whatever addresses the states lie, finding a stored result being one step: no run with caches takes more steps than the run without. Without caches an accepted text takes at least one step for each of its characters.", "quantifier": "all texts, all lengths of lists in all fields", "why_tests_cant": "All texts, in particular those made to cause backtracking; a test measures a few.", "anchors": ["crond/src/cron_parser.rs:list", "crond/src/cron_parser.rs:digit_instruction", "crond/src/cron_parser.rs:instruction", "parser/src/internal/parsers_impl/repeat_parsers_impl.rs:repeat_sep", "parser/src/internal/parsers_impl/operator_parsers_impl.rs:or"]}
{"id": "C147", "title": "URIs are read in linear time, accepted or rejected", "statement": "`Uri::parse` takes at most 138 steps for each byte of the text, and 1500 more, on every text: accepted, rejected or cut off anywhere, with any number of path segments and query parameters, although what may be user information is read again as a host, an authority again as a path, and an IPv6 address in up to nine ways. A step is a run of a parser without parts (an element, a set of elements) or the comparison of an element of a literal; converting what has been read (`String::from_utf8`, `parse`) is not counted. An accepted URI takes at least one step for each byte that it takes.", "quantifier": "all texts, all lengths of all parts, all implementations of Ipv6Addr", "why_tests_cant": "All texts, in particular those made to cause backtracking; a test measures a few.", "anchors": ["uri/src/models/uri.rs:parse", "uri/src/parsers/uri_parsers.rs:uri", "uri/src/parsers/hier_part_parsers.rs:hier_part", "uri/src/parsers/authority_parsers.rs:authority", "uri/src/parsers/query_parsers.rs:query", "uri/src/parsers/ip_v6_address_parsers.rs:ip_v6_address"]}
{"id": "C148", "title": "Caches never cost parser runs", "statement": "Take any grammar built with the combinators, with any number of `.cache()` calls in it, one inside another or one cached parser used in several places, and ask it behind the first element of a text. At whatever addresses the states lie, and so whatever is found in the caches, it gives the result of the grammar without the `.cache()` calls, and takes at most as many steps as that grammar, where a step is a run of a parser without parts or the finding of a stored result. If nothing is found it takes as many steps. A parser that is asked again in the same place with the state at the same address takes one step.", "quantifier": "all grammars, all texts, all addresses", "why_tests_cant": "All grammars and all ways in which addresses may be given out; a test sees one grammar and the allocator of one machine.", "anchors": ["parser/src/internal/parsers_impl/cache_parsers_impl.rs:cache", "parser/src/internal/parsers_impl/operator_parsers_impl.rs:or", "parser/src/internal/parsers_impl/repeat_parsers_impl.rs:repeat_sep"]}
{"id": "C149", "title": "HOCON documents are read in a time polynomial in their length", "statement": "Reading a HOCON document takes a number of steps bounded by a polynomial in its length, whatever the document: accepted, rejected, cut off anywhere, with objects that are not closed. A step is a run of a parser without parts (an element, a set of elements, `end`), a run of `lazy(config_value)` or `lazy(property)`, the comparison of an element of a literal, or an element passed by `take_till0`.", "quantifier": "all texts, all nesting depths, all number parsers", "why_tests_cant": "All texts, in particular those made to cause backtracking at every level; a test measures a few.", "anchors": ["hocon/src/parsers.rs:hocon", "hocon/src/parsers.rs:config_value", "hocon/src/parsers.rs:property", "hocon/src/parsers.rs:object", "hocon/src/parsers.rs:string", "parser/src/internal/parsers_impl/operator_parsers_impl.rs:or", "parser/src/internal/parsers_impl/repeat_parsers_impl.rs:repeat_sep"]}
{"id": "C150", "title": "Parsers without recursion take polynomially many steps", "statement": "A parser put together without recursion (`lazy`, functions that call themselves) from parsers without parts, the combinators that run their argument once (`map`, `map_res`, `filter`, `attempt`, `peek`, `not`, `exists`, `collect`, `discard`, `name`, `expect`), `or`, `and_then`, `skip_left`, `skip_right`, `flat_map` with a choice among finitely many parsers, `repeat`/`repeat_sep` with any range and `chain_left1` returns on every text, if in every repetition without an upper bound an item or a separator consumes something. If such repetitions are nested at most d deep, it takes at most k * (length + 1) ^ d steps, with a factor k that depends on the parser only. The exponent cannot be smaller: for every d there is such a parser that no polynomial of degree d - 1 bounds.", "quantifier": "all parsers of this kind, all depths, all texts", "why_tests_cant": "All parsers that a user may write, and the growth over texts of every length; a test measures some parsers on some texts.", "anchors": ["parser/src/internal/parsers_impl/repeat_parsers_impl.rs:repeat_sep", "parser/src/internal/parsers_impl/operator_parsers_impl.rs:or", "parser/src/internal/parsers_impl/operator_parsers_impl.rs:and_then", "parser/src/internal/parsers_impl/operator_parsers_impl.rs:rest_left1", "parser/src/internal/parsers_impl/parsers_impl.rs:flat_map"]}
{"id": "C151", "title": "Operator tables are read in linear time, accepted or rejected", "statement": "Take a table of binary operators in ranks, each rank left or right associative, with brackets, and the parser that C136 is about: `chain_left1` for the ranks that associate to the left, for those to the right `flat_map` with the same rank again behind the operator, and `lazy` inside the brackets. If an operand takes at most g steps for each of its elements and g more, and g where there is no operand, it takes at most 2 * (number of ranks + g) + 3 steps for each element of the text and as many more once, on every text: accepted, rejected, cut off anywhere, brackets nested to any depth. This depends on how the grammar is written: as in a textbook, `E ::= T op E | T` with `attempt` around the first alternative, an operand in d pairs of brackets takes at least 2 ^ d steps.", "quantifier": "all operator tables, all operand parsers, all texts, all depths", "why_tests_cant": "All tables and all texts, in particular nested brackets and errors at any depth; a test measures a few.", "anchors": ["parser/src/internal/parsers_impl/operator_parsers_impl.rs:chain_left1", "parser/src/internal/parsers_impl/operator_parsers_impl.rs:rest_left1", "parser/src/internal/parsers_impl/operator_parsers_impl.rs:attempt", "parser/src/internal/parsers_impl/operator_parsers_impl.rs:or", "parser/src/internal/parsers_impl/lazy_parsers_impl.rs:lazy"]}
{"id": "C152", "title": "Toys programs are read in a time polynomial in their length", "statement": "`program()` of toys takes a number of steps bounded by a polynomial in the length of the text, whatever the text: accepted, rejected or cut off anywhere, such as a program that is still being typed, with blocks that are not closed yet. It suffices to count the calls of `r#if`, each of which builds a parser with new caches. (The code violates this: an `else` is tried for the inner of two `if`s and, if its block is not closed, again for the outer one.)", "quantifier": "all texts, all nesting depths, all conditions and statements", "why_tests_cant": "All texts, in particular those made to cause backtracking at every level; a test measures a few.", "anchors": ["toys/src/parsers.rs:program", "toys/src/parsers.rs:function_definition", "toys/src/parsers.rs:line", "toys/src/parsers.rs:r#if", "toys/src/parsers.rs:block", "parser/src/internal/parsers_impl/operator_parsers_impl.rs:or", "parser/src/internal/parsers_impl/lazy_parsers_impl.rs:lazy"]}
{"id": "C153", "title": "How deep calls are nested does not depend on the length of a text without nesting", "statement": "Each parser is a closure that calls the closures of its parts. While a parser without recursion runs, the number of closures that have been called and have not returned is bounded by how often combinators have been applied to each other in it, however long the text is and however often repetitions go round; so a long flat text does not exhaust the stack where a short one does not. All calls return, and the result is that of the parser. (The code keeps this for all combinators but `chain_left1` and those made from it: each operator of a chain is read two calls deeper than the one before, so the depth is linear in the length of a sum without brackets.)", "quantifier": "all parsers of this kind, all texts, all numbers of operators", "why_tests_cant": "Texts of every length: the stack lasts for those of a test, and no test says how long a text may be.", "anchors": ["parser/src/internal/parsers_impl/operator_parsers_impl.rs:rest_left1", "parser/src/internal/parsers_impl/operator_parsers_impl.rs:chain_left1", "parser/src/internal/parsers_impl/repeat_parsers_impl.rs:repeat_sep", "parser/src/internal/parsers_impl/operator_parsers_impl.rs:or", "parser/src/internal/parsers_impl/lazy_parsers_impl.rs:lazy"]}
