{"id": "C01", "title": "Integer factorial is exact and rejects the rest", "statement": "Calling the integer factorial on an integer n returns exactly n! when 0 <= n <= isize::MAX, the ComplexInfinity error when n is negative but fits isize, and the OverFlow error when n does not fit isize. It never panics.", "quantifier": "every arbitrary-precision integer n and both pointer widths (32/64 bit)", "why_tests_cant": "The input is an unbounded integer; tests evaluate a handful of small n and the last two branches at one point each.", "anchors": ["projects/sm-algorithm/src/gamma/factorial.rs: factorial_fold_u, factorial_i"]}
{"id": "C02", "title": "Integer Fibonacci is exact for non-negative indices", "statement": "Calling the integer Fibonacci function on 0 <= n <= isize::MAX returns exactly the n-th Fibonacci number; the memoised fast-doubling routine and the linear fold agree at every index; the unsigned subtraction inside fast doubling never underflows.", "quantifier": "every n in 0..=isize::MAX (and every usize for the unsigned routines)", "why_tests_cant": "The recursion follows the binary expansion of n, so each index takes a different path; tests pin one index.", "anchors": ["projects/sm-algorithm/src/linear/fibonacci.rs: fibonacci_i, fibonacci_fold_u, fibonacci_fast_u"]}
{"id": "C03", "title": "Fibonacci at negative indices", "statement": "For a negative n the integer Fibonacci function should return (-1)^(n+1) * F(|n|). (Violated by the code: an even negative index panics and an odd one returns the Fibonacci number of n reinterpreted as an unsigned machine word.) Out-of-range n yields OverFlow.", "quantifier": "every negative integer", "why_tests_cant": "The wrong branch cannot even be executed to completion in a test, because the reinterpreted index is near 2^64.", "anchors": ["projects/sm-algorithm/src/linear/fibonacci.rs: fibonacci_i"]}
{"id": "C04", "title": "Fast Fibonacci does logarithmic work", "statement": "The memoised Fibonacci routine terminates on every index n and stores at most 3*log2(n)+6 intermediate values and makes at most 6*log2(n)+7 recursive calls.", "quantifier": "every index n", "why_tests_cant": "A bound over all n is not observable from finitely many timings.", "anchors": ["projects/sm-algorithm/src/linear/fibonacci.rs: fibonacci_fast_u::memoization"]}
{"id": "C05", "title": "Integer power", "statement": "The big-integer power function returns a^b for every base a and unsigned exponent b >= 2 that fits 32 bits, reports Indeterminate for 0^0 and OverFlow for |a| >= 2 (or a = -1) with larger exponents. (The code violates a^0 = 1 and a^1 = a: it returns 0 and 1.)", "quantifier": "every integer base and every unsigned exponent", "why_tests_cant": "Two unbounded arguments with a case split on each; tests check one pair of the library's own pow.", "anchors": ["projects/sm-algorithm/src/basic/mod.rs: power_iu"]}
{"id": "C06", "title": "Extended gcd returns Bezout coefficients", "statement": "For all integers a, b the extended gcd returns g = gcd(a,b) >= 0 and coefficients x, y with a*x + b*y = g, and terminates.", "quantifier": "all pairs of integers, including negative and zero", "why_tests_cant": "The loop length and signs depend on the input; tests print one example without an assertion.", "anchors": ["projects/sm-algorithm/src/basic/mod.rs: extended_gcd2"]}
{"id": "C07", "title": "Modular inverse", "statement": "The modular inverse of a mod m is reported exactly when gcd(a,m) = 1, and the reported x satisfies a*x = 1 (mod m). For a positive modulus the result lies in 1..=2m.", "quantifier": "all integers a, m", "why_tests_cant": "Congruence must hold for every pair; the only test prints a value.", "anchors": ["projects/sm-algorithm/src/basic/mod.rs: modulo_inverse"]}
{"id": "C08", "title": "Modular division", "statement": "Modular division of a by b mod m should return x with b*x = a (mod m), exactly when gcd(b,m) divides a. (The presence test is right, but the code multiplies by the wrong Bezout coefficient, so the returned number solves m*x = a (mod b) instead; b = m = 0 panics.)", "quantifier": "all integers a, b, m", "why_tests_cant": "The only test prints a wrong value without checking it; correctness is a congruence over all triples.", "anchors": ["projects/sm-algorithm/src/basic/mod.rs: modulo_division"]}
{"id": "C09", "title": "Coprimality test", "statement": "The coprimality test answers true exactly when 1 is the only positive common divisor of x and y.", "quantifier": "all pairs of integers", "why_tests_cant": "Universally quantified over two unbounded integers; untested in the repository.", "anchors": ["projects/sm-algorithm/src/basic/mod.rs: is_coprime"]}
{"id": "C10", "title": "Chinese remainder: soundness", "statement": "Whenever the Chinese-remainder function returns a value r for residues u and moduli m, r = u_i (mod m_i) for every i, and |r| is smaller than the product of the |m_i|.", "quantifier": "all residue/modulus lists of any length, with any signs", "why_tests_cant": "The mixed-radix reconstruction is an induction over list length; the test prints one three-modulus case.", "anchors": ["projects/sm-algorithm/src/basic/mod.rs: chinese_remainder"]}
{"id": "C11", "title": "Chinese remainder: completeness and failure modes", "statement": "For non-empty, equal-length lists with non-zero moduli the Chinese-remainder function returns a value exactly when the moduli are pairwise coprime; lists of different length give None; two empty lists panic, and so does a zero modulus unless two moduli before it already share a factor (then None).", "quantifier": "all residue/modulus lists", "why_tests_cant": "'Exactly when pairwise coprime' quantifies over all lists and all pairs of positions.", "anchors": ["projects/sm-algorithm/src/basic/mod.rs: chinese_remainder"]}
{"id": "C12", "title": "Prime sum is exact below 2^32", "statement": "For every 1 <= n < 2^32 the prime-sum routine returns the sum of all primes <= n, without panicking or overflowing, whether or not arithmetic overflow checks are compiled in.", "quantifier": "all n with 1 <= n < 2^32", "why_tests_cant": "Four billion inputs; the sieve's correctness is an invariant over all surviving values, tests check 14 inputs.", "anchors": ["projects/sm-algorithm/src/prime/prime_sum.rs: prime_sum_u64"]}
{"id": "C13", "title": "Prime sum outside its domain", "statement": "The integer prime-sum function rejects negative n with Undefined, values above u64::MAX with Unimplemented, and otherwise returns the exact sum. (The code violates this for n = 0, which panics, and for n >= 2^32 that is not a tabulated power of ten, where every build with overflow checks panics and a build without them returns the sum modulo 2^63 only, e.g. a wrong value for every n in 2^32..=6074000999.)", "quantifier": "every integer n", "why_tests_cant": "The failing region is an interval of 2^64 - 2^32 inputs.", "anchors": ["projects/sm-algorithm/src/prime/prime_sum.rs: prime_sum_i, prime_sum_u64"]}
{"id": "C14", "title": "Tabulated prime sums and prime counts", "statement": "The tabulated answers of the prime-sum and prime-count functions at powers of ten equal the true sum and number of primes, and the prime-count function answers only for tabulated arguments, rejecting negatives with Undefined and everything else with Unimplemented.", "quantifier": "every tabulated power of ten; every integer for the dispatch", "why_tests_cant": "Each entry is a claim about all primes below a huge bound.", "anchors": ["projects/sm-algorithm/src/prime/prime_sum.rs: prime_sum_table, prime_sum_i", "projects/sm-algorithm/src/prime/prime_count.rs: prime_count_table, prime_count_i"]}
{"id": "C15", "title": "Expression ordering is a lawful total order", "statement": "The ordering used to keep keyword arguments sorted compares any two expressions, is reflexive, transitive and total, and reports Equal exactly when the equality test does (decimals compare by numeric value).", "quantifier": "all pairs and triples of expressions, of any nesting depth", "why_tests_cant": "Expressions nest without bound; sorted-map correctness depends on the law holding for all of them.", "anchors": ["projects/sm-ast/src/ast/mod.rs: derive(PartialOrd, Ord) on AST, Parameter, Position, Symbol, SymbolKind"]}
{"id": "C16", "title": "Qualified symbol names round-trip", "statement": "Printing a symbol built from a text gives back that text, for every text; and building a symbol from the printed form of a symbol gives back the same path and name exactly when no part contains '::' and no path component ends in ':'.", "quantifier": "all texts and all namespace paths of any length", "why_tests_cant": "Unbounded strings and path lengths.", "anchors": ["projects/sm-ast/src/ast/traits.rs: impl From<&str> for Symbol, impl Display for Symbol"]}
{"id": "C17", "title": "Keyword arguments: last one wins, order irrelevant", "statement": "In a call, the positional arguments keep their order and the keyword arguments form a map: for a repeated name the last value wins, and permuting keyword arguments with distinct names does not change the call.", "quantifier": "all argument lists of any length and all permutations", "why_tests_cant": "Factorially many orders of unboundedly many arguments.", "anchors": ["projects/sm-ast/src/parser/parse.rs: parse_apply, parse_apply_kv"]}
{"id": "C18", "title": "Printing operators parenthesises lower-precedence operands", "statement": "Printing an infix expression joins its printed operands with the operator and encloses in parentheses exactly those operands that are infix expressions of strictly lower precedence. Prefix and suffix operators print without parentheses.", "quantifier": "all operator expressions of any depth", "why_tests_cant": "Unbounded nesting.", "anchors": ["projects/sm-ast/src/ast/traits.rs: impl Display for AST, precedence"]}
{"id": "C19", "title": "Print/parse round trip", "statement": "The printed form of an expression -- unless it begins with a statement keyword -- parses to the same expression (up to source positions) if and only if the expression is one the parser builds without redundant parentheses: prefix operators apply to expressions without infix operators, ! and !! to literals, names and !!-expressions, and an infix expression is an operand of another one only if it is printed in parentheses or the two operators group that way by themselves. So 1-(2-3), (2^3)^4, (2*3)/4, -(1+2), (-1)! and (5!)! are not read back, they print like (1-2)-3, 2^(3^4), 2*(3/4), -1+2, -(1!) and 5!!. The printed form of such an expression is never rejected.", "quantifier": "all expressions of any depth over non-negative integers, decimals, booleans, symbols, the prefix operators + - * !, the suffixes ! and !!, and the binary operators + - * × / ÷ ^", "why_tests_cant": "Unbounded expression depth and literals.", "anchors": ["projects/sm-ast/src/ast/traits.rs: impl Display for AST", "projects/sm-ast/src/parser/parse.rs: parse_expr, parse_term, parse_node", "projects/sm-ast/src/parser/mod.rs: OPERATORS", "projects/sm-ast/src/parser/ops.rs"]}
{"id": "C20", "title": "Literals evaluate to themselves; results are final", "statement": "Evaluating a literal or a bare symbol returns it unchanged, and whatever evaluation returns is a fixed point: evaluating a result again returns the same result. Evaluation never returns a function call.", "quantifier": "all expressions", "why_tests_cant": "All expression trees.", "anchors": ["projects/sm-ast/src/evaluate/forward.rs: AST::forward, evaluate_function"]}
{"id": "C21", "title": "Evaluated products and powers are exact", "statement": "Evaluating a product of two integers returns their exact product, and a power with an exponent in 0..2^64 the exact power. (Violations: a negative or >= 2^64 exponent silently returns the base; the sum of two integers is reported as unimplemented because '+' is dispatched under another name.)", "quantifier": "all integers", "why_tests_cant": "Unbounded integers.", "anchors": ["projects/sm-ast/src/evaluate/forward.rs: evaluate_multiplicative, evaluate_power, evaluate_additive", "projects/sm-ast/src/parser/ops.rs: infix_map"]}
{"id": "C22", "title": "Evaluation is independent of the session", "statement": "The outcome of evaluating an input depends only on the input text, not on what was evaluated before in the session, and evaluation never alters earlier recorded inputs or outputs.", "quantifier": "every history of calls on a session and every next input", "why_tests_cant": "Quantifies over all histories.", "anchors": ["projects/sm-ast/src/evaluate/traits.rs: Runner::evaluate, forward, parse", "projects/sm-ast/src/evaluate/forward.rs"]}
{"id": "C23", "title": "Session history invariant", "statement": "After any sequence of calls, the session index equals the number of evaluate calls made, exactly the indices 1..index have a recorded input (the text submitted), outputs are recorded only for indices whose evaluation succeeded, and recorded entries never change.", "quantifier": "every finite history of evaluate/last calls, including failing and panicking ones", "why_tests_cant": "Quantifies over all histories.", "anchors": ["projects/sm-ast/src/evaluate/traits.rs: Runner", "projects/sm-ast/src/evaluate/mod.rs: Context"]}
{"id": "C24", "title": "The last-result query", "statement": "Asking for the last result returns the output of the most recent evaluation. (It panics, rather than returning an error, when nothing was evaluated yet or the most recent evaluation failed.)", "quantifier": "every history of calls", "why_tests_cant": "Quantifies over all histories.", "anchors": ["projects/sm-ast/src/evaluate/traits.rs: Runner::last"]}
{"id": "C25", "title": "Playground survives bad input", "statement": "A failed evaluation in the web playground should not affect later calls. (Violated: any call that panics while holding the session lock poisons it, and every later call panics; e.g. asking for TeX after an error, or evaluating an empty input.) Without panics every call is answered.", "quantifier": "every sequence of playground calls", "why_tests_cant": "Quantifies over all call sequences.", "anchors": ["projects/sm-playground/src/lib.rs: result, result_tex"]}
{"id": "C26", "title": "Which evaluations panic", "statement": "Evaluating a parsed expression either returns a value, returns an error, or panics, and it panics exactly for programs, for built-in calls applied to no argument or to an unsupported argument type, for fibonacci at negative even machine-size integers, and (when printing the result) for the empty statement.", "quantifier": "all expressions", "why_tests_cant": "All expression trees.", "anchors": ["projects/sm-ast/src/evaluate/forward.rs", "projects/sm-ast/src/internal/list_like.rs", "projects/sm-ast/src/internal/elementary.rs", "projects/sm-ast/src/ast/traits.rs: Display for AST"]}
{"id": "C27", "title": "String built-ins", "statement": "first/last of a non-empty string return its first/last character as a one-character string and of an empty string an EmptyContainer error; length returns the UTF-8 byte length.", "quantifier": "all strings", "why_tests_cant": "Unbounded strings of arbitrary Unicode characters.", "anchors": ["projects/sm-ast/src/internal/list_like.rs: first, last, length"]}
{"id": "C28", "title": "TeX rendering: when it panics", "statement": "Rendering an expression as TeX returns a string for a precisely characterised set of expressions and panics for all others (programs, prefix/suffix operators, the empty list, an infix operand that is an ordinary call, ...).", "quantifier": "all expressions", "why_tests_cant": "All expression trees.", "anchors": ["projects/sm-ast/src/traits/tex/mod.rs", "projects/sm-ast/src/traits/tex/utils.rs"]}
{"id": "C29", "title": "TeX output is brace-balanced", "statement": "If every symbol name, operator and string inside an expression is brace-balanced, so is its rendered TeX.", "quantifier": "all expressions", "why_tests_cant": "All expression trees of any depth.", "anchors": ["projects/sm-ast/src/traits/tex/mod.rs: ToTex for AST, ToTex for Parameter", "projects/sm-ast/src/traits/tex/utils.rs"]}
{"id": "C30", "title": "TeX never needs stretched delimiters", "statement": "Every expression and argument list has height at most 1, so the branches that emit \\left( ... \\left) (an unbalanced pair) are never taken.", "quantifier": "all expressions", "why_tests_cant": "All expression trees.", "anchors": ["projects/sm-ast/src/traits/tex/mod.rs: BoxArea", "projects/sm-ast/src/traits/tex/utils.rs: omit_brackets_function"]}
{"id": "C31", "title": "Wolfram export preserves structure", "statement": "Exporting an expression is total (given the external helper that capitalises function names); a call f(args..., k=v...)(...)... becomes nested applications with one level per argument list, each carrying its positional arguments in order followed by one Rule per option in key order; integers, strings, booleans and symbols map to the corresponding atoms.", "quantifier": "all expressions", "why_tests_cant": "All expression trees of any depth.", "anchors": ["projects/sm-ast/src/traits/wolfram/mod.rs: ToWolfram for AST, function_map"]}
{"id": "C32", "title": "Head of an expression", "statement": "head of a call with k >= 2 argument lists is the call with its last list removed, with one list the function symbol; re-applying the removed list gives the original call; head of an atom is its type symbol.", "quantifier": "all expressions", "why_tests_cant": "All expression trees.", "anchors": ["projects/sm-ast/src/internal/list_like.rs: head"]}
{"id": "C33", "title": "Parsing terminates", "statement": "The grammar engine terminates on every input text, using recursion depth at most a constant times (length + 1).", "quantifier": "every input text", "why_tests_cant": "Non-termination cannot be observed by finitely many runs.", "anchors": ["projects/sm-parser/src/sm_parser.rs: SMParser::parse and all rule functions"]}
{"id": "C34", "title": "A successful parse consumes the whole text, with nested spans", "statement": "When the grammar accepts, the whole text has been consumed; every node of the parse tree carries exactly the text between its start and end; children lie inside their parent, in order and without overlap.", "quantifier": "every input text", "why_tests_cant": "All inputs.", "anchors": ["projects/sm-parser/src/sm_parser.rs: program, EOI"]}
{"id": "C35", "title": "Shadowed operators can never be parsed", "statement": "No accepted text ever yields a quotient (//), equality (==) or greater-or-equal (>=) operator, because an earlier single-character operator always shadows it.", "quantifier": "every input text", "why_tests_cant": "A negative statement over all inputs.", "anchors": ["projects/sm-parser/src/sm_parser.rs: Infix, Set, Divide, Grater", "projects/sm-parser/simple-math.pest: Infix"]}
{"id": "C36", "title": "Operator precedence and associativity", "statement": "For any sequence of operands separated by operators + - * / ^ and ., the tree built by the expression parser uses the operands and operators in order, and is grouped by the precedence table (. tightest, then ^ right-associative, /, *, then + and - left-associative).", "quantifier": "operator sequences of any length", "why_tests_cant": "Exponentially many sequences of unbounded length.", "anchors": ["projects/sm-ast/src/parser/mod.rs: OPERATORS, CLIMBER", "projects/sm-ast/src/parser/parse.rs: parse_expr"]}
{"id": "C37", "title": "No operand is silently dropped", "statement": "Every operand and operator accepted by the grammar should appear in the resulting expression. (Violated: an operator outside the precedence table, such as = % > or a tensor product, together with everything after it in the expression is silently discarded; without such operators nothing is dropped.)", "quantifier": "operator sequences of any length", "why_tests_cant": "Sequences of unbounded length.", "anchors": ["projects/sm-ast/src/parser/parse.rs: parse_expr", "projects/sm-ast/src/parser/mod.rs: OPERATORS"]}
{"id": "C38", "title": "Decimal integer literals", "statement": "Parsing the decimal numeral of any natural number gives that integer, and printing it gives the numeral back. (Violation: zeros in front are not ignored; 007 is read as the product 0*0*7.)", "quantifier": "all natural numbers", "why_tests_cant": "Numerals of unbounded length.", "anchors": ["projects/sm-ast/src/parser/parse.rs: parse_integer", "projects/sm-parser/src/sm_parser.rs: Integer, Positive", "projects/sm-ast/src/ast/traits.rs: Display"]}
{"id": "C39", "title": "Radix literals", "statement": "0x/0o/0b literals parse to the integer they denote, with single underscores between digits ignored. (An underscore directly after the prefix is accepted by the grammar but panics.)", "quantifier": "all digit sequences of any length", "why_tests_cant": "Unbounded digit sequences.", "anchors": ["projects/sm-ast/src/parser/parse.rs: parse_byte", "projects/sm-parser/src/sm_parser.rs: Byte"]}
{"id": "C40", "title": "Decimal fraction literals", "statement": "A decimal literal i.f whose parts have no leading zeros parses to the exact decimal and prints back as the same text. (Violation: a fraction that is a zero followed by any digits, such as 1.05, makes the parser panic.)", "quantifier": "all integer and fraction digit sequences", "why_tests_cant": "Unbounded digit sequences.", "anchors": ["projects/sm-ast/src/parser/parse.rs: parse_decimal, parse_space_call", "projects/sm-parser/src/sm_parser.rs: Decimal, space_call"]}
{"id": "C41", "title": "String literals keep their content verbatim", "statement": "A quoted string literal, and a block between three or more quotes, parses to a string whose content is exactly the text between the quotes, escapes included; a name in front makes no difference.", "quantifier": "all string contents without unescaped quotes; all block contents that are not empty, do not begin with a quote and do not contain the closing quotes earlier", "why_tests_cant": "Unbounded content over all of Unicode.", "anchors": ["projects/sm-ast/src/parser/parse.rs: parse_string", "projects/sm-parser/src/sm_parser.rs: String, StringNormal, StringBlock"]}
{"id": "C42", "title": "Identifiers parse to symbols", "statement": "Every identifier parses to the symbol of that name. (Violated, stated exactly: it holds if and only if the identifier begins with none of null, true, false, break and pass, not with using, class, trait or let followed by an identifier, and not with return followed by an identifier or a digit. So 'format' and 'let1' are symbols; 'trueish' parses to true, 'letter' and 'returns' panic. An identifier that begins with a constant and goes on yields the constant if its end is a text that is not refused, and is refused otherwise; one that begins with a statement word in one of the bad ways makes the parser panic or is refused.)", "quantifier": "all identifiers of any length", "why_tests_cant": "Unbounded identifiers over all of Unicode; the equivalence says that no other identifier goes wrong.", "anchors": ["projects/sm-ast/src/parser/parse.rs: parse_data, parse_special, parse", "projects/sm-parser/src/sm_parser.rs: data, Special, statement, SYMBOL"]}
{"id": "C43", "title": "Juxtaposition multiplies", "statement": "Writing two or more integers/identifiers next to each other parses to one product with exactly those factors in order.", "quantifier": "factor lists of any length", "why_tests_cant": "Unbounded lists.", "anchors": ["projects/sm-ast/src/parser/parse.rs: parse_space_call", "projects/sm-parser/src/sm_parser.rs: space_call"]}
{"id": "C44", "title": "Whitespace is irrelevant", "statement": "Changing white space and line comments around infix operators, commas, colons and brackets, or writing the full-width forms of comma and colon, does not change the parsed expression (up to source positions). (Violated inside parentheses: white space after '(' or, after an infix operator has occurred, before ')' makes the text a syntax error.)", "quantifier": "all arithmetic expressions and all whitespace insertions", "why_tests_cant": "Unbounded expressions and insertions.", "anchors": ["projects/sm-parser/src/sm_parser.rs: hidden::skip, expr, node", "projects/sm-ast/src/parser/parse.rs: parse_expr"]}
{"id": "C45", "title": "Prefix and suffix operators apply inside out", "statement": "In p1 p2 ... x s1 s2 ..., suffixes are applied to x in order, then prefixes from the innermost outwards. The prefix not-sign and the suffixes ? and ' panic.", "quantifier": "operator sequences of any length", "why_tests_cant": "Unbounded sequences.", "anchors": ["projects/sm-ast/src/parser/parse.rs: parse_term", "projects/sm-ast/src/parser/ops.rs: prefix_map, suffix_map"]}
{"id": "C46", "title": "Only the first statement counts", "statement": "Parsing a text returns the expression of its first statement if that is an expression, whatever follows; it returns the empty statement for blank texts and panics if the first statement is any other kind.", "quantifier": "every text", "why_tests_cant": "All inputs.", "anchors": ["projects/sm-ast/src/parser/parse.rs: parse, parse_expression"]}
{"id": "C47", "title": "Source positions lie inside the text", "statement": "Every position attached to a parsed expression is the position of a piece of the text: it names the configured file, and its start and end are the line and column (counted from 1, a line ends at a line feed) of the beginning and the end of that piece, so its start is not after its end.", "quantifier": "every text and every node", "why_tests_cant": "All inputs.", "anchors": ["projects/sm-ast/src/parser/traits.rs: get_position", "projects/sm-ast/src/parser/parse.rs"]}
{"id": "C48", "title": "File translation touches the target only after a successful parse", "statement": "Translating a file never modifies any file but the target, leaves the target untouched when reading or parsing fails or panics, and on success leaves exactly the serialised expression in it. (The file is created before the expression is serialised, so a crash or a panic of the serialiser in between leaves it empty; at any later crash it holds a first part of the serialised expression.)", "quantifier": "all file systems, paths and crash points", "why_tests_cant": "Crash points and file-system states cannot be enumerated.", "anchors": ["projects/sm-ast/src/parser/parse.rs: parse_file"]}
{"id": "C49", "title": "Dot calls insert the receiver first", "statement": "a.f(args) parses to f called with a followed by args in its first argument list and unchanged further lists, a.f to f(a), a.N to index(a, N); any other right-hand side panics.", "quantifier": "all expressions and argument lists", "why_tests_cant": "Unbounded arguments.", "anchors": ["projects/sm-ast/src/parser/parse.rs: parse_dot_call"]}
{"id": "C50", "title": "Index and span defaults", "statement": "x[i, j, ...] parses to Index(x, i, j, ...), a range a:b:c to Span(a,b,c) with missing parts defaulting to 1, All and 1.", "quantifier": "all index lists", "why_tests_cant": "Unbounded lists.", "anchors": ["projects/sm-ast/src/parser/parse.rs: parse_term, parse_slice, parse_index"]}
{"id": "C51", "title": "Error translation", "statement": "Algorithm errors surface as the matching user-level error: overflow, complex infinity, I/O (with its message) and unimplemented are preserved; the two remaining kinds become Unknown.", "quantifier": "all algorithm errors and messages", "why_tests_cant": "Messages are arbitrary strings.", "anchors": ["projects/sm-ast/src/error/traits.rs: From<Algorithm> for SMError"]}
{"id": "C52", "title": "REPL history literals", "statement": "n pilcrow signs denote the n-th previous input (index -n), a pilcrow followed by a positive numeral denotes that input index; reversed pilcrows likewise for outputs.", "quantifier": "all n and all numerals", "why_tests_cant": "Unbounded.", "anchors": ["projects/sm-ast/src/parser/parse.rs: parse_in_out", "projects/sm-parser/src/sm_parser.rs: REPL"]}
{"id": "C53", "title": "The parser implements the expression language", "statement": "Every text made up according to the expression language (literals, names, products, lists, calls with positional and named arguments, indices and spans, prefix, suffix and infix operators, parentheses, with white space and line comments where allowed) parses to the meaning of its structure, up to source positions, and panics exactly if the structure contains a construct without meaning. Infix operators are grouped by precedence and associativity; everything from the first infix operator outside the precedence table on is dropped.", "quantifier": "All well-formed expression structures of any size and nesting depth, all admissible white space and comments, all Unicode tables that agree with the standard on the characters of the grammar.", "why_tests_cant": "The language is infinite and recursive; tests cover finitely many texts.", "anchors": ["projects/sm-parser/src/sm_parser.rs: rules", "projects/sm-ast/src/parser/parse.rs: ParserSettings::parse"]}
{"id": "C54", "title": "What a session answers", "statement": "Typing a text into a session (whatever was typed before) gives: the number, fraction, string content or name itself for a literal; the exact product or power for two integers joined by * or ^ (or by a blank, for a product), the exact factorial for n!, and the exact value for calls of plus, times, power, factorial and fibonacci on integers in their range. (The code violates what a calculator promises beyond this: + - / and the typographic signs are errors for all operands, so are signs before a number, products of three factors and every operand that is itself an operation; ! after a fraction returns the fraction, ! after anything else that is not an integer panics, a power with an exponent of 2^64 or more is answered with the base, and blank texts panic. After a panic the web page answers nothing any more.)", "quantifier": "all session histories, all operands of the expression language, all ways of spacing", "why_tests_cant": "Unbounded integers, operands, spacings and histories; the error classes are claims about every operand.", "anchors": ["projects/sm-ast/src/evaluate/traits.rs: Runner::evaluate", "projects/sm-ast/src/evaluate/forward.rs: evaluate_function, evaluate_multiplicative, evaluate_power", "projects/sm-ast/src/parser/parse.rs: ParserSettings::parse", "projects/sm-playground/src/lib.rs: result"]}
{"id": "C55", "title": "Accepted texts are well bracketed", "statement": "In every text the parser accepts, each ( [ { is closed by its own kind, in nesting order, and nothing is closed that was not opened, where string literals and comments are passed over. A text without quotation marks, // and %%% whose brackets do not match is always refused with a parse error.", "quantifier": "all texts, all Unicode tables that agree with the standard on the brackets", "why_tests_cant": "A claim about every text outside the language; tests refuse finitely many.", "anchors": ["projects/sm-parser/src/sm_parser.rs: rules", "projects/sm-ast/src/parser/parse.rs: ParserSettings::parse"]}
{"id": "C56", "title": "Every answer of the parser is a reading of the text", "statement": "Whenever the parser accepts a text, the syntax tree it returns is what a context-free grammar of the expression language assigns to an expression at the beginning of the text (after blank space): every literal, name, product, list, call, index, span and operator of the tree comes from the characters at its place, operators are grouped by precedence and associativity, and every source position is that of its part of the text. The empty answer is given to blank texts only. Nothing is invented: what is passed over can only be the tail of an expression from an unimplemented operator or %%% comment on, and later statements.", "quantifier": "all texts, all syntax trees, all Unicode tables that agree with the standard on the characters of the grammar", "why_tests_cant": "A claim about every accepted text, including texts no one thought of; it is the converse of C53, which goes from structures to texts.", "anchors": ["projects/sm-ast/src/parser/parse.rs: ParserSettings::parse", "projects/sm-parser/src/sm_parser.rs: rules"]}
{"id": "C57", "title": "What can be typed, and what evaluation can then do", "statement": "Every syntax tree the parser returns is empty or has a fixed shape: numbers carry no sign (except inside references to the session history), there is no empty statement or program inside, every call has at least one argument list, operators have exactly one list without named arguments and with at least one (prefix, suffix) or two (infix) operands, named arguments are named by symbols. Consequently evaluating a typed text panics exactly if first, last, length, factorial or fibonacci is called without an argument or with one of the wrong kind (the panic of fibonacci at negative indices is out of reach), and no typed text is ever answered with a negative number.", "quantifier": "all texts, all Unicode tables that agree with the standard on the characters of the grammar, all word sizes", "why_tests_cant": "A claim about every text, and about what no text can cause.", "anchors": ["projects/sm-ast/src/parser/parse.rs: ParserSettings::parse", "projects/sm-ast/src/evaluate/forward.rs"]}
{"id": "C58", "title": "The work of parsing can be exponential in the length of the text", "statement": "An expression within n pairs of index brackets, such as a[a[a]], is read correctly but takes at least 3^n calls of the parser's functions: for every n there is an accepted text of 3n+1 characters that takes 3^n calls. A text that breaks off within n nested calls, such as f(f(f(, is refused with a parse error only after at least 2^n calls: for every n > 0 there is such a text of 2n characters. (This is a violation of the expectation that a short line is answered quickly.)", "quantifier": "all nesting depths, all operands and all innermost expressions, all names of functions, any blank space around the text", "why_tests_cant": "A growth rate is a claim about all depths; a test at a depth where the effect shows does not end.", "anchors": ["projects/sm-parser/src/sm_parser.rs: rules index, node, space_call", "projects/sm-ast/src/parser/parse.rs: ParserSettings::parse"]}
{"id": "C59", "title": "The parser does what the grammar file says", "statement": "The repository holds a grammar file, simple-math.pest, and a parser generated from it. For every rule that can be parsed on its own and every text, the parser's answer is the one that the grammar file determines when it is read by the rules of its notation alone (ordered choice, greedy repetition, lookahead, white space and comments between the parts of rules that are not atomic, a token pair for every rule that is not silent): the same texts are accepted, with the same token pairs, and the same texts are refused. The grammar file determines exactly one outcome for every text. The rewriting done by the generator (common first parts taken out, repetitions unrolled, parser stack restored only in some places) changes nothing.", "quantifier": "all rules, all texts, all Unicode tables", "why_tests_cant": "Equivalence of two descriptions of a language is a claim about all texts; the generated code differs from the grammar in structure, and whether the stack is restored in enough places shows only on rare combinations of nested strings and failed alternatives.", "anchors": ["projects/sm-parser/simple-math.pest", "projects/sm-parser/src/sm_parser.rs", "projects/sm-parser/src/pre_build.rs: gen_parser"]}
{"id": "C60", "title": "What can make the parser panic", "statement": "Parsing a text panics only if the text contains one of a few pieces -- a dot, an opening brace, a prime, a question mark, the sign ¬, a percent sign, ## before a number, a radix prefix such as 0x, or a called name with a number or name right before it -- or begins, after blank space, with a statement keyword (using, class, trait, extends, return, break, pass, if, for, let, def), a semicolon or an annotation. In particular no text of digits, blanks, operators, quotation marks, commas, colons, parentheses and square brackets makes it panic, however long and however malformed. Each of these kinds does make it panic in some text.", "quantifier": "all texts, all file names, all Unicode tables that satisfy the stated laws", "why_tests_cant": "Absence of panics over all texts is a universal claim; the builder contains some twenty unreachable!, unwrap and unimplemented! arms whose reachability depends on what the grammar can emit.", "anchors": ["projects/sm-ast/src/parser/parse.rs: ParserSettings::parse and the methods it calls", "projects/sm-parser/src/sm_parser.rs"]}
{"id": "C61", "title": "Clicks on the page do not disturb each other", "statement": "A click on a button of the playground page evaluates the text of its cell, writes the answer into the output field, and then renders the formula of that answer. Whatever was clicked before, a click should show what its text gives on a fresh page. It does so exactly as long as every earlier text had a value that is not the empty statement. (Violations: after any text that gave an error, the message is shown once and from then on no click shows anything, whatever its text, until the page is loaded again; every sum of two numbers is such a text, and so is each of the three texts that the page offers.)", "quantifier": "all sequences of clicks, all texts, all parsers", "why_tests_cant": "The claim is about every history of clicks; the failure is a mutex that a panic leaves unusable, seen only in calls after the one that failed.", "anchors": ["projects/sm-playground/index.html", "projects/sm-playground/src/lib.rs: result, result_tex", "projects/sm-ast/src/evaluate/traits.rs: Runner"]}
{"id": "C62", "title": "What a TeX formula contains", "statement": "The TeX form of an expression is determined by its parts as documented by the cases of the renderer: numbers as printed, symbols by name, strings and truth values in a command, the nine trigonometric functions as commands and nine further inverse functions as operator names, both without brackets around a single argument that is not an operation, lists in braces, every other call as an operator name followed by each of its argument lists in growing brackets, sums and products with + and a space. (Violations: every command begins with two backslashes; every infix operator other than times and add appears as its internal name; operands after the second are dropped; operands are printed and not set; the brackets that a product of a sum needs are missing; named arguments never appear.)", "quantifier": "all expressions", "why_tests_cant": "Expressions are unbounded in depth and in the number of operands; that two different products give the same formula is a relation between all of them.", "anchors": ["projects/sm-ast/src/traits/tex/mod.rs: ToTex for AST, ToTex for Parameter", "projects/sm-ast/src/traits/tex/utils.rs: infix_tex, omit_brackets_function"]}
{"id": "C63", "title": "Numbers are printed exactly", "statement": "The printed form of an integer or a decimal is a numeral of exactly its value: an optional minus sign, digits, and possibly a point followed by digits. This holds for every number of digits and every scale, also when the point falls before the first digit or zeros have to be added at the end. A text is the numeral of at most one number, so numbers that are printed alike are equal.", "quantifier": "all integers, all decimals with any digits and any scale", "why_tests_cant": "The three layouts of the point meet at boundaries that depend on the number of digits and the scale, both unbounded; exactness is an equation between a text and a rational number for all of them.", "anchors": ["projects/sm-ast/src/ast/traits.rs: Display for AST", "bigdecimal: Display for BigDecimal"]}
{"id": "C64", "title": "Answers are right", "statement": "Whatever text is submitted, after whatever history: if a session answers it, then the text begins with an expression, and the answer is the printed form of what this expression is worth, where products, sums, powers, factorials, Fibonacci numbers and the string functions are worth what mathematics says about the worth of their arguments; or the answer is one of four deviations. (Violations: a power whose exponent is 2^64 or more is answered with the base; the factorial or Fibonacci number of a decimal is the decimal; the length of a text counts bytes; arguments after the first of a function of one argument are ignored. What stands behind an operator that the parser drops is ignored as well: 6*7=2 is answered 42.) Exactly these are answered: literals, names, and calls, with one list of arguments, of plus, times and power on two integers, of factorial and fibonacci on a machine-size integer or a decimal, of first and last on a non-empty text and of length on a text, where the arguments must be literals; an operation on operations is never answered.", "quantifier": "all texts, all histories, both pointer widths, all Unicode tables that satisfy the stated laws", "why_tests_cant": "That no text at all gets a wrong answer other than the listed ones is a universal claim over texts; it needs the parser, the builder, the evaluator and the printer together.", "anchors": ["projects/sm-ast/src/evaluate/traits.rs: Runner::evaluate", "projects/sm-ast/src/evaluate/forward.rs", "projects/sm-ast/src/parser/parse.rs", "projects/sm-ast/src/ast/traits.rs: Display for AST"]}
{"id": "C65", "title": "Leading blanks and positions do not matter", "statement": "White space and line comments in front of any text at all, accepted, rejected or fatal to the parser, change nothing but the recorded positions: the same texts are rejected, the same texts make the parser panic, and every other text gives the same expression, the same value in a session and the same display on the page. The file name does not matter either. Two expressions that differ in positions only are printed, set as formulas and exported alike.", "quantifier": "all texts, all blank texts in front (any white space and line comments), all file names, all expressions, both pointer widths, all Unicode tables that satisfy the stated laws", "why_tests_cant": "The claim compares two runs of the parser on every possible text, including texts that fail somewhere deep in the grammar; a single rule that looks at the absolute position or at what was consumed before would break it for some text only.", "anchors": ["projects/sm-parser/src/sm_parser.rs: skip, program", "projects/sm-ast/src/parser/parse.rs: ParserSettings::parse", "projects/sm-ast/src/parser/traits.rs: get_position", "projects/sm-ast/src/ast/traits.rs: Display for AST", "projects/sm-ast/src/traits/tex/mod.rs", "projects/sm-ast/src/traits/wolfram/mod.rs"]}
{"id": "C66", "title": "Unfinished and foreign notation is refused", "statement": "Outside string literals and comments, a text that the parser accepts consists of white space, characters of identifiers and the 36 signs of the grammar only. White space aside, it begins with an operand, a semicolon or an annotation, it does not end with an operator other than *, and behind every operator stands a character that an operand can begin with. So whatever surrounds it, an unknown sign such as <, & or $, an operator at the end, and pairs such as ->, ==, >=, := or |> make the parser report a parse error; it neither panics nor ignores them. If the text contains no word of a statement, the same holds of every pair of neighbouring characters outside a fixed table, for example of two points. (Violation of the documentation: ranges a..b, pipes x |> f, rules -> and definitions := are described in the handbook, and all of them are refused.)", "quantifier": "all texts, all surroundings of the sign or pair, all Unicode tables that satisfy the stated laws", "why_tests_cant": "The claim is about every text in which the sign or the pair occurs anywhere; a single rule of the grammar, reached through any nesting, that lets an operator stand at the end would refute it.", "anchors": ["projects/sm-parser/src/sm_parser.rs", "projects/sm-parser/simple-math.pest", "projects/sm-ast/src/parser/parse.rs: ParserSettings::parse", "projects/sm-book/docs/cn/starter/function.md", "projects/sm-book/docs/cn/developer/operators.md", "projects/sm-algorithm/Readme.md"]}
{"id": "C67", "title": "Block comments", "statement": "No text that begins, after blank space, with a block comment mark %%% is ever given a value: the parser refuses it or panics. If the number of marks is odd and no other percent sign occurs, the text is refused, whatever stands between the marks. If it is even, the comment at the first mark ends at the second mark, so comments do not nest; the text is refused if what stands behind that comment is refused by itself and makes the parser panic otherwise. In particular every text of block comments and blank space panics. Finding this out takes at least 2^(n-1) calls of grammar rules for n comments. (Violation: comments are meant to be skipped, at no such cost.)", "quantifier": "all texts, all Unicode tables that agree with the standard on the characters of the grammar, any number of comments", "why_tests_cant": "The claims hold for every content of the comments and every text behind them, and the lower bound grows without limit.", "anchors": ["projects/sm-parser/src/sm_parser.rs: COMMENT, MultiLineComment", "projects/sm-parser/simple-math.pest:185", "projects/sm-ast/src/parser/parse.rs: ParserSettings::parse"]}
{"id": "C68", "title": "Line breaks and semicolons end expressions", "statement": "A line break after an expression ends it unless an infix operator or a semicolon follows: names, numbers, brackets, prefixes and suffixes on the next line are not joined to it, so calls, indices, coefficients and juxtaposed factors do not span lines. The text is refused if the following lines are refused by themselves, and has the value of the expression otherwise. A semicolon (; or ;;) ends an expression whatever follows. An infix operator joins its operands over any blank space, line breaks and line comments on either side.", "quantifier": "all well-formed expressions and operands, all following texts, all blank space, all Unicode tables that agree with the standard on the characters of the grammar", "why_tests_cant": "The continuation is arbitrary text, including text the grammar refuses; no list of samples covers every pair of expression and continuation.", "anchors": ["projects/sm-parser/simple-math.pest: program, statement, expression, expr", "projects/sm-ast/src/parser/parse.rs: ParserSettings::parse"]}
{"id": "C69", "title": "Coefficients and signs bind tighter than powers", "statement": "A product written by juxtaposition is one operand for every infix operator: 1/2x is 1/(2x), and P^x is the power of the whole product P for every product of two or more numbers and names. A prefix operator also binds tighter than a power: -n^x is (-n)^x. (Violation: the documented polynomial 3x^2 means 3(x^2), and -x^2 means -(x^2); the result is never that expression.)", "quantifier": "all products of numbers and names, all operands and exponents, all infix operators, all blank space between them", "why_tests_cant": "The reading depends on the interplay of grammar and precedence climber for every operand; samples cannot rule out one where the documented reading is found.", "anchors": ["projects/sm-parser/simple-math.pest: term, space_call", "projects/sm-ast/src/parser/parse.rs: parse_expr, parse_term", "projects/sm-book/docs/cn/basic/readme.md: 2x + 3x^2"]}
{"id": "C70", "title": "Products of anything but integers and names", "statement": "The grammar lets decimals, literals with a radix and calls be factors of a product written by juxtaposition, and the documentation writes 2 sin(x). A text should then parse to the product of the factors. (Violation: if one of the factors is a decimal, a radix literal or a call, the parser panics, whatever the other factors are and whatever prefixes, suffixes, operators and terms surround the product.)", "quantifier": "all products with at least one such factor at any place (a call at the first place is not part of a product), all surrounding prefixes, suffixes and operators with terms", "why_tests_cant": "The factors, their number and the expression around them are arbitrary.", "anchors": ["projects/sm-parser/simple-math.pest: space_call", "projects/sm-ast/src/parser/parse.rs: parse_space_call", "projects/sm-algorithm/Readme.md: 2 sin(x) => 2 * sin(x)"]}
{"id": "C71", "title": "Juxtaposition beside brackets, calls and suffixes", "statement": "Writing an operand beside a closed operand should multiply them, as it does for numbers and names; the documentation writes sin(x) cos(x). (Violation: an expression in brackets, a list, a call, a term with a suffix, or an integer before a bracket ends the expression when an operand follows on the same line, with or without white space. The operand begins the next statement: the text is refused if the rest is refused by itself, and otherwise the rest is dropped silently. (a)(b) is a, sin(x) cos(x) is sin(x), and a session answers 2(3+4) with 2.)", "quantifier": "all well-formed expressions with a closed last term, all texts after them that begin neither with white space nor with an operator, a semicolon or a suffix, all white space between them", "why_tests_cant": "The expression and the text after it are arbitrary; the result is a plausible value, not an error, so that only the comparison with the intended reading shows the loss.", "anchors": ["projects/sm-parser/simple-math.pest: statement, expr, term, node", "projects/sm-ast/src/parser/parse.rs: parse", "projects/sm-algorithm/Readme.md: sin(x) cos(x)"]}
{"id": "C72", "title": "Answers can be typed in again", "statement": "If a session answers a text, then it answers the answer with the answer itself: results can be copied into the next input. This holds for every number, truth value and name, whatever expression led to it, at any time. (Violations: strings are printed without quotes, so that the answer to \"2*3\" is 2*3 and the answer to that is 6; a name that begins with a statement word is answered in brackets, but makes the call panic by itself, like letter; the answer to null is std::constant:Null, which is refused.)", "quantifier": "all submitted texts that get an answer, all histories of the session, both pointer widths", "why_tests_cant": "It relates the printer to the parser for every value that any text can evaluate to; printed values that cannot be read back, like 0.05, must be shown to be out of reach.", "anchors": ["projects/sm-ast/src/ast/traits.rs: Display for AST, Display for Symbol", "projects/sm-ast/src/evaluate/traits.rs: Runner::evaluate", "projects/sm-ast/src/parser/parse.rs: parse_data, parse_special"]}
{"id": "C73", "title": "Exactly which expressions make the parser panic", "statement": "A text that the grammar admits as an expression should yield a tree or an error, never a panic. (Violation, stated exactly: the parser panics if and only if one of these forms occurs in the part of the expression that it looks at: a dictionary, a derivative like f'(x), a product by juxtaposition with a decimal, a radix literal or a call as factor, the prefix ¬, a suffix other than ! and !!, ##n, a radix literal with an underscore before its first digit, or a dot before a decimal, a string or a truth value, in brackets or not. Terms after the first operator outside + - * × / ÷ ^ . are not looked at, at every level. Everything else yields a tree.)", "quantifier": "all well-formed expressions with all nestings of brackets, lists, calls, named arguments, indices, spans, dictionaries, prefixes, suffixes and operators, and all blank space around them", "why_tests_cant": "It is an equivalence over an infinite nested language: that nothing else panics cannot be seen from samples.", "anchors": ["projects/sm-parser/simple-math.pest: expr, term, node, dict, space_call", "projects/sm-ast/src/parser/parse.rs: parse_expr, parse_term, parse_node, parse_data"]}
{"id": "C74", "title": "The work of parsing is bounded", "statement": "Parsing a text takes a number of parser function calls that is exponential only in the number of the signs ( [ { % = @ in it: at most 16226 (n+1)^5 (24287 (n+1)^5)^k calls for a text of n characters with k of these signs. In particular a text without them is parsed in polynomial time, whatever its length and whatever is in it, and whether it is accepted or refused. (With nested brackets the work is in fact exponential, see C58.)", "quantifier": "all texts, valid or not, all Unicode tables", "why_tests_cant": "A parser without memoisation can be fast on every tested text and exponential on another one; only an analysis of all backtracking paths of the grammar excludes it.", "anchors": ["projects/sm-parser/simple-math.pest: program, statement, expression, expr, term, node, skip", "projects/sm-parser/src/sm_parser.rs: SMParser"]}
{"id": "C75", "title": "The statements of the language are accepted, but only expressions can be run", "statement": "Every text of statements is accepted by the grammar: return, break, pass, let with names, types and values, def with parameters, types, defaults and bodies, if with one to three branches or with then, else and otherwise, for loops, blocks nested in any way, using with paths, groups, aliases and files, class, trait and extends with any members, annotations, expressions, separated by semicolons or line breaks. Yet if the first statement is not an expression, parsing such a text panics; and if it is one, the answer is that expression alone and everything after it is forgotten. The form of the documentation, if c {a} else {b}, is refused for every condition, every first branch and practically every second one.", "quantifier": "all texts of the statement language, of any length and depth, with any names, any expressions and any white space, all lawful Unicode tables", "why_tests_cant": "The statements nest and combine without bound, and white space and ends of statements interact with what follows; tests try a few programs.", "anchors": ["projects/sm-parser/simple-math.pest: statement, importStatement, classStatement, traitStatement, extendStatement, short_statement, annotation, controlFlow, if_statement, for_statement, assignStatement, defineStatement, block", "projects/sm-ast/src/parser/parse.rs: parse", "projects/sm-ast/Readme.md: range(50)"]}
{"id": "C76", "title": "No expression can begin like a statement", "statement": "A text that begins with break or pass, with return and a name or digit, with let, class, trait or using and a name, with let and names in brackets, with def, a name and parameters, or with a semicolon, is never answered: parsing panics or refuses it, whatever follows. Blank space after the word is not needed, so expressions that begin with a name like letter, passed, returns, classify or define(x) cannot be entered.", "quantifier": "all such beginnings and all texts after them, all lawful Unicode tables", "why_tests_cant": "A negative statement over all continuations of infinitely many names.", "anchors": ["projects/sm-parser/simple-math.pest: statement, re_control, assignStatement, classStatement, traitStatement, importStatement, defineStatement", "projects/sm-ast/src/parser/parse.rs: parse"]}
{"id": "C77", "title": "Summing primes takes sublinear work", "statement": "Summing the primes up to n enters the bodies of its two loops at most 3 n^(3/4) times altogether, and keeps a table of at most 2 sqrt(n) + 2 entries; with and without overflow checks, also where the result has overflowed.", "quantifier": "all n below 2^64, both settings of the overflow checks", "why_tests_cant": "A bound on the work for all n; a benchmark measures a few.", "anchors": ["projects/sm-algorithm/src/prime/prime_sum.rs: prime_sum_u64"]}
{"id": "C78", "title": "Modular arithmetic takes few divisions", "statement": "The extended gcd of a and b, and with it the modular inverse, divides at most five times for every decimal digit of b (Lame's bound), since k divisions need a |b| of at least the (k+1)-st Fibonacci number; the bound is attained on consecutive Fibonacci numbers. The Chinese-remainder function for n moduli of at most d decimal digits divides or takes a remainder at most n^2 + 5 n d times, whether or not there is a solution.", "quantifier": "all integers, all lists of residues and moduli", "why_tests_cant": "A bound on the work for all inputs, together with the worst case.", "anchors": ["projects/sm-algorithm/src/basic/mod.rs: extended_gcd2", "projects/sm-algorithm/src/basic/mod.rs: modulo_inverse", "projects/sm-algorithm/src/basic/mod.rs: chinese_remainder"]}
{"id": "C79", "title": "What the Wolfram export keeps and loses", "statement": "Two expressions read from texts are exported to Wolfram alike if and only if they are the same up to positions, the paths in front of names, operators being calls, and function names that are exported alike; numbers are then printed alike. This needs that no function exported as Rule and no symbol True or False occurs. (Violations otherwise: a named argument f(k: v) is exported like f(rule(k, v)), the truth values like the symbols True and False, factor like any function exported as FactorInteger.)", "quantifier": "all pairs of texts, all functions capitalising names", "why_tests_cant": "Injectivity quantifies over all pairs of expressions of any depth.", "anchors": ["projects/sm-ast/src/traits/wolfram/mod.rs: to_wolfram"]}
{"id": "C80", "title": "Parsing recurses as deeply as the text is nested, without a limit", "statement": "The parser functions active at the same time while a text is parsed number at most 14 plus 7 for each of the signs ( [ { % = @ in it; so a text without these signs is parsed in constant depth however long it is. Conversely a text that begins with n opening parentheses takes a depth of more than 3 n and one that begins with n nested calls more than 6 n, whatever follows, and n unfinished calls show that 7 for each sign is needed. (Violation: for every stack there is an accepted text of proportional length, a name within parentheses, that overflows it; there is no limit on nesting and no error for it.)", "quantifier": "all texts, all nesting depths", "why_tests_cant": "A bound over all texts, and a growth without bound that no finite sample shows.", "anchors": ["projects/sm-parser/src/sm_parser.rs: expr", "projects/sm-parser/src/sm_parser.rs: apply_call", "projects/sm-parser/src/sm_parser.rs: space_call"]}
{"id": "C81", "title": "Printing is linear in the text, answers are bounded but astronomically large", "statement": "An expression read from a text of n characters is printed with at most 8 n characters. An answer given without error to a text of n characters has at most 8 (n + 1) M characters, where M is the lesser of 16^n and 2^64. (Violation: nothing keeps answers small; for every k up to 19 there is a text of k + 4 characters that is answered with 10^k + 1 characters, so a text of 23 characters asks for an answer of more than 10^19 characters, that is, exhausts memory instead of reporting an error.)", "quantifier": "all texts, all histories of the session, both word sizes", "why_tests_cant": "A bound over all texts and all answers; and the long answers do not fit into the memory of a test machine.", "anchors": ["projects/sm-ast/src/evaluate/forward.rs: evaluate_power", "projects/sm-ast/src/ast/traits.rs: impl Display for AST"]}
{"id": "C82", "title": "What the book promises about the language", "statement": "The book says that options a function does not handle are ignored: calls that differ in their keyword arguments only, in number, order, names or values, get the same answer. (Violations of the book: a text that begins with a percent comment is refused; a backslash, which the book uses to continue lines, is refused wherever it stands outside strings and comments; a first line that begins with #! is not removed but read as an expression whose value is the answer; a**b is an error for all numbers instead of a times ten to the b; numbers, strings and other literals can be indexed although the book says a caller must be a symbol.)", "quantifier": "all calls, texts, numbers, operands, histories and both word sizes", "why_tests_cant": "The book makes general promises; each needs an argument for all texts of a shape.", "anchors": ["projects/sm-book/docs/cn/basic/readme.md", "projects/sm-book/docs/cn/basic/function.md", "projects/sm-book/docs/cn/starter/literal.md", "projects/sm-book/docs/cn/developer/shortcoming.md", "projects/sm-ast/src/evaluate/forward.rs: evaluate_function"]}
{"id": "C83", "title": "The work of evaluation is linear in the text, except for factorials", "statement": "Evaluating what is read from n characters takes at most 48n+14 multiplications of integers, counting a power computed by the number library as one; the only exception is a factorial k!, which takes exactly k multiplications, with k less than half the word range and less than 16^n. (Violation: a one followed by up to 18 zeros and an exclamation mark, at most 20 characters, makes a 64-bit program begin 10^18 multiplications before it answers.)", "quantifier": "all texts, histories and word sizes", "why_tests_cant": "Running time is a claim about every text; the worst cases never finish in a test.", "anchors": ["projects/sm-algorithm/src/gamma/factorial.rs: factorial_fold_u", "projects/sm-algorithm/src/linear/fibonacci.rs", "projects/sm-ast/src/evaluate/forward.rs: evaluate_function"]}
{"id": "C84", "title": "Reading does not depend on the names", "statement": "If two expressions differ only in the names of variables and functions, renamed in any way that leaves the names alone which the parser itself produces, then both are accepted or both make the program panic, and what is read of the second is what is read of the first, renamed; names of keyword arguments and slots are kept. Evaluation then gives the renamed answer, and the same errors and panics, if the renaming also keeps the last parts of names that evaluation knows (first, last, length, factorial, fibonacci, plus, times, power) and makes no others into these; the rest of a name does not matter. (Violation: directly after a zero the name matters: 0a is a product, but a name that is a radix letter with digits, as in 0xF, is swallowed as a number.)", "quantifier": "all expressions of the language, all renamings, all names", "why_tests_cant": "Quantifies over all expressions and all maps from names to names.", "anchors": ["projects/sm-ast/src/parser/parse.rs: parse_data", "projects/sm-ast/src/parser/parse.rs: parse_node", "projects/sm-ast/src/evaluate/forward.rs: evaluate_function"]}
{"id": "C85", "title": "A variable may be replaced by an expression in parentheses", "statement": "If every occurrence of a variable in an expression is replaced by an accepted expression in parentheses, what is read is what was read before with the tree of that expression in place of the variable, whatever operators, calls, lists, indices, spans, prefixes and suffixes stand around it. The variable must not be a factor of a product without sign (C71) nor stand alone after a dot. (Violation: a.x is the call x(a), but a.(m+n) is read as the sum of a, m and n.)", "quantifier": "all expressions of the language, all variables, all replaced expressions", "why_tests_cant": "Quantifies over all contexts and all expressions put into them.", "anchors": ["projects/sm-ast/src/parser/parse.rs: parse_term", "projects/sm-ast/src/parser/parse.rs: parse_dot_call"]}
{"id": "C86", "title": "Reading and printing again and again", "statement": "Take the printed form of an expression of + - * / ^, signs, factorials, numbers and names. Reading it and printing what was read gives the same text, except that a pair of parentheses is lost for every sign or factorial that is applied to parentheses; it gives exactly the same text if and only if the expression that was read is one that is read back (C19). So reading and printing again and again comes to rest after at most as many rounds as there are parentheses, and nothing but parentheses is ever lost. Products written by juxtaposition are printed like products with signs. (Violations: the text can change its meaning on the way, -((a+b)*c) is printed -(a+b)*c, then -a+b*c; with × and ÷ parentheses can also appear, (a×b)^c is printed a×b^c, then a×(b^c).)", "quantifier": "all such expressions of any size, all numbers of rounds", "why_tests_cant": "Quantifies over all expressions and over unboundedly many rounds.", "anchors": ["projects/sm-ast/src/ast/traits.rs: fmt", "projects/sm-ast/src/ast/traits.rs: precedence", "projects/sm-ast/src/parser/parse.rs: parse_term", "projects/sm-ast/src/parser/mod.rs: CLIMBER"]}
{"id": "C87", "title": "Where a syntax error is reported", "statement": "A text is refused exactly when an error position is reported. The position lies in the text or right behind it, so line and column are ones of the text, and the message names at least one rule. If expressions ended by semicolons stand at the beginning, the position is not before their end. If there is no string literal and no comment before it, a character unknown to the language or a closing bracket with no open bracket of its kind has the text refused, whatever follows, and the position is not behind it; more generally the text before the position closes no bracket wrongly and has no unknown character. A closing bracket too many right behind such statements and one more expression, and an unknown character right behind such statements, are reported exactly where they stand.", "quantifier": "all texts, all continuations, all classifications of characters that agree with Unicode on ASCII", "why_tests_cant": "Quantifies over all texts and over everything that may follow the error.", "anchors": ["projects/sm-parser/src/sm_parser.rs: parse", "projects/sm-ast/src/error/traits.rs: ParseError", "projects/sm-ast/src/parser/parse.rs: parse"]}
{"id": "C88", "title": "An unfinished expression is reported at its end", "statement": "Take a text as it stands while an expression is being typed: finished statements, then an expression that stops behind an operator or a prefix sign, or inside parentheses, a list, an argument list or an index that is not closed yet, nested in any way. If it is refused, the position reported is the end of the text; no character that was typed is blamed. Without string literals and comments it is refused whenever its last character is an operator that needs an operand or brackets are left open. Putting further finished statements in front moves the position by their length.", "quantifier": "all unfinished expressions of any size and depth, all finished statements before them, all white space and comments between the parts, all classifications of characters that agree with Unicode on ASCII", "why_tests_cant": "There are infinitely many ways to nest what is not finished, and the position depends on which alternatives the parser tried on the way.", "anchors": ["projects/sm-parser/src/sm_parser.rs: parse", "projects/sm-ast/src/error/traits.rs: ParseError", "projects/sm-ast/src/parser/parse.rs: parse"]}
{"id": "C89", "title": "What a syntax error says was expected", "statement": "Exactly the refused texts get a sentence. It always has the form `expected A`, `expected A or B` or `expected A, B, ..., or Z`: it never says that something was unexpected and is never empty. It lists the rules that were tried at the reported position, each once, in the order in which they are declared; 92 of the 150 rules can occur in it. If a text breaks off behind an infix operator, whatever parentheses, lists, calls and indices are open there and whatever finished statements precede it, the end of the text is reported and `term` is listed.", "quantifier": "all texts, all classifications of characters that agree with Unicode on ASCII", "why_tests_cant": "Quantifies over all refused texts; which names are listed depends on every alternative the parser tried.", "anchors": ["projects/sm-parser/src/sm_parser.rs: Rule", "projects/sm-parser/src/sm_parser.rs: parse", "projects/sm-ast/src/error/traits.rs: ParseError"]}
{"id": "C90", "title": "Line endings and kinds of white space do not matter", "statement": "If two texts without quotation marks differ only in line endings (`\\n`, `\\r\\n` or a lone `\\r`, mixed at will) and in which white space character stands within a line, then the parser treats them alike: both are rejected, both make it panic, or both give the same expression but for positions; a session gives the same answer to both. In particular a text with line endings `\\n` is read in the same way with `\\r\\n`. Two texts are alike in this sense exactly if they become the same text when every line ending is written `\\n` and every other white space character as a space. Comments of both kinds are covered; string literals keep their line endings and have to be left out.", "quantifier": "all texts without quotation marks, all ways to replace line endings and white space, all classifications of characters that agree with Unicode on ASCII and the operators", "why_tests_cant": "Quantifies over all texts and all replacements; a grammar reads white space in many places, in comments, between tokens and within lines only, and each could treat `\\r` differently.", "anchors": ["projects/sm-parser/src/sm_parser.rs: NEWLINE", "projects/sm-parser/src/sm_parser.rs: WHITESPACE", "projects/sm-parser/src/sm_parser.rs: COMMENT", "projects/sm-ast/src/parser/parse.rs: parse"]}
{"id": "C91", "title": "Positions do not depend on how lines end", "statement": "If two texts without quotation marks differ only in whether lines end with `\\n` or `\\r\\n` (mixed at will, but no `\\r` alone) and in which white space character stands within a line, then parsing them gives the same result including all positions: every line number and every column recorded in the expression is the same. In particular a file gives the same expression after its line endings are converted. A `\\r` alone has to be left out: it ends a line for the grammar, but counts as a column of the same line for positions.", "quantifier": "all texts without quotation marks whose lines end with `\\n` or `\\r\\n`, all replacements of line endings and white space, all file names, all classifications of characters that agree with Unicode on ASCII and the operators", "why_tests_cant": "Quantifies over all texts; offsets shift by one more with every line, and a position is computed from offsets at every call, list, operator and index.", "anchors": ["projects/sm-parser/src/sm_parser.rs: NEWLINE", "projects/sm-ast/src/parser/traits.rs: get_position", "projects/sm-ast/src/parser/parse.rs: parse"]}
{"id": "C92", "title": "What a syntax error asks for does not stand there", "statement": "Every rule that a syntax error lists as expected was tried at the position reported and did not match there. So the message never asks for what is already written: if an operator, a comma, a semicolon, a colon, a quotation mark, a sign, a name, a number, a constant, a placeholder or an operand is listed, the text at the position does not begin with one (for an operand: with none of the literals, placeholders and names). If the end of the input is listed, the position is before the end of the text.", "quantifier": "all refused texts, all classifications of characters that agree with Unicode on ASCII and the operators", "why_tests_cant": "Quantifies over all refused texts; what is listed is collected over all alternatives the parser tried on the way and pruned when a parse gets further.", "anchors": ["projects/sm-parser/src/sm_parser.rs: parse", "projects/sm-parser/src/sm_parser.rs: Rule", "projects/sm-ast/src/error/traits.rs: ParseError"]}
{"id": "C93", "title": "Syntax errors do not depend on how lines end", "statement": "If two texts without quotation marks differ only in line endings (`\\n`, `\\r\\n`, `\\r`) and in which white space character stands within a line, then either both are accepted or both are refused with the same sentence of what was expected. If in addition no `\\r` stands alone, the error is reported at the same line and the same column. In particular converting a file between `\\n` and `\\r\\n` changes nothing about the error shown. This includes line endings in comments, which are read character by character.", "quantifier": "all texts without quotation marks, all replacements of line endings and white space, all classifications of characters that agree with Unicode on ASCII and the operators", "why_tests_cant": "Quantifies over all texts and all mixtures of line endings; offsets shift by one more with every line, and the record of what was tried compares offsets at every attempt.", "anchors": ["projects/sm-parser/src/sm_parser.rs: NEWLINE", "projects/sm-parser/src/sm_parser.rs: parse", "projects/sm-ast/src/error/traits.rs: ParseError"]}
{"id": "C94", "title": "What stands behind a syntax error does not matter", "statement": "What is reported for a refused text -- the place and what was expected there -- depends only on the text up to the reported place and the nine characters behind it: every other text that begins in the same way is refused with the same report. So an error is mended only by a change before the reported place or in the nine characters behind it; an error further back than that stays as it is however one goes on typing; and while an accepted text is typed, an error is shown only in its last nine characters. This holds if there is no quotation mark in what the texts have in common. (With one it fails: a string literal that is not closed is reported right behind its mark, and is mended at any distance.)", "quantifier": "all texts, all continuations, all classifications of characters", "why_tests_cant": "Quantifies over all texts and everything that may follow them; the parser backtracks over the whole text, so that nothing in its code bounds how far it looks ahead.", "anchors": ["projects/sm-parser/src/sm_parser.rs: parse", "projects/sm-parser/simple-math.pest: program", "projects/sm-ast/src/error/traits.rs: ParseError"]}
{"id": "C95", "title": "White space behind a text does not matter", "statement": "White space put behind any text changes nothing in how it is read: the text is accepted, refused or makes the parser panic exactly as before, an accepted text yields the same tree up to positions, and a session prints the same answer. This holds for every text, be it accepted or not, whether it ends within a string literal that is not closed, within a comment, in the middle of a number or of a word; so a line may be handed over with or without the line break that ends it.", "quantifier": "all texts, all runs of white space behind them, all classifications of characters, all sessions", "why_tests_cant": "Quantifies over all texts, the refused ones among them; whether white space is skipped is decided anew at each step of the grammar, and some of its rules read white space as content.", "anchors": ["projects/sm-parser/src/sm_parser.rs: parse", "projects/sm-parser/simple-math.pest: program", "projects/sm-parser/simple-math.pest: WHITESPACE", "projects/sm-parser/simple-math.pest: StringBlock"]}
{"id": "C96", "title": "How much white space stands in a gap does not matter", "statement": "Where there is white space in a text, there may be more of it, less of it or other white space: the text is accepted, refused or makes the parser panic exactly as before, an accepted text yields the same tree up to positions, and a session prints the same answer. Some must remain, and line breaks may neither be put into a gap without one nor all be taken out of a gap (a name and a bracket on one line are a call). Any number of gaps may be changed at once, in comments as well; string literals keep theirs, and are to be on one line, without the mark of a block comment in them.", "quantifier": "all pairs of texts that differ in the length of their gaps, accepted or not, all classifications of characters, all sessions", "why_tests_cant": "Quantifies over all texts and all ways to respace them; whether white space is skipped is decided anew at each step of the grammar, and some of its rules read white space as content.", "anchors": ["projects/sm-parser/src/sm_parser.rs: parse", "projects/sm-parser/simple-math.pest: WHITESPACE", "projects/sm-parser/simple-math.pest: apply_call"]}
{"id": "C97", "title": "Line comments do not matter", "statement": "Where there is white space in a text, line comments (///, //?, //!, //*), each ended by its line, may be added behind it, changed or taken out, both on lines of their own and at the ends of lines, if a line ends in that gap with and without them: the text is accepted, refused or makes the parser panic exactly as before, is read as the same program but for positions, and gets the same answer from a session. What is written in the comments, also quotation marks, operators and brackets, is never read as code. This holds for comments without the mark %%% of block comments (within a block comment such a mark would end it) behind at least one blank, in texts whose string literals are closed, each on one line, without that mark in them.", "quantifier": "all texts, all gaps in them in which a line ends, all comments without %%%, all classifications of characters", "why_tests_cant": "Quantifies over all programs, all places in them and all comments; the grammar has rules in which white space is read, forbidden or looked for without skipping comments, and a test can try only some of them.", "anchors": ["projects/sm-parser/simple-math.pest: COMMENT", "projects/sm-parser/src/sm_parser.rs: parse"]}
