# Formal model of GalAster/SimpleMath in Lean 4

## 1. What is modelled

| layer | code in /repo/projects | Lean modules |
|---|---|---|
| outcomes, texts, sorted maps | std | `Verif/Base/{Out,Str,BMap}` |
| number algorithms | `sm-algorithm/src/{error,basic,gamma/factorial,linear/fibonacci,prime/prime_sum,prime/prime_count}` | `Verif/Alg/*` |
| expressions: types, ordering, printing, symbol names | `sm-ast/src/ast/{mod,traits}.rs` | `Verif/Ast/{Types,Order,Display}` |
| built-ins, evaluator, rewriting, error translation | `sm-ast/src/{internal,evaluate,error}` | `Verif/Eval/{Forward,Error}` |
| session and web page | `sm-ast/src/evaluate/traits.rs`, `sm-playground/{src/lib.rs,index.html}` | `Verif/Eval/{Runner,Page}` |
| TeX and Wolfram export | `sm-ast/src/traits/{tex,wolfram}` | `Verif/Export/{Tex,Wolfram}` |
| pest combinators | pest 2.1 (external) | `Verif/Peg/Engine`, calls counted in `Verif/Peg/Cost`, failed attempts recorded in `Verif/Peg/Attempts`, the sentence about what was expected in `Verif/Peg/Message` |
| the generated grammar, rule by rule | `sm-parser/src/sm_parser.rs` | `Verif/Peg/{Grammar,Parse}` |
| the grammar file and the generator | `sm-parser/simple-math.pest`, `sm-parser/src/pre_build.rs` | `Verif/Peg/{PestFile,Generate}` |
| parse tree to expression, precedence climbing, positions | `sm-ast/src/parser/{mod,ops,parse,traits}.rs` | `Verif/Peg/Build` |
| translating a file | `sm-ast/src/parser/parse.rs: parse_file` | `Verif/Peg/File` |

`Verif/Props/*` has the specifications and the theorems. A theorem that is a claim about a property is called `Cnn_...`
after the id in properties.jsonl; MANIFEST.json lists them. A name ending in `_partial` proves part of its property, and
its comment says what is missing.

How things are represented:

* A Rust `Result` stays data. `panic!`, `unreachable!`, `unimplemented!`, a failed `unwrap`, an index out of range and an
  overflow that is checked are an outcome `panic` of their own. Printing, TeX and the parse-tree builder return an
  `Option`; there `none` is a panic.
* Big integers are `Int` and `Nat`. Machine words appear where the code narrows to them (`isize`, `usize`, `u64`, `u32`),
  with the bound explicit; the pointer width (32 or 64) and whether overflow is checked are parameters.
* Texts are `List Char`.
* The parser is a fuelled interpreter of the grammar. C33 proves that some fuel is always enough and that more fuel never
  changes the result; `smParse` runs with such fuel.
* A session is a state and a list of calls; the page is a session and a flag for the poisoned mutex.
* `Verif/Props/RepoTests` runs the repository's own assertions on the model; all hold.
* Comments on definitions give file and lines, and say where the model simplifies.

## 2. Trusted base

* Lean 4.33.0's kernel. The theorems use no axioms beyond `propext`, `Classical.choice` and `Quot.sound`; section 5 says
  which theorem uses which. There is no `sorry`, `native_decide` or `bv_decide`. `decide +kernel` is used for finite
  checks: it evaluates in the kernel and adds no axiom.
* That the definitions under `Verif/{Alg,Ast,Eval,Export,Peg}` say what the cited lines of /repo say.
* The crates the code calls are not in /repo. They are modelled from their documented behaviour:
  * `num-bigint`/`num-integer` 0.2: exact integers, truncated division, the `extended_gcd` loop, negating a non-zero
    `BigUint` panics, `from_str_radix` skips underscores except a leading one;
  * `bigdecimal` 0.1.2: parsing, `Display`, comparison by value;
  * `pest` 2.1: the `ParserState` combinators, the stack with snapshots, `PrecClimber`, `line_col`;
  * std `BTreeMap` as a sorted finite map; `Mutex` poisoning;
  * `text_utils::capitalize_first_letter`, the byte serialiser of `wolfram_wxf` and the texts of parse errors are
    parameters, so the theorems hold whatever they do.
* The Unicode tables for XID_START, XID_CONTINUE and WHITE_SPACE are a parameter `Uni`. Theorems about the whole parser
  either hold for every `Uni`, or assume `Lawful u`: on ASCII and on the few other characters that the grammar mentions the classes are
  what Unicode says, characters that start identifiers also continue them, and those are not white space. `lawful_asciiUni` shows
  that this can be met.
* For C48: nobody else writes to the file system during the call, and a call that fails or panics stops there.

Not modelled:

* stack overflow, memory exhaustion and running time, except where a property counts steps (C04, C58, C78) or calls within
  each other (C80; the size of a stack frame is not modelled) or characters of answers (C81);
* the layout of parse errors (the position lines, the quoted line and the caret around the modelled sentence), and `Debug` output;
* `println!` and other output on the console;
* `Context::symbols` and `ParserSettings::refine`, which no code reads;
* functions whose body is `unimplemented!()`: `internal/{container,dict_like,expr_like,random}.rs`, most of
  `internal/{elementary,list_like,number_theory}.rs`, `sm-algorithm/src/cache`; they panic on every input;
* files without code: `combinatorics`, `digits`, `gamma/{binomial,factorial2,gamma}`, `prime/twin_prime`;
* predicates that nothing calls (`ast/traits.rs:118-197`) and the type `Expression`;
* the benches and `sm-std/**/*.sm`.

## 3. How each property is proved

* C01 factorial: fold over a range, induction; the three branches by cases on word bounds.
* C02-C04 Fibonacci: the memo table is threaded as state; every entry is F(key); the wrong answers at negative indices are
  a theorem; the amount of work is counted.
* C05 power: case analysis.
* C06-C09 gcd family: Bezout invariant of the `extended_gcd` loop, consumers proved from it.
* C10-C11 Chinese remainders: invariant of the mixed-radix partial sums.
* C12-C13 prime sums: sieve over a sorted value list with checked or wrapping words; after processing p, `s v` is the sum
  of the numbers in 2..v that are prime or have no factor up to p.
* C14 tables: dispatch for all integers. The values up to 10^7 are compared with the true ones by a sieve on binary
  numbers (`PrimeBits`), which is proved correct and then run by the kernel, a million numbers at a time. Of the
  larger entries only the size (from Chebyshev's bounds on primorials and central binomial coefficients) and the parity
  are proved (`PrimeSize`).
* C15 order, C16 symbol names, C17 keyword arguments: structural induction, sorted-map laws.
* C18 printing: structural recursion. C19 round trip: an arithmetic expression is read back from its printed form if and
  only if it is in a canonical shape; the collisions are theorems.
* C20-C27, C32, C51 evaluator, session, page: case analysis; invariants over histories.
* C28-C30 TeX: the panics as an independent predicate; brace balance by induction.
* C31 Wolfram export: structural recursion.
* C33-C35 grammar engine: a decidable rank/nullability check of the grammar gives termination; spans by induction;
  operators that can never be reached by a decidable check of alternatives.
* C36-C37 precedence climbing: a theorem about the climbing loop and an independent definition of grouping.
* C38-C46, C49, C50, C52, C53 the language: `Syn` says how expressions are written and what they mean, `Read` proves by
  induction that the grammar and the builder read them like this. `Calc`, `Block` and `Lex` ... `Items` build up the rules
  for running the grammar on texts of which only the beginning is known.
* C47 positions: every position is that of a span. C48 file translation: effects as a list, with a crash after any of them.
* C54 answers: C53, C22 and the evaluator together.
* `Deriv` reads the grammar as a context-free grammar and proves that every accepted text has a derivation (C34). C55
  brackets: the effect of each rule on the awaited brackets is computed, and its correctness proved by induction over
  derivations.
* C56 readings: `Reads` is a context-free grammar with the meaning and positions of its phrases. By induction on the length
  of the text, every derivation of `Deriv` from which the builder makes a tree is a phrase of `Reads` with that meaning.
* C57 typed trees: induction over `Reads`.
* C58 cost: `calls` counts the calls of parser functions along `run`; lower bounds by a calculus parallel to that of C53.
* C59 grammar file: `PestMeans` defines what the notation of grammar files means, as a relation without states or steps;
  `PestLaws` proves that it has one outcome and that the generator's rewriting keeps it. The generator's output for the
  transcribed file equals the transcribed parser (checked by the kernel), and `Pest` proves by induction on fuel that
  generated code does what the expression means. The model of the generator is not trusted: only its output counts.
* C60 panics: `Spot` lists the pieces. By induction on the length, the builder makes a tree from every derivation of a text
  without them. `Alike` proves that what an expression accepts depends only on the text ahead and the atomicity.
* C61 clicks: an invariant over the list of clicks; the texts on the page by C54. C62 formulas: `Formulas` relates arguments to
  their TeX; one equation per case.
* C63 numerals: `Spells` says which text stands for which rational number; cases on the place of the point. C64: `Worth` gives
  expressions their value; C56 and C57 reduce the claim about texts to typed trees, and then to cases of the evaluator.
* C65 leading blanks: the interpreter commutes with moving the position (induction on fuel, for expressions that cannot reach
  the start-of-input test), the space rule absorbs blanks in front of any text, and building commutes with removing spans.
* C66 neighbours: an analysis of the grammar (first and last characters of each rule, who may follow whom), checked against
  every rule by the kernel and proved correct for every derivation; tables are literals, claims are in terms of characters.
* C67 block comments: texts are cut at their marks (`marked`), results are compared with what the parser makes of the text
  behind the first comment, and work is counted as in C58.
* C68 line breaks: the text behind the break is any text that does not begin with an operator or semicolon (`Anew`);
  the result is compared with what the parser makes of that text alone.
* C69 coefficients and signs: products and powers are written out as trees (`timesOf`, `powerOf`); the documented reading is
  a separate definition (`meant`).
* C70 mixed products: the factors that the grammar admits are a type of their own (`SFac`) with their own text; what is
  proved is the panic of the parser on the whole text.
* C71 juxtaposition beside brackets: which operands are closed, and what may follow, is stated on the written syntax
  (`SExpr.Closed`, `Beside`); the conclusion compares the answers of the parser for the whole text and for the rest alone.
* C72 answers can be typed in again: sessions only (`Answers`); the exceptions are strings, `null` and names (`Path`)
  that begin with a statement word.
* C73 exactly which expressions make the parser panic: expressions of the language (`SExpr`) that do not begin with a
  statement word, as whole texts; statements are left out.
* C42 which identifiers are symbols: exact where the comments after the identifier hold no opening brace; of the identifiers
  that are no symbols it is shown which value they yield or that they panic or are refused, not which of these two.
* C74 the work of parsing is exponential at most in the number of the signs `(`, `[`, `{`, `%`, `=`, `@`, and polynomial
  without them: a static analysis of the grammar (tables of coefficients and degrees for the rules) is proved sound for
  every grammar, and the kernel checks the tables against this one.  Calls of parser functions are counted, as in C58.
  The bound is not sharp: signs side by side count like nested ones.
* C75 the statements of the language: texts of them are accepted, whatever their nesting, white space and ends; unless
  the first is an expression the parser panics, and otherwise everything after the first is forgotten.  The documented
  `if c {a} else {b}` is refused.  Not described: types joined by `|`, a comma after the last branch of
  `if c {a, b}`, and semicolons in a row.
* C76 no expression can begin like a statement: texts that begin with `letter`, `passed` or `define(x)` are never
  answered, whatever follows.
* C77 the work of summing primes: the loops are entered at most 3 n^(3/4) times, the table has at most 2 √n + 2
  entries (`primeSumU64C` counts, and `primeSumU64C_erase` shows that counting changes nothing).
* C78 the work of extended gcd, modular inverse and Chinese remainders: Lamé's bound, attained by Fibonacci numbers
  (`extendedGcdC`, `chineseRemainderC` count, the `_erase` lemmas show that counting changes nothing).
* C79 the Wolfram export is injective up to what it documents to drop, for any capitalising function; and exactly what
  collides (`Same`, `Clear`).
* C80 how deeply the parser functions call each other (`depth`, the recursion of `run` with a maximum in place of a sum):
  bounded by the number of the six signs for every text, with the constant attained; no nesting limit exists.
* C81 how large printed expressions and answers are: a measure of expressions (`bulk`), bounded by the length of the text through
  the readings of C56, bounds the printed form; with C64, which lists every answer, it bounds the answers.
* C82 the promises of the book: corollaries of C17, C50, C54, C66 and C68, and one refusal proved from the grammar.
* C83 the work of evaluation: evaluation with a counter of multiplications, shown to be the evaluation of the model, and bounded with C81.
* C84 renaming: induction over the syntax of C53; every step of building commutes with renaming.
* C85 substitution: induction over the syntax of C53; the operand of a dot is always a single term because the dot binds tightest.
* C86 rounds of reading and printing: the terms of the printed form are regrouped; an operand in parentheses keeps them because the operator it ends up under is at least as strong as the one it was printed under, which needs that the printing precedences follow the grouping (not true of `×` and `÷`).
* C87 error positions: pest's record of failed attempts is threaded through the engine and projects back to it. A static analysis gives for every rule the brackets it leaves open; by induction over the run, the parser never stands behind a wrongly closed bracket or an unknown character, so no attempt is recorded there. That finished statements are passed over follows from how they are read, and the record reaches the end of what was accepted because the end of the text is tried there.
* C88 unfinished expressions: by induction over how the expression is left open, the parser reaches the end of the text along its first alternatives and fails a rule there, and the record of failed attempts keeps the position furthest on (C87). That such texts are refused follows from C55 and C66. Dictionaries and string literals that are not closed are not covered.
* C89 what was expected: a static analysis computes in which circumstances each rule can be called; it is closed under the grammar, and in none of them is a rule recorded under a negative lookahead. Sorting and removing repetitions are as in pest. Once a name is recorded at a position it stays unless the record moves on, and where an operand is missing at least two rules inside `term` fail, so that `term` itself is recorded.
* C90 line endings: the two parses run in step. Every expression of the grammar falls into one of three kinds: it reads no white space, it reads white space or a line ending as a unit, or it stands behind a quotation mark; a static check over all rules shows this, and block comments are followed character by character. Building an expression looks at the texts of names, literals and operators only, and these contain no white space (Thin).
* C91 positions and line endings: the same two parses in step as for C90, now with the places of offsets kept. Building an expression uses spans only to compute positions (Moved): moving all spans to offsets that stand for the same places, in a common text made of spaces, changes nothing.
* C92 what is listed as expected: the record of rules tried (Attempts) only ever holds rules whose function failed at the recorded position (Honest). For the texts named in the table `standsFor`, a check of the grammar shows that the rule cannot fail on a text that begins so. Rules not in the table (statements, calls, lists and the like) are covered by C92_missing only.
* C93 syntax errors and line endings: the two parses in step of C90, now with the records of attempts (Faults). Corresponding offsets are in the same order, as they count characters and line endings, so the records make the same comparisons. In a comment the records differ between `\r` and `\n`, but what was tried there is overtaken by the next attempt.
* C94 the text behind an error: two texts with the same beginning are parsed in step until the parse of the first comes near the end of what they share. Tables computed from the grammar say how many characters an expression looks at, and that wherever an expression may fail after reading on, a rule was tried there, so that the record of attempts has moved on as well (Behind).
* C95 white space behind a text: a text and the same text with white space behind it are parsed in step; once the first is at its end, the second is somewhere in the white space, where no expression of the grammar that reads only white space makes a difference. String blocks, whose end depends on their beginning, are followed by hand, and at the end of the program the rest is skipped (Trailing).
* C96 the length of gaps: two texts that differ in their gaps are parsed in step; where the grammar repeats something within white space, it reads on to the end of the gap, or to the end of the line in both; a string literal is read as a whole, or passed over as a whole within a comment (Spacing).
* C97 line comments: the proof of C96 with gaps that contain comments behind their first white space; skipping passes over such a gap as a whole, what is looked for behind white space on the same line (arguments, slices, operands of a call) is found neither at the end of a line nor at a comment, and within a block comment the gap is passed over as text (Spacing, Remarks).

## 4. Where the code falls short

Each of these is a theorem (property in brackets).

* Fibonacci numbers at negative indices panic or are wrong (C03). `power_iu` answers 0 for a^0 and 1 for a^1 (C05). A power
  with an exponent out of range is answered with the base (C21). Modular division uses the wrong Bezout coefficient (C08).
  Chinese remainders panic on empty lists and zero moduli (C11). Prime sums panic at 0, and from 2^32 on they panic or are
  wrong, depending on overflow checks (C13).
* Different expressions print alike, and printing then parsing changes the meaning (C19).
* `1 + 2` is an error: `+ - /` and signs are never evaluated; nested operations are not evaluated either (C21, C54).
* A panic during a call poisons the page for good: an empty input is enough (C25, C54). TeX panics on every program, on
  prefix and suffix operators and on the empty list (C28).
* `==`, `>=`, `//` and other operators can never be parsed (C35). `%`, `=`, `>` and tensor operators drop the rest of the
  expression (C37). `1.05`, `0x_F`, `##5`, `letter`, `x'`, `x?`, `¬x`, dictionaries and derivatives panic (C38-C46).
  `trueish` is read as `true` (C42). Only the first statement of a text counts (C46).
* Every statement other than an expression makes the parser panic, and so does `2 f(x)` (C60).
* Parsing nested indices, and refusing unfinished nested calls, takes exponential time (C58).
* Texts that begin with a block comment are refused or panic, after time exponential in the number of comments (C67).
* `3x^2` is read as `(3x)^2`, `-x^2` as `(-x)^2` (C69).
* `2 sin(x)`, `x 0.5` and `2 0xFF` panic (C70).
* `(a)(b)` is read as `a`, `2(3+4)` is answered with `2`, `sin(x) cos(x)` is read as `sin(x)` (C71).
* `null` is answered with `std::constant:Null`, which is refused; strings are answered without quotes (C72).
* dictionaries, derivatives and some other forms that the grammar admits make the parser panic (C73).
* the number of parser calls is polynomial in texts without ( [ { % = @ (C74).
* statements are accepted but panic, unless the first is an expression (C75).
* expressions whose first name begins like a statement, such as `letter + 1`, panic or are refused (C76).
* Nothing limits the nesting: the parser recurses three to seven functions deep for every bracket (C80).
* Short texts can ask for answers that no memory holds, and no limit stops them (C81).
* Several things the book describes do not exist: percent comments, continued lines, the `#!` line, `2**5` (C82).
* `1000000000000000000!` starts a computation that never ends (C83).
* `a.(1+2)` is read as `a+1+2` (C85).
* `-((a+b)*c)` is printed `-(a+b)*c`, and this is read and printed as `-a+b*c` (C86).
* After one error the page answers nothing any more; each of the texts that it offers is such an error (C61).
* Formulas have two backslashes before every command, `a subtract b` for a difference, no third operand and no needed
  brackets (C62).
* Wrong answers without an error: large powers, factorials of decimals, lengths in bytes, ignored arguments and operands (C64).
* Translating a file creates the target before serialising, so a panic leaves it empty (C48).

## 5. Axioms

Of the 407 property theorems (`#print axioms`):

`none` (1):

`C20_rewrite`

`propext` (41):

`C01_factorial_negative`, `C01_factorial_total`, `C05_power_zero_zero`, `C16_injective`, `C16_text_round_trip`,
`C20_atoms_evaluate_to_themselves`, `C20_result_is_atom`, `C20_results_are_final`, `C21_add_unimplemented`,
`C21_plus`, `C21_product`, `C26_result_printable`, `C27_first_last`, `C27_first_last_empty`, `C29_unbalanced_string`,
`C31_namespace_lost`, `C32_head_atom`, `C32_head_call`, `C32_head_iterate`, `C32_head_kind`, `C37_dropping_operators`,
`C46_any`, `C48_crash`, `C48_only_target`, `C48_panic`, `C48_success`, `C48_untouched`, `C50_spans`,
`C51_error_translation_injective`, `C51_missing`, `C51_operands`, `C59_generated`, `C61_fine_iff`, `C62_atoms`,
`C62_call`, `C62_operands_lost`, `C64_worth_unique`, `C79_collide`, `C79_rule`, `C89_listed`, `C89_named`

`propext, Quot.sound` (57):

`C01_factorial_fold`, `C01_factorial_overflow`, `C01_factorial_value`, `C02_fibonacci_fold`, `C02_fibonacci_overflow`,
`C05_power_one_exponent`, `C05_power_overflow`, `C05_power_trivial_base`, `C05_power_value`, `C06_extended_gcd`,
`C07_inverse_exists`, `C07_inverse_sound`, `C07_inverse_zero_modulus`, `C09_coprime_iff_inverse`, `C09_is_coprime`,
`C11_crt_empty`, `C11_crt_length`, `C15_kinds_first`, `C15_kinds_listed`, `C15_symbol_kinds_listed`,
`C16_symbol_round_trip`, `C18_unary_pattern`, `C21_factorial`, `C21_power_out_of_range`, `C21_power_wrong_witness`,
`C24_last_is_pure`, `C27_length_ascii`, `C28_display_panics_iff`, `C29_tex_braces_balanced`, `C30_expression_height`,
`C30_no_stretched_delimiters`, `C30_parameter_height`, `C31_atoms`, `C31_call`, `C31_call_spine`, `C40_leading_zero`,
`C42_letter`, `C42_trueish`, `C46_let`, `C47_start_before_end`, `C48_possible`, `C51_error_translation`,
`C51_factorial_errors`, `C60_pieces`, `C60_statements`, `C62_brackets_lost`, `C62_infix`, `C62_list`, `C62_named`,
`C62_options_lost`, `C65_file_name`, `C65_rendering`, `C79_export`, `C80_bounded`, `C87_reported`, `C89_iff`,
`C90_unify`

`propext, Classical.choice, Quot.sound` (308):

`C02_fast_eq_fold`, `C02_fibonacci_fast`, `C02_fibonacci_value`, `C03_fibonacci_negative_even`,
`C03_fibonacci_negative_odd`, `C03_fibonacci_negative_wrong`, `C03_witness`, `C04_fibonacci_calls`,
`C04_fibonacci_work`, `C05_power_correct_iff`, `C05_power_zero_exponent`, `C06_coefficient_bound`,
`C07_inverse_range`, `C08_division_exists`, `C08_division_panic`, `C08_division_solves_swapped`, `C08_division_wrong`,
`C10_crt_sound`, `C11_crt_complete`, `C11_crt_zero_modulus`, `C12_prime_sum`, `C13_builtin`, `C13_builtin_checked`,
`C13_builtin_other`, `C13_builtin_wrong`, `C13_prime_sum_assertion`, `C13_prime_sum_checked_overflow`,
`C13_prime_sum_huge`, `C13_prime_sum_i_checked`, `C13_prime_sum_i_zero`, `C13_prime_sum_negative`,
`C13_prime_sum_release`, `C13_prime_sum_release_exact`, `C13_prime_sum_release_wrong`, `C13_prime_sum_untabulated`,
`C13_prime_sum_zero`, `C14_parity`, `C14_prime_count_domain`, `C14_prime_count_rejects`, `C14_prime_count_size`,
`C14_prime_count_values_partial`, `C14_prime_sum_size`, `C14_prime_sum_values_partial`, `C15_decimal_by_value`,
`C15_eq_equivalence`, `C15_equal_iff_eq`, `C15_order_lawful`, `C17_arguments`, `C17_order`, `C18_display_iff_prints`,
`C18_multiary_pattern`, `C19_accepted`, `C19_factorials_collide`, `C19_negative`, `C19_powers_collide`,
`C19_prefixes_collide`, `C19_quotients_collide`, `C19_round_trip`, `C19_suffixes_collide`, `C19_sums_collide`,
`C21_fibonacci`, `C21_power`, `C22_outcome_independent_of_history`, `C22_records_are_kept`, `C22_sessions_agree`,
`C23_nothing_beyond_index`, `C23_session_state`, `C24_last`, `C25_answered_iff`, `C25_no_panic_all_answered`,
`C25_witness_empty_input`, `C25_witness_tex_first`, `C26_forward_panics_iff`, `C27_length`, `C28_tex_panics_iff`,
`C33_fuel_irrelevant`, `C33_parse_terminates`, `C34_derivation`, `C34_spans`, `C35_shadowed_never_parsed`,
`C36_grouping`, `C36_left`, `C36_powers`, `C36_split`, `C36_split_unique`, `C37_answers`, `C37_dropped`,
`C37_nothing_dropped`, `C37_numbers`, `C37_texts`, `C38_integers`, `C38_leading_zeros`, `C38_numerals`, `C39_radix`,
`C39_underscore`, `C40_decimals`, `C40_leading_zeros`, `C41_blocks`, `C41_plain_block`, `C41_strings`, `C41_tagged`,
`C41_tagged_blocks`, `C42_constants`, `C42_control`, `C42_exact`, `C42_identifiers`, `C42_naming`, `C42_paths`,
`C42_return`, `C42_symbols`, `C42_words`, `C43_products`, `C44_parentheses`, `C44_spaced`, `C44_whitespace`,
`C45_derivative`, `C45_inside_out`, `C45_panics`, `C46_blank`, `C46_first`, `C47_positions`, `C49_dot`, `C50_index`,
`C52_back`, `C52_index`, `C53_expressions`, `C54_blank`, `C54_calls`, `C54_expressions`, `C54_factorial`,
`C54_factorial_other`, `C54_juxtaposition`, `C54_literals`, `C54_numbers`, `C54_operators`, `C54_page`, `C54_power`,
`C54_power_large`, `C54_prefixes`, `C54_products`, `C54_times`, `C55_brackets`, `C55_counts`,
`C55_unbalanced_refused`, `C56_answers_are_readings`, `C57_no_negative_answer`, `C57_panics`, `C57_shape`,
`C58_accepted`, `C58_nested_indices`, `C58_refused`, `C58_unfinished_calls`, `C59_accepts`, `C59_decided`,
`C59_rejects`, `C59_rule_error`, `C59_rule_pairs`, `C60_nameless`, `C60_panics`, `C61_answered`, `C61_clicks`,
`C61_errors_end_the_page`, `C61_offered`, `C61_sums_end_the_page`, `C61_unanswered`, `C63_decimals`, `C63_injective`,
`C63_integers`, `C63_unique`, `C64_deviations`, `C64_exact`, `C64_large_powers`, `C64_nothing_nested`, `C64_numbers`,
`C64_right`, `C65_answers`, `C65_leading`, `C65_page`, `C65_rejected`, `C65_value`, `C66_alphabet`,
`C66_arrow_refused`, `C66_assign_refused`, `C66_begin`, `C66_borders`, `C66_colon`, `C66_end`, `C66_equals`,
`C66_foreign_refused`, `C66_neighbours`, `C66_operators`, `C66_operators_refused`, `C66_pipe_refused`, `C66_point`,
`C66_range_refused`, `C66_unfinished_refused`, `C66_unknown_refused`, `C67_even`, `C67_never`, `C67_odd`,
`C67_only_comments`, `C67_work`, `C68_line`, `C68_operator`, `C68_semicolon`, `C69_coefficient`, `C69_divisor`,
`C69_sign`, `C70_panics`, `C71_answer`, `C71_beside`, `C71_brackets`, `C71_coefficient`, `C72_again`, `C72_names`,
`C72_not_again`, `C72_numbers`, `C73_panics_iff`, `C74_work_bounded`, `C74_work_polynomial`, `C75_else`,
`C75_forgotten`, `C75_panics`, `C76_never`, `C77_table`, `C77_work`, `C78_crt`, `C78_digits`, `C78_fib`,
`C78_inverse`, `C78_worst`, `C79_texts`, `C80_brackets`, `C80_calls`, `C80_flat`, `C80_overflow`, `C80_sharp`,
`C80_wrapped`, `C81_answers`, `C81_large`, `C81_printed`, `C82_backslash`, `C82_caller`, `C82_comment`,
`C82_exponent`, `C82_options`, `C82_shebang`, `C83_large`, `C83_work`, `C84_after_zero`, `C84_evaluation`,
`C84_exchange`, `C84_renaming`, `C85_after_dot`, `C85_substitution`, `C86_drifts`, `C86_grows`, `C86_products`,
`C86_round`, `C86_settles`, `C87_alien`, `C87_before`, `C87_closing`, `C87_finished`, `C87_inside`, `C87_place`,
`C87_surplus`, `C87_unknown`, `C88_bracket`, `C88_end`, `C88_moves`, `C88_operator`, `C89_operand`, `C89_operator`,
`C89_sentence`, `C90_alike`, `C90_answers`, `C90_crlf`, `C90_rejected`, `C90_value`, `C91_crlf`, `C91_positions`,
`C92_absent`, `C92_end`, `C92_missing`, `C93_crlf`, `C93_place`, `C93_sentence`, `C94_mended`, `C94_report`,
`C94_same`, `C94_stays`, `C94_typing`, `C95_answers`, `C95_around`, `C95_rejected`, `C95_trailing`, `C95_value`,
`C96_answers`, `C96_gap`, `C96_rejected`, `C96_respaced`, `C96_value`, `C97_answers`, `C97_behind`, `C97_comments`,
`C97_lines`, `C97_rejected`
