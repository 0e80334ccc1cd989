# Design of the formal model of rego-cpp

The model is written in Lean 4 (4.33.0) with a few Mathlib modules. It covers the
C++ functions listed below one by one. Nothing in /repo is built or run: the
sources are read as text.

## Trusted base

* Lean's kernel and the axioms `propext`, `Classical.choice`, `Quot.sound`
  (no project axiom, no `sorry`, no `native_decide`, no `bv_decide`).
* The transcription from C++ to Lean. Every model definition cites the file and
  lines it models and lists its simplifications.
* The behaviour of the C++ standard library and of the Trieste rewriting library
  where the code calls into it (`std::map` order, `std::string::find`, node
  cloning, ...), as described in the comments of the model. Doubles are rational numbers
  rounded after IEEE 754 (`Double`), where they are not a parameter.

## Conventions

* A C++ `std::string` is a list of characters or bytes (`List Char`,
  `List UInt8` / `List Nat < 256`), whichever the function looks at.
* Undefined behaviour and exceptions are distinct outcomes of the model, never a
  default value.
* `assert` is a distinct outcome where the text says so (debug builds).
* Unbounded loops are structural recursions or carry a measure; when fuel is
  used, a theorem shows that the fuel given by the model suffices.
* Each area is a directory under `lean/Verif/`: `Model.lean` (transcription),
  `Spec.lean` (independent specification), `Lemmas.lean` (helpers),
  `Props.lean` (the property theorems with non-vacuity examples).
* When the code violates a property, the negation is proved on a concrete
  witness, and the part that does hold is proved as `..._partial`.

## Plan per property

| Id | Model | Proof |
|----|-------|-------|
| C01-C06 | `BigInt`: the digit-string algorithms of src/bigint.cc | value function `List Char -> Int`; the operations commute with it; canonicity invariant. C05 is violated (`75 % 7`): negation + partial. |
| C07-C08 | `Numbers`: the two loops of numbers.cc over the BigInt model | loop invariant on the accumulated list |
| C09 | `Base64`: encoder/decoder loops on bytes | induction by groups of three bytes |
| C10 | `Hex` | violated for bytes >= 0x80 (signed char): negation + partial |
| C11-C12 | `UrlQuery` | induction; C12 violated for a single parameter: negation + partial |
| C13 | `Uri` | induction |
| C14-C15 | `Uuid` | bit-level lemmas on nibbles; C15 violated (`0xb11`) |
| C16-C17 | `Glob`: explicit-stack matcher | declarative language `Matches`; soundness and completeness of the backtracking; C17 violated |
| C18-C19 | `Graph` | worklist invariant; DFS enumeration |
| C20-C24 | `Value`, `Collections` | list lemmas; canonical keys |
| C25 | `Semver` | violated: negation + partial |
| C26 | `Bits` | two's complement lemmas |
| C27-C32 | `Strings` | find-loop invariants |
| C33-C35 | `Json` | pointer parser, patch machine |
| C36-C39 | `Binary`: CRC and the stream codec | encoder/decoder induction; CRC linearity |
| C40-C50, C60 | `VM`: bundle verifier and interpreter | fuelled big-step evaluator mirroring run_block/run_call; invariants over executions |
| C51-C52 | `Builtins` registry state machine | invariants over histories |
| C53-C54 | `CApi` | state machine and buffer protocol |
| C55-C56 | `Interp`, `Output` | state machine |
| C57 | `DepGraph` | worklist invariant |
| C58 | `Globs` | language semantics of token lists; soundness and completeness of the search with a stack; violated in both directions: witnesses + partial |
| C59 | `Registry` caches | history invariant |
| C61-C66 | `Strings`, `Collections`, `Json` | as for their neighbours C27-C35 |
| C67 | `Registry`: the look-up functions as syntax trees | evaluation of the trees against the list of names |
| C68-C70 | `Jwt`: tokens, keys, claims; JSON reader, OpenSSL and clock are parameters | inductive specification of an accepted token, both directions; round trip through base64url |
| C71-C75 | `Time`: durations, calendar, add_date, diff, format; doubles, zones and std::format with a layout are parameters | grammar of durations both directions; calendar as the successor relation on dates, proved equal to the arithmetic for all days |
| C76 | `Units`: units.parse, units.parse_bytes; doubles are an abstract type | grammar of amounts and units, errors exactly outside it, exact products for whole amounts |
| C77 | `Uri`: uri.parse, uri.is_valid | grammar of URI references in both directions, one decomposition only, round trip of composed URIs |
| C78 | `Core`: abs, ceil, floor, round; doubles are a type with a rational value | least, greatest and nearest integer by order, inside 64 bits; witnesses outside |
| C79 | `Core`: to_number | exact on decimal texts; witnesses for the two representations of strings |
| C80 | `Core`: lower, upper on bytes | pointwise relation given by a table of letters; undefined outside ASCII |
| C81 | `Core`: sprintf | formats as pieces, one reading only; what the pieces write, in both directions; witnesses for conversions |
| C82 | `Core`: internal.template_string | the result is a JSON string standing for the parts |
| C83 | `Core`: internal.print | lines are the picks of the results |
| C84 | `Copy`: a machine on values, without nodes, for the same statements; a check on bundles that collections are changed only while being built | simulation: every reachable heap denotes the values of the second machine, by induction on the nesting of blocks and calls |
| C85 | `Compile`: the code generator on simplified rule bodies, rules and entry points; the meaning of programs, without locals and statements | compiler correctness: by induction on the syntax the code of each construct, run by the machine of C84, yields what the specification says; calls by induction on the rules; then C84 |
| C86 | `Compile` | by induction on the syntax every generated statement passes the verifier; then C40 |
| C87 | `VM`, `Bundle/Number.lean`: renumbered bundles | the two runs go in step, their states differ in the frame only: by induction on statements, blocks and calls |
| C88 | `Store`: trees of bundles, the passes that write and read JSON, `from_node` | by induction on the trees: what each rule writes is read back by one rule, and no other rule fits; then `from_node` on both trees |
| C89 | `Store`: the indices of names | by induction on the list of names |
| C90 | `Store`: `from_node` on statements, plans, functions, declarations; `encode`, the tree of a bundle by the grammar | by induction on statements and blocks, with the count of locals as state: decoding the tree of a bundle gives the bundle |
| C91 | `Output`: `to_key` with square brackets for values, terms, bindings and results; a parser for RFC 8259 as specification | by induction on the value: its text is read, before any text that cannot go on with it, as a document that stands for it; sets and objects through the permutation made by sorting |
| C92 | `Output`: `json_to_rego` (from `Store`) on the tree of a document, then `to_key` | by induction on the document; the parser gives texts of JSON only; the two regular expressions for numbers are compared with the grammar of RFC 8259 |
| C93 | `Parse`: the passes `refs`, `groups`, `terms`, `unary`, `arithbin_first`, `arithbin_second`, `comparison`, `membership`, `assign` on sequences of tokens, with Trieste's rewriting | each pass is shown to finish exactly the level of its operators, from the left, by induction on the tree; for the converse, each rewriting keeps the spelling and the grouping |
| C94 | `Parse`: the rules of the modes `start` and `main` of parse.cc in their order, brackets, and the reading of C93 | each rule gives texts of its kind only; before a blank or the end every token is found by its rule, since the earlier ones fail; induction on the layout |
| C95 | `Operators`: `boolinfix` and the three `do_bool` on values of any type | the text of every value that is no number begins with a character outside the range in which numbers begin, so that the order by number and the order by text fit together; equality by C23 |
| C96 | `Operators`: `arithinfix`, `try_get_int`, both `do_arith`, the builtins over them, `sum` and `product` | case analysis on the types of the operands, C01-C03 for integers, induction on the members |
| C97 | `Double`: `stod` and the text of a double with sixteen digits, on rational numbers; `to_key` of floats | error bounds and monotonicity of rounding in any base, reading back what is written by case analysis on the format |
| C98 | `Double` and `Operators`: `get_double` and `do_bool` with these doubles | composition of the three monotone roundings |
| C99 | `Unify`: `add_exprs` and everything below it, `resolve_unify_literals`, `update_edges`; sorting from `DepGraph`; values by their laws | each step adds literals that hold exactly if the unification does, for some values of the new variables, by induction on terms; the sorted literals read only what was set, by C57; running them by induction on the list |
| C100 | `Scan`: `ref_to_scan`, the rules of the pass `implicit_scans`, the rules for `SomeDecl`; what a reference reaches is a relation | the loops made of a reference by induction on its arguments, expressions by induction, each rule as a step that keeps the solutions; then lists of literals |
| C101 | `Unify/Classify`: the rules for `=` and `:=` of the pass `rules`, `is_constant`, `is_func_arg`, the marking of variables in `implicit_scans`, `m_needs_sort`; then C99 | each literal becomes one that says the same, by cases; every variable is assigned once, by induction on the body; then the order of C99, or the order of the source |
| C102 | `Heads`: the rules of the pass `rules` for complete rules, functions, objects and sets | each body is shown equivalent to its source by extending the values to the new variables; induction on the bodies; an invariant of the remembered parameters |
| C103 | `Merge`: `merge_documents`, `add_or_find_child_document`, the rules of the pass `merge` for modules and for rules with arguments in their reference | what is found at a path after rules are added, by induction on the path; then the loop; then the documents of the modules |
| C104 | `Mock`: `WithInfo`, `contains_callstmt` and the rules of the pass `with_rules`; what functions before and after the pass give | simulation: a copy with its additional arguments gives what the function gives under the replacements; induction on the number of nested calls and on bodies, with an invariant of `WithInfo` |
| C105 | `Template`: `parse_template`, `compile_template`, `template_match`; a part of ECMAScript's expressions as trees, with their texts and languages | the loop by induction on the pieces of a template; the text of an expression determines the expression |
| C106 | `Marshal`: the options and the prefix of `json.marshal_with_options`; the writer of Trieste is a parameter | invariant of the options that have been read; the lines by induction on the text |
| C107 | `Rand`: `rand.intn`; hash and generator are parameters | arithmetic of 64-bit remainders |
| C108 | `Regex`: the loop of `regex.split` on what is left; the engine is a parameter that gives the ways to match from a position | induction on the length; searches on what is left are searches from there if the pattern does not look back |
| C109 | `Regex`: the iterator of `find_n` and the loop of `find_all_string_submatch_n` | induction on the length, against an inductive specification of all matches |
| C110 | `Regex`: `regex.match`, `regex.replace` | from the list of all matches |
| C111 | `Docs`: `document_stmt`, which compiles a reference to a package, and a machine for the statements it emits | invariant over the documents that have been added: what is at each path; the emitted code is shown to put an object at a path |
| C112 | `Refs`: `lookup_ref`, `add_prefix`, `ref_to_opblock`, `base_block` for references of names | induction along the reference: what the compiler knows at each point; then the emitted code is run, with C111 for packages |
| C113 | `Dynamic`: when `lookup_ref` asks for a dynamic call, `rule_ident_to_string`, `CallDynamic` | the text of a path determines its names when they have no dots, so no longer prefix is a function when the tree keeps rules and packages apart |
| C114 | `Nested`: `bodyobjdynamic_block`, `bodysetdynamic_block`, the statements they emit | the code of a solution is a change of the object along a way (induction on the way), then an invariant over the list of solutions |
| C115 | `Nested/Static*`: `bodyobjstatic_block`, the locals of constant keys, `AssignVarOnceStmt` | what the locals hold is what earlier bodies said (induction on the bodies), and an insertion is a step of the invariant of C114 |
| C116 | `Locals`: the pass `unique_locals` on trees of scopes and variables | induction on the tree with an invariant on the names of the own scope (injective, new names are above all old ones) |
| C117 | `Index`: the pass `index_strings_locals` on the sequence of references | invariant on the maps over the sequence; what a reference got is what the last maps say of it, because they only grow |
| C118 | `EntryName`: the rule of the pass `merge` for names of entry points | the loop over positions is a recursion on the text; induction on the text and on the path |

## Axioms

Every theorem named in MANIFEST.json depends on a subset of `propext`, `Classical.choice` and
`Quot.sound` only (checked with `#print axioms`; vcheck replays every module in the kernel).

## State of each area

For every area: what is modelled, what is not, and where the code disagrees with the claim. A
disagreement marked with a theorem name is proved in the model; the others were noticed while
reading and are outside the model.

### BigInt (C01-C08)
*Modelled*: src/bigint.cc (add, subtract, multiply, divide, modulo, compare, negate, on digit
strings, debug and release), the integer cases of do_arith/do_bool (src/resolver.cc 9-52, 93-133),
numbers.range and numbers.range_step (src/builtins/numbers.cc).
*Not modelled*: floating point arithmetic.
*Disagreements*: `%` is wrong when a proper prefix of the dividend is a multiple of the divisor
(75 % 7: C05 witnesses); the literal -0 is accepted (C06 witness).

### Encoding (C09-C13)
*Modelled*: src/builtins/base64/base64.cpp, src/builtins/encoding.cc, percent escapes of
src/builtins/uri.cc. *Not modelled*: JSON escaping around the builtins, YAML, url parsing.
*Disagreements*: base64url.encode_no_pad("") is undefined behaviour; hex.encode sign-extends bytes
from 0x80; a bad percent escape builds a string from a null pointer; urlquery.decode_object doubles
a single parameter. Outside the model: `unsigned int` positions loop for inputs of 4 GiB.

### Uuid (C14-C15)
*Modelled*: src/builtins/uuid.cc parse, print, random, field extraction. *Not modelled*: the random
generator (all byte values are considered).
*Disagreements*: signed overflow of the time before 1677 and after 2262; `case 0xb11` typo.

### Glob (C16-C17) and Globs (C58)
*Modelled*: src/builtins/glob.cc and regex.cc 685-1381, including their resource limits. *Not
modelled*: UTF-8 decoding, the other regex builtins (RE2).
*Disagreements*: after an escaped character glob.match ignores the rest of the pattern, so
quote_meta is broken unless the metacharacter is last; `{*,a}*` becomes `**`; malformed braces give
false. globs_match: `""` against `""`, `x+x+`, `[]` against `.`, trailing and consecutive stars,
and the order of the arguments (C58 witnesses).

### Value, Collections, Graph (C18-C24, C62-C64)
*Modelled*: canonical keys (src/encoding.cc 11-359), array.cc, objects.cc, graph.cc, count, sort,
min, max, walk, union, intersection of core.cc, set operators and membership of resolver.cc.
The text of floats, their order and `json::escape` are parameters (`Lib`). Of the first two it is
assumed that they agree with `Double` on floats of up to fifteen digits and on doubles in range; the
assumption is a field of `Lib`, and `Double.ieeeLib` is an instance. Values that are the same
(`Same`) may mix integers and floats: `1` and `1.0` are the same number.
*Not modelled*: floats of more than fifteen digits inside keys and members (`Val.WF`), sets with a
float and an integer beyond 2^1000 (`Sortable`).
*Disagreements*: see the `_wrong` theorems of C20, C21, C23, C24, C62, C64. A set with a float and an
integer beyond the doubles cannot be written, because `std::stod` throws out of the comparison
(`C23_throw_wrong`); `1e20` and the same integer have different keys (`C23_large_wrong`), and so have
`-0.0` and `0.0` (`C23_zero_wrong`). Outside the model: object.union is not recursive.

### Semver (C25), Bits (C26)
*Modelled*: semver.cc and bits.cc. *Disagreements*: the order of versions is not lexicographic, a
version without `-` has itself as prerelease, numbers above int throw, a tag has the metadata after it in
it (`C25_tag_wrong`); lsh by 63 has the wrong sign
and shifts from 64 on are undefined behaviour.

### Strings (C27-C32, C61)
*Modelled*: the string builtins of core.cc on the stored (escaped) text. *Not modelled*: UTF-8
bytes, lower/upper, sprintf, templates.
*Disagreements*: builtins work on the escaped text; replace with an empty old string does not end;
format_int with base 2; trim results are not escaped again.

### Json (C33-C35, C65-C66)
*Modelled*: src/builtins/json.cc pointers, patch, filter, remove; the removal of repeated keys in
src/json.cc 61-88. *Not modelled*: the JSON parser of Trieste, json.match_schema.
*Disagreements*: see the `_wrong` theorems. Outside the model: isdigit on a negative char; a value
added to a set by a patch is not cloned (703).

### Binary (C36-C39)
*Modelled*: src/bundle_binary.cc: header, CRC, all readers and writers, on bytes. *Not modelled*:
allocation failures, source locations of statements other than what the reader accepts.
*Disagreements*: files with more than 127 queries, nesting from 256, sets, oversized counts; header
fields outside the checksum; over-long files; stack depth of read_builtin_type; debug asserts.
Outside the model: the file index of a written source location is always 0.

### VM (C40-C50, C60)
*Modelled*: src/bundle.cc verify and src/virtual_machine.cc: all statements, calls, with, memo
cache, limits, result extraction, on a heap with sharing; builtins are a parameter. *Not modelled*:
wall-clock time (the time limit is a nondeterministic stop), log output, source locations.
`C40_arguments` proves of the verifier what the comment at virtual_machine.cc 652-659 relies on: a call by
name, at any nesting, has at least as many arguments as the function has parameters.
*Disagreements*: break leaves every enclosing block (C49); the verifier forgets conditions (C40);
with on a non-object root dereferences null; ObjectMerge conflicts are not recorded (C44);
non-injective key texts (C47); hand-made bundles that change shared nodes (C43, C45, C60).

### Registry (C51, C52, C59, C67)
*Modelled*: src/builtins.cc and the look-up functions of src/builtins/*.cc (generated syntax
trees), lists, strict mode, caches of time.now_ns and uuid.rfc4122. *Not modelled*: what other
builtins compute (parameter).
*Disagreements*: null dereference for unknown names under lists; errors of forbidden builtins
become undefined without strict mode; lists drop custom builtins; stale caches across interpreters.

### CApi (C53-C54), Interp (C55-C56)
*Modelled*: texts and input builder of src/rego_c.cc; src/interpreter.cc setters and queries,
src/output.cc accessors. *Not modelled*: parsing and compiling (parameters that are functions of
the text), floating point texts, exceptions that cross `extern "C"`.
*Disagreements*: regoNodeTypeNameSize forgets the NUL; strings are stored unescaped; a failing
set_query inside query_node evaluates the previous query; an exception of the machine gives an
output that is "ok".

### DepGraph (C57)
*Modelled*: src/dependency_graph.cc graphs, topological order, captures. *Not modelled*: how the
edges are found (update_edges): the edges are arbitrary.
*Disagreements*: literals on a cycle are dropped; two binders of one variable can emit literals
twice; an unbound argument throws.

### Jwt (C68-C70)
*Modelled*: src/builtins/jwt.cc; of crypto_utils.hh validate_pem, parse_algorithm_impl, parse_json,
extract_jwks_keys, base64url_encode_nopad_impl; of crypto_openssl3.cc verify_signature,
verify_signature_any_key, verify_hmac, load_public_key, md_for_algo, sign. *Not modelled*: Trieste's
JSON reader, OpenSSL, the clock (fields of `Env`, about which nothing is assumed; C70 assumes that
texts without quotes and backslashes are not changed by unescaping), NaN, texts of 2 GB.
*Disagreements*: the algorithm is chosen by the token, so with a `cert` constraint and no `alg` an
HS256 token signed with the certificate text is accepted (`C68_confusion_wrong`); constraints of the
wrong type are ignored (`C68_ignored_wrong`); sections that are not base64 make verify_* and
decode_verify throw (`C68_throws_wrong`, `C69_throws_wrong`); encode_sign unescapes the JSON text it
has just written, so a quote inside a string of the payload ends the string and adds claims
(`C70_injection_wrong`). Outside the model: string claims are compared as they are escaped in the
texts, so `"a\/b"` and `"a/b"` differ.

### Time (C71-C75)
*Modelled*: src/builtins/time.cc: parse_duration_ns, add_date, clock, date, weekday, diff, format with
the layout tables. The calendar functions of `std::chrono` are the usual arithmetic, proved to be the
Gregorian calendar (`Time/Calendar.lean`); chrono overflow is `ub`. *Not modelled*: parse_ns and
parse_rfc3339_ns (std::chrono::parse), `std::format` of layouts, the zone database (parameters);
now_ns is in Registry. Doubles in durations are parameters; `C71_exact_partial` assumes they are exact
on integers up to 2^53, met by `ieee`.
*Disagreements*: a minus sign of a duration holds for its first term only (-1h30m is -30m), "+1s" is an
error; terms above 2^53 ns are rounded; clock and add_date overflow on the first day of the range;
add_date takes years and months modulo 2^32 and holds 16-bit years; diff does not count in the calendar
and answers 12 months; diff overflows for instants more than 292 years apart; the fraction of a layout
is the whole timestamp and is inserted at the position of the *layout*; unknown zones and bad layouts
throw.

### Units (C76)
*Modelled*: src/builtins/units.cc. *Not modelled*: error messages; double arithmetic and its texts
(fields of `Env`).
*Disagreements*: "007" and "+5k" answer integers with these texts, which are not equal to 7 and 5000;
parse_bytes("1.5") is 1.5 although parse_bytes("1.5k") is rounded; "1e400k" throws; doubles of 10^16 and
more become `Int` nodes whose text has an exponent.

### Uri (C77)
*Modelled*: src/builtins/uri.cc, on the bytes of the text. *Not modelled*: error messages.
*Disagreements*: raw_path is the decoded path when the path is written canonically, so that
"/a%2541" and "/a%41" have the same raw_path.

### Core (C78-C83)
*Modelled*: abs_, ceil_, floor_, round_, to_number, lower, upper, parse_format, sprintf_ of
src/builtins/core.cc; print, template_string of src/builtins/internal.cc; get_double, get_raw_string,
is_truthy of src/internal.cc; Resolver::scalar. *Parameters* (`Core/Env.lean`): std::stod, doubles and
their texts, snprintf of one conversion, to_key in the Rego format, json::escape. *Simplified*: nodes of
collections have no text of their own; error messages are dropped.
*Disagreements*: see the notes of C78-C82 in MANIFEST.json; each has a `_wrong` theorem.

### Copy (C84)
`Copy/Machine.lean` is the specification: locals hold values, statements are functions on values. It
models no code of its own; `VM/Model.lean` is the model of virtual_machine.cc. `Copy/Disc.lean` is the
check on bundles. *Disagreements*: the verifier does not check the discipline (`C84_alias_wrong`).

### Compile (C85, C86)
*Modelled* (`Model.lean`, `Rules.lean`): opblock.cc 345-796 for constants, variables, collections,
comprehensions, references by key, calls; rego_to_bundle.cc 3124-3280 (`with`), 3409-3465 (`==`),
3507-3803 (assignment, destructuring, loops, `every`, unary minus, `not`), 5397-5445, 5533-5797 and
5836-6035 (rules and entry points); internal.cc 929-1003 (`get_inner`, `add_literal_to_block`) and 1113-1136;
bundle.cc 1-519 (the tables). *Specification* (`Spec.lean`, `Rules.lean`): solutions of bodies, values
of expressions and rules; equality, lookup, insertion by key and iteration are those of the machine.
*Not modelled*: parsing and the passes that simplify the source (the input syntax is what they leave);
template strings, `print`, `in`, virtual documents as values, calls with a computed name, nested keys,
several definitions of one constant key, rules merged with data, rules for `with` on functions. Fresh names are the next unused index, and the locals of a rule come after those of the rules
it calls; by C87 the results hold for every numbering, and with the functions in any order. *Simplified*:
final statements after `with` and a test in front of loops, see the comments.
*Disagreements* (`Wrong.lean`): undefined values of builtins and a missing input can be assigned, passed
as arguments and put into objects; `==` inside an expression is undefined instead of `false`; the operand
`input` is read outside of its modifier; values of later modifiers are read inside earlier ones;
of several bodies with one head only the first with a solution counts, so a conflict between them is not
reported (`C85_bodies_wrong`; a rule without such a conflict has its value); the verifier rejects bundles with a number whose string index is not less than the number of locals.
`CacheProps.lean` (C45): a history of calls, assignments and `with` statements keeps every remembered value
equal to the value of its function, so a call answers as if nothing were remembered.

### Store (C88, C89, C90)
*Modelled*: bundle_json.cc 10-1371 (reader) and 1373-2285 (writer) as one rewriting step at every node,
bottom up, first rule that fits; rego.hh 719-733 and 2215-2274 (well-formedness); json.cc 159-204 and
61-108 (the data document); bundle.cc 425-953 (`from_node`); internal.hh 300-379 (numbers).
*Specification* (`Spec.lean`): `reloaded`, the tree that should come back. *Simplified*: `json::escape`,
`unescape`, `to_string`, positions and paths are parameters (`Env`) with the laws of `Env.Lawful`; the
JSON text is not modelled (the trees are taken to be read as they were written); module sources
(`ModuleFileSeq`) are left out; members are looked for among the children, not in symbol tables.
*Disagreements*: the reader's rules for plans also fire in the data document, so that bundles with such
data are saved but cannot be loaded (`C88_data_wrong`); names and descriptions in declarations of
built-ins are escaped but not unescaped (`C88_decl_wrong`); an entry point given twice shifts the indices
of the later ones, so that they run the wrong plan (`C89_twice_wrong`).

net.cc has placeholders only: every builtin answers the same error.

### Output (C91, C92)

Modelled: `to_key` with `SetFormat::Square` (src/encoding.cc 105-359) for values, `Terms`,
`Bindings`, `Result` and `Results`. The specification `parse` is a parser for the grammar of
RFC 8259 and `Stands` says which documents stand for a value. Not modelled: the conversion of
floating point numbers to text (a parameter, assumed to give a JSON number), `json::escape`
(a parameter, assumed to give the text of a JSON string), and the checks that the strings of a
value are texts of JSON. Disagreement: an object whose keys 1 and "1" have the same name is
written with one item only (`C91_keys_wrong`), because the items are put in a map by the text of
the name.

For C92 the text is read by `parse` (Trieste's reader is not part of the repository and is taken to
read RFC 8259) and its tree goes through `json_to_rego`, src/json.cc 159-204 and 61-108, as modelled
for C88. Disagreement: numbers with an exponent and no fraction, or with `E`, match neither regular
expression (json.cc 38-40) and are left unconverted (`C92_exponent_wrong`).

### Parse (C93, C94)

Modelled: the rewriting passes of src/file_to_rego.cc between 366 and 1005 for expressions made of
numbers, constants, names, calls, brackets, operators, membership and assignment. A pass takes the
leftmost place where a rule matches, the first rule in order, and begins again from the start, as
Trieste does. The specification (`Spec.lean`) has the table `level`, what it is for a tree to be
grouped by a table, and how a tree is written. Not modelled: arrays, objects, sets, comprehensions,
references with brackets, `some`, `every`, `with`, `not`, and the error nodes, for which the model
answers `none`.
*Disagreements*: `a | b - c` is `(a | b) - c` (`C93_sets_wrong`), because `&` and `|` are in the passes of
`*` and `+`, where the Open Policy Agent has them below; a minus sign behind `&`, `|`, `in` or a comma
before `in` is refused (`C93_minus_wrong`), because these are not in `InfixOperatorToken`; `5 -3*2` is
refused (`C93_glued_wrong`), because the negative number takes part in the product first.

For C94 the rules of src/parse.cc 83-334 are functions that take a beginning of the text or none; the
first that matches is taken. The specification (`LexSpec.lean`) says what the tokens look like, with
its own lists of characters. Not modelled: template strings, bytes that are not characters of their
own, `NewlineMode::Terminate` (after `package` and `import` only).
*Disagreements*: the rule for `package` has no `\b` (parse.cc 96), so that the query `packages == 1` is
taken for a module (`C94_package_wrong`); comments need an end of line (`C94_comment_wrong`); the minus
sign belongs to the number whatever stands before it (`C94_minus_wrong`).

### Operators (C95, C96)

Modelled: `arithinfix`, `bininfix` and `boolinfix` of src/resolver.cc with what they call, the builtins of
src/builtins/core.cc that call them, `sum` and `product`. The arithmetic of doubles is a parameter (`Dbl`),
about which nothing is assumed except in the hypotheses of a theorem (`Ieee`: what is read is the double
of `Double`; `Double.ieee_ok` gives an instance).
*Disagreements*: the order by text puts `"a!"` before `"a"`, `[10]` before `[2]` and every string before every
number (`C95_strings_wrong`, `C95_arrays_wrong`, `C95_types_wrong`); with floats `==` is not transitive
(`C95_floats_wrong`) and ignores the seventeenth digit, because `get_double` reads the text with sixteen digits
(`C95_digits_wrong`); `try_get_int` cuts floats at 31 characters, so that `1e40 + 1` is about 1e30
(`C96_whole_wrong`); `/` on integers goes through doubles (`C96_divide_wrong`); `sum([1, "a", 2])` is `false`,
because an undefined accumulator makes `arithinfix` answer `false` (`C96_sum_wrong`).

### Double (C97, C98)

Modelled: `std::stod` and the stream output with sixteen digits that src/encoding.cc 116-128 and src/resolver.cc use,
as functions on rational numbers (`stod`, `write`). They are a model of the C++ library after IEEE 754 and the C
standard, not of code in /repo; `C97_nearest` says that they choose the nearest numbers. `ieeeLib` and `ieee` put them
in the place of the parameters `Lib` and `Dbl` of the other areas.
Simplified: negative zero is zero, there are no infinities and no NaN.
*Disagreements*: sixteen digits are too few to write a number as the nearest double would be read and too many to hide
its error, so that `8.2` is written `8.199999999999999` (`C97_digits_wrong`) and `1e23` is written
`9.999999999999999e+22` (`C97_power_wrong`); floats are rounded to sixteen digits before they are compared, so that
`1152921504606847232 == 1152921504606847232.0` is false (`C98_large_wrong`).

### Unify (C99)

Modelled: the whole of unification in src/dependency_graph.cc: `is_assigned`, `any_unassigned`, `add_assign`,
`add_equals`, `add_unifyvars`, `add_unifyvar_term`, `add_array_var`, `add_array_array`, `add_object_var`,
`add_object_object`, `add_term_var`, `add_expr_var`, `add_term_expr`, `add_terms`, `add_exprs`,
`resolve_unify_literals`, `update_edges`, and the order of C57. References, calls, sets and comprehensions are
expressions that are not looked into, as in the code; what the code asks of them (their locals, variables to bind and
text) is a parameter (`Syn`). Values are a parameter with laws (`Data`); `Verif.Unify.Example` has values that satisfy
them.
Specification: `Solves`: the values of the variables make both sides of every `a = b` the same.
Not modelled: `with` on unifications, the loops (their variables come from outside), nested bodies.
Partial, because the code goes on when it should not: the theorems assume that no assertion was violated and `m_error`
was not set (`lost`), that there is no cycle, and that the keys of an object pattern have different values.
*Disagreements*: `m_error` is set in six places and never read, so that `[x, y] = [1, 2, 3]` succeeds
(`C99_size_wrong`), while `[1, 2, 3] = [x, y]` ends in an exception (`C99_throws_wrong`); unifications of elements that
have to wait are dropped, so that `[x, y] = [y, 1]` gives `x` no value (`C99_nested_wrong`); sets in patterns are not
compared (`C99_set_wrong`); literals in a cycle disappear and the body succeeds (`C99_cycle_wrong`);
`{"a": x, k: y} = input` fails if `k` is `"a"` (`C99_keys_wrong`).
`C99_bound_partial` (in `Unify/Bound.lean`) adds that nothing is left without a value: every variable of a pattern, and
every variable in keys of objects that are unified with objects, is bound by a literal or given from outside. The
exception it names is a body that compares an array or an object with a scalar, a set or the like (`1 = [x]`), which
has no solutions. It needs no law of values, only that no object pattern has the same key text twice.

### Classify (C101)

Modelled: src/rego_to_bundle.cc 501-611 (which `=` and `:=` become `ExprAssign`, `==` or `ExprUnify`), `is_func_arg`,
src/internal.cc `is_constant`, the variables that become `UnifyVar` (1799-1833), and that a body without unifications
and loops keeps the order of the source (`m_needs_sort`, dependency_graph.cc 1256-1275 and 1373-1377). The body that
results is given to the model of C99.
Specification: `Stmt.Holds`: both sides of `=` and `:=` have values that are the same.
Simplified: a name is one variable in the whole body; expressions that are not looked into are given as after the
passes; a loop is a variable from outside.
Partial, because of the code: `x = c` for a constant `c` assigns `x` without looking at what `x` is.
*Disagreements*: `x := 1; x = 2` succeeds with `x = 2` (`C101_assigned_wrong`); `q = 1`, for a rule or import `q`, or
for `input`, succeeds whatever `q` is (`C101_document_wrong`); `f(x); x = 5` is not sorted and fails
(`C101_order_wrong`).
`ClassifyBound.lean` adds that every variable in a pattern of the body as written is set by the code or given
from outside (`C101_bound_partial`); completeness alone does not say so, as a variable that is never set keeps
any value.

### Heads (C102)

Modelled: src/rego_to_bundle.cc, the pass `rules`: complete rules (767-847), functions (849-983) with `func_argnames`,
the value of objects with a constant key (985-1100), objects with a path (1102-1196), sets (1198-1260) and sets with a
path (1262-1358). Expressions and literals are not looked into; what they mean is a parameter (`Alg`) with laws (`Ok`).
Specification: `Gives` says when a body as written gives a value for some arguments.
Not modelled: objects with one key that is no constant (at most one body is accepted), declarations, `default`, names.
Partial, because of the code.
*Disagreements*: the grammar accepts a body after an `else`, which then gets no value (`C102_body_after_else_wrong`)
or the value literal of the `else` (`C102_literal_of_else_wrong`); in `p := 3 else := 7 { y }` the head counts for
nothing (`C102_only_else_wrong`); `f(x)` in one package and `f(x, y)` in another read outside of an array
(`C102_params_wrong`).

### Merge (C103)

Modelled: src/rego_to_bundle.cc `add_or_find_child_document` (2284-2300), `merge_documents` (2302-2382), the documents
made of modules and of rules whose reference has arguments (2439-2490), the error of 2549-2553. The nodes are changed in
place by the code; the hierarchy is a value here. The pass works upwards, so that the rules with arguments of all
modules come before the modules.
Specification: `find` and `rulesAt` look at the hierarchy, `Defines` at the package and the reference of a rule.
Not modelled: imports, the base documents; entry points are in C118.
*Disagreement*: names are texts of the source, so that `package a["\u0062"]` is not `package a.b`
(`C103_escape_wrong`).

### Mock (C104)

Modelled: src/rego_to_bundle.cc `WithInfo` (5002-5113), `contains_callstmt` (5115-5133), the rules of the pass
`with_rules` (5160-5359). A function has one body that is run once, of calls and operations that are not looked into;
copies are named by what is replaced in them; values that are no variables are constants.
Specification: `eval` evaluates a function under replacements that hold for everything that it calls; modifiers are
added to them.
Not modelled: how `with` changes `input` and `data` (C43), the calls in the literal itself that are replaced
(`process_withcalls`), values made of variables such as `[x]`.
Partial, because of the code.
*Disagreements*: `q with data.r as x with data.s as x` loses the first argument (`C104_variable_wrong`); in
`q with data.r as 7`, where `q` is `r with data.z as 3`, `r` is not replaced (`C104_nested_wrong`); in a rule whose
only call has modifiers those of the caller are lost (`C104_only_wrong`). `update` appends the modifiers to themselves,
so that they double at each level of calls (`C104_doubles`).

### Template (C105), Marshal (C106), Rand (C107)

Modelled: src/builtins/regex.cc 524-645; src/builtins/json.cc 44-145; src/builtins/numbers.cc 163-195.
Parameters: `std::regex`, of which it is only assumed that it reads the expressions of `Template/Spec.lean` (characters,
`.`, escapes, `\d`, classes, groups, `*`, `+`, `?`, `|`) as ECMAScript says (`ecma_ok` shows that there is such a library);
`json::unescape`; `json::to_string`; `std::hash` and `std::mt19937`, whose numbers have 32 bits.
Partial, because of the code.
*Disagreements*: literals of templates are not quoted, `a.b{c}` matches `axbc` (`C105_literal_wrong`); two empty
delimiters never return (`C105_empty_wrong`); the value keeps its escape sequences (`C105_escape_wrong`); an expression
ends at the first delimiter, so that `{a{2}}` is refused (`C105_nested_wrong`). Indents and prefixes keep their escape
sequences: a tab that is given becomes a backslash and a `t` (`C106_escape_wrong`). `rand.intn` with a negative bound
is not bounded, and zero is undefined behaviour (`C107_negative_wrong`, `C107_zero_wrong`).

### Regex (C108, C109, C110)

Modelled: src/builtins/regex.cc 122-150, 209-248, 269-321, 346-430, 458-506 (without the unwrapping of arguments and the
texts of errors); `regex_search`, `regex_iterator` and `regex_replace` as the standard describes them.
Parameters: the engine, which gives for each text and position the ways to match from there in the order it tries them
(it is only assumed that they lie within the text); `match_results::format`, which is assumed to copy a text without `$`;
`json::unescape`. Texts are lists of characters; the code searches bytes. `Re` is a small language of patterns with a
backtracking engine, for the examples and to show which patterns are `Solid` and `Forward`.
Specification: `AllMatches`, the rule of Go's `FindAll`, as an inductive predicate over `Engine.runs`.
Partial, because of the code.
*Disagreements*: `regex.split` with a pattern that matches the empty text at the beginning of what is left never returns
and its array grows (`C108_forever_wrong`, e.g. `x*` on `abc`); what is left after a match is searched as a text of its
own, so that `^` matches again (`C108_anchor_wrong`, `C109_submatch_anchor_wrong`); values keep their escape sequences
(`C108_escape_wrong`); `regex.find_n` and `regex.replace` take an empty match where a match ends (`C109_find_wrong`,
`C110_replace_wrong`); `regex.find_all_string_submatch_n` does not find an empty match at the end
(`C109_submatch_end_wrong`) and goes on from the wrong place after an empty match, so that `$` is found once for every
character (`C109_submatch_again_wrong`).

### Docs (C111)

`Verif/Docs/Model.lean` has the tree of virtual documents, the walk that collects paths and rules, the map keyed by the
text of the path (which is why a slash in a name matters), the statements emitted for each document (the way down, the
rules, the way back) and a machine for these statements on values, with `Copy.dot` and `Copy.insert`. The values of the
rules are a parameter: a function from the name of the function that computes the rule to a value or nothing. Errors of
rules are not modelled. `Spec.lean` says what the object contains by looking only at the tree and at the value
(`Shows`). Found: `C111_slash_wrong` (packages `a["x/y"]` and `a.x.y` have the same path text; the rules of one are
lost and those of the other are shown in the wrong place) and `C111_again_wrong` (the locals of the code are not reset,
so a second run in one function shows values of the first). Keys with quotes are excluded because `to_key` writes `x`
and `"x"` in the same way.

### Refs (C112)

`Verif/Refs/Model.lean` has the search of the compiler for the longest known part of a reference (`seek`, `settle`), the
code it emits (`addPrefix`, `refCode`) and the machine of `Docs` with block statements and merges. Names of locals are
numbers: the fresh ones begin at `next`, in an order that makes them distinct. The base document of the compiler is a
tree of names (`Base`); the value of `data` at run time is another parameter, because `with` changes it. Rules found
by a lookup come before documents (the order does not matter when they have different names). Arguments in
brackets are in `Dynamic`. Found: `C112_base_wrong`, `C112_gone_wrong`, `C112_member_wrong`.

### Dynamic (C113)

`Verif/Dynamic/Model.lean` has the test of the compiler (`isDynamic`: the names before the first bracket lead to a
package and to no base document), the name of the function of a rule (`fnText`) and the statement `CallDynamic`
(`search`, `lookups`, `callDynamic`). The values of the arguments are parameters; so are the set of functions and their
values. `Functions` says that below `g0.data` there are the functions of the rules and no others. Not modelled: the code
for the values in brackets, brackets after a rule or after a base document (a chain of lookups), and errors of rules.
Found: `C113_package_wrong`, `C113_data_wrong`, `C113_dots_wrong`.

### Nested (C114)

`Verif/Nested/Model.lean` has the code for one solution (`objCode`, `setCode`), the statements, and the run over all
solutions of all bodies (`runAll`, `value`). The values of the keys and of the member are written into the statements, so
the body and the enumeration of its solutions are not part of this model (they are in `Unify`, `Scan`, `Copy`). The check
that operands are defined (`check_operand_is_defined`) is passed an operand block by this code, not an operand, and does
nothing; solutions have values for all operands here. Base documents below the rule (`BodyData`) are not modelled. `Spec.lean` says what the object contains through lookups (`Shows`); keys
are the same when `to_key` writes them in the same way (C23). Found: `C114_order_wrong`, `C114_mixed_wrong`.

### Constant keys (C115)

`Verif/Nested/StaticModel.lean` has the bodies with constant keys and `else` (`runStatic`), and the run over bodies of both
kinds (`runItems`, `ruleValue`). The locals of constant keys are a map of their own by name, since their names have a
prefix that no other local has. The values of the solutions of a body are given, as for C114. `StaticSpec.lean` says which
solutions count (`Item.sols`) and what is left out (`Apart`, `Fits`). A body of a rule that stops with a compile error and
one that stops with an error at run time are the same outcome here.
Found: the local is shared by the bodies with one key, so an `else` is skipped when an earlier body gave a value
(`C115_else_wrong`); its name drops the quotes of the key, so `p[1]` and `p["1"]` conflict (`C115_quotes_wrong`); an
alternative with two bodies is always an error, since the test at 5773 is of a pointer (`C115_bodies_wrong`).

### Locals (C116)

`Verif/Locals/Model.lean` has the pass `unique_locals` (src/rego_to_bundle.cc 2847-2887) on trees of which only variables
and scopes with their declarations are kept. Look-ups, scopes and `fresh` are those of Trieste: a look-up finds the
declarations of the nearest scope that has the name, as they were before the pass, and a fresh name occurs nowhere else
(one counter here, one for each prefix there). `Spec.lean` says where a variable is declared (`place`) and when two trees
differ only in names (`Alpha`). Not modelled: which declarations there are (the passes `locals`, `implicit_scans`, `unify`).
`C116_exact`: what is excluded (`Near`) is exactly where the pass goes wrong, if declarations are used in their scopes.
Found: a variable that an inner scope uses keeps its name when its declaration gets a new one. In
`every x in xs { not q(x) }` the `x` of the call is declared nowhere, `var_to_opblock` (opblock.cc 578-585) makes a local
of it that is never assigned, and the `not` holds for every `x` (`C116_nested_wrong`); with a variable `x` in the rule it
becomes that one (`C116_captured_wrong`). Comprehensions that are not in an `every` or `not` get no new names, so in
`x := 5; a := [x | x := 1]; y := x` both `x` are one local (`C116_shared_wrong`). `Run.lean` runs two such programs on the
machine of `Verif.VM`: one has the value 1 instead of 5 (`C116_overwritten_wrong`), the other is true instead of undefined
(`C116_unassigned_wrong`).

### Indices (C117)

`Verif/Index/Model.lean` has the pass `index_strings_locals` (src/rego_to_bundle.cc 6050-6199) and `to_stringseq` (2389-2404)
on the references of a tree, in the order the pass rewrites them; that the table is written after all references were is
left to Trieste (bottom-up). `fresh` has one counter here, one for each prefix there; `Below` says that it is above the
numbers in use. `Spec.lean` says when two references are to one variable (`Same`). An index that is not initialised (the
text of a number is empty) is a separate outcome. Not modelled: the rules for data (6165-6185).

### Names of entry points (C118)

`Verif/EntryName/Model.lean` has the rule of the pass `merge` that makes a reference of the name of an entry point
(src/rego_to_bundle.cc 2495-2531), with the positions of `find` and `substr`; a read outside of the vector of parts is a
separate outcome. What the reference then means is in C85 and C103.
*Disagreements*: the caller's name `querymodule$` is taken for that of a query and the second part is read although there
is only one (`C118_bounds_wrong`; `C118_bounds` says for exactly which names); of `querymodule$1/a/b` the `b` is ignored
(`C118_query_wrong`).

### Scan (C100)

Modelled: src/rego_to_bundle.cc `ref_to_scan` (1712-1781), the rules of the pass `implicit_scans` for references with
variables in their brackets on either side of an operator, of `:=`, of `=`, as a test and as the collection of a loop,
the rules for `walk` (1892-2181), and the rules for `some … in …` (602-690). Expressions in brackets and heads of
references are not looked into; which of them have variables (`find_locals`) is a parameter (`Syn`), and their values
are parameters with laws (`Cong`, `Look`, `Same`).
Specification: `Reach` follows a reference, with any member at `_`; `Val` and `Holds` say what expressions and literals
mean, under the modifiers of the source or without.
Not modelled: references inside brackets of references that need loops themselves, the declarations of the new
variables, the constant keys of references to `data` (1836-1889).
Partial, because of the code: only the first loop has the modifiers (`with`) of the literal (`Lit.Fits` says what that
asks of the rest), and enumerations nested to the right are not looked for (`Lit.handled`).
*Disagreements*: `input.a == data.xs[i] with input as …` reads `input.a` without the modifiers
(`C100_comparison_wrong`); `input.xs[i] == 1 with input as …` loops over the `input` without the modifiers
(`C100_operand_wrong`); `data.xs[i][input.j] with …` takes the key without the modifiers (`C100_key_wrong`);
`walk(x, input.a) with …` takes the pattern without the modifiers (`C100_walk_wrong`); `xs[i] = walk(y)` compares the
member with the array of all pairs (`C100_walkeq_wrong`); `1 == 2 + xs[_]` keeps the placeholder
(`C100_nested_wrong`).

## Parts of /repo without a model

The rest of the front end (src/file_to_rego.cc without the passes for expressions, the other passes of rego_to_bundle.cc), yaml.cc, the rest of crypto, graphql, aws, http, time zones,
net.cc (placeholders) and the wrappers for other languages.
