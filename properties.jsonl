{"id": "C01", "title": "Integer addition is exact at any size", "statement": "Evaluating x + y on two Rego integers yields the decimal numeral of the mathematical sum, with no overflow, lost carry or sign error.", "quantifier": "all pairs of integers written in canonical decimal, of any length and sign", "why_tests_cant": "The numerals are unbounded strings; carries can propagate arbitrarily far and every combination of signs and relative lengths takes a different path.", "anchors": ["src/bigint.cc: BigInt::operator+, BigInt::add, BigInt::subtract", "src/resolver.cc: do_arith"]}
{"id": "C02", "title": "Integer subtraction is exact at any size", "statement": "Evaluating x - y on two Rego integers yields the decimal numeral of the mathematical difference.", "quantifier": "all pairs of integers in canonical decimal, any length and sign", "why_tests_cant": "Borrow chains and zero stripping depend on unbounded digit strings.", "anchors": ["src/bigint.cc: BigInt::operator-, BigInt::subtract", "src/resolver.cc: do_arith"]}
{"id": "C03", "title": "Integer multiplication is exact at any size", "statement": "Evaluating x * y on two Rego integers yields the decimal numeral of the mathematical product.", "quantifier": "all pairs of integers in canonical decimal, any length and sign", "why_tests_cant": "Schoolbook multiplication loops over all digits of both operands; no finite sample covers all carry patterns.", "anchors": ["src/bigint.cc: BigInt::operator*, BigInt::multiply", "src/resolver.cc: do_arith"]}
{"id": "C04", "title": "Integer comparison agrees with the integer order", "statement": "<, <=, >, >= on Rego integers give exactly the order of the integers, and == holds exactly when the integers are equal.", "quantifier": "all pairs of integers in canonical decimal", "why_tests_cant": "Order is decided by length and lexicographic comparison of unbounded strings, with four sign cases.", "anchors": ["src/bigint.cc: BigInt::operator<, operator>, operator<=, operator>=, operator==, less_than, greater_than"]}
{"id": "C05", "title": "Integer remainder is the mathematical remainder", "statement": "x % y on integers with y nonzero is the remainder of truncated division; a zero divisor is an error.", "quantifier": "all pairs of integers in canonical decimal", "why_tests_cant": "Long division state (partial remainders) ranges over unbounded strings.", "anchors": ["src/bigint.cc: BigInt::operator%, BigInt::divide", "src/resolver.cc: do_arith", "src/builtins/core.cc: rem"]}
{"id": "C06", "title": "Arithmetic results stay canonical", "statement": "+, -, * and unary operations applied to canonical numerals give canonical numerals (no leading zero, no negative zero), so results of different computations of the same integer are equal, usable as the same key and print identically.", "quantifier": "all canonical operands and all finite compositions of the operations", "why_tests_cant": "Canonicity is an invariant over arbitrary expression trees.", "anchors": ["src/bigint.cc: BigInt::negate, add, subtract, multiply, abs"]}
{"id": "C07", "title": "numbers.range enumerates the closed interval", "statement": "numbers.range(a, b) returns every integer between a and b inclusive exactly once, ascending if a <= b and descending otherwise.", "quantifier": "all integer pairs a, b", "why_tests_cant": "Unbounded interval ends and lengths.", "anchors": ["src/builtins/numbers.cc: range"]}
{"id": "C08", "title": "numbers.range_step enumerates the arithmetic progression", "statement": "numbers.range_step(a, b, s) with s > 0 returns exactly a, a+s, ... (or descending) up to the last value not passing b; s <= 0 is an error.", "quantifier": "all integers a, b, s", "why_tests_cant": "Unbounded operands; termination and the end condition depend on divisibility.", "anchors": ["src/builtins/numbers.cc: range_step"]}
{"id": "C09", "title": "base64 round trip", "statement": "base64.decode(base64.encode(s)) = s and base64url.decode(base64url.encode(s)) = base64url.decode(base64url.encode_no_pad(s)) = s.", "quantifier": "all byte strings s of any length", "why_tests_cant": "Depends on length modulo 3 and all byte values at every position.", "anchors": ["src/builtins/base64/base64.cpp: base64_encode, base64_decode, pos_of_char", "src/builtins/encoding.cc: base64_encode_, base64_decode_, base64url_*"]}
{"id": "C10", "title": "hex round trip", "statement": "hex.decode(hex.encode(s)) = s.", "quantifier": "all byte strings s", "why_tests_cant": "All byte values at all positions and lengths.", "anchors": ["src/builtins/encoding.cc: hex_encode, hex_decode, hexdigit"]}
{"id": "C11", "title": "urlquery round trip", "statement": "urlquery.decode(urlquery.encode(s)) = s, and the encoded text contains only unreserved characters and percent escapes.", "quantifier": "all byte strings s", "why_tests_cant": "All byte values and lengths.", "anchors": ["src/builtins/encoding.cc: urlquery_encode, urlquery_decode, maybe_urlquery_decode"]}
{"id": "C12", "title": "urlquery.decode_object returns each parameter once", "statement": "urlquery.decode_object(q) maps every key of q to the list of the values given for it in q, in order, each occurrence once.", "quantifier": "all query strings", "why_tests_cant": "Any number of parameters, repeated keys, presence or absence of separators.", "anchors": ["src/builtins/encoding.cc: urlquery_decode_object"]}
{"id": "C13", "title": "URI path escaping round trip", "statement": "Unescaping an escaped path gives the original path and the escaped path contains no character that needs escaping.", "quantifier": "all byte strings", "why_tests_cant": "All byte values and lengths.", "anchors": ["src/builtins/uri.cc: unescape, escape_path, should_escape_path"]}
{"id": "C14", "title": "UUID text round trip and parser exactness", "statement": "Parsing the text of any 16-byte UUID (with or without braces) gives back the 16 bytes; every accepted text contains exactly 32 hexadecimal digits; generated UUIDs are version 4, RFC variant.", "quantifier": "all 16-byte values; all strings", "why_tests_cant": "2^128 values; arbitrary strings for rejection.", "anchors": ["src/builtins/uuid.cc: uuid_from_string, uuid_to_string, uuid_random, uuid_variant"]}
{"id": "C15", "title": "UUID field extraction", "statement": "uuid.parse reports time, clock sequence, node id, and MAC variables that are exactly the corresponding bit fields of the UUID.", "quantifier": "all 16-byte values", "why_tests_cant": "2^128 values.", "anchors": ["src/builtins/uuid.cc: get_time, get_clock_sequence, get_node_id, get_mac_vars"]}
{"id": "C16", "title": "glob.match decides the glob language", "statement": "glob.match(pattern, delimiters, s) is true exactly when s belongs to the language denoted by the pattern: literals, ?, *, ** , character classes and brace alternatives, with delimiters limiting ? and *.", "quantifier": "all patterns within the documented resource limits, all delimiter sets and all strings", "why_tests_cant": "Backtracking search over unbounded patterns and inputs.", "anchors": ["src/builtins/glob.cc: glob_match_iterative, match_pattern_step, push_wildcard, push_alternatives, match_char_class"]}
{"id": "C17", "title": "glob.quote_meta makes a literal pattern", "statement": "glob.match(glob.quote_meta(s), d, t) is true exactly when t = s.", "quantifier": "all strings s, t", "why_tests_cant": "All placements of metacharacters.", "anchors": ["src/builtins/glob.cc: quote_meta, match_escape, match_pattern_step"]}
{"id": "C18", "title": "graph.reachable is the exact reachability closure", "statement": "graph.reachable(g, start) is exactly the set of vertices of g that can be reached from start along edges whose intermediate vertices are in g; each once; it terminates on cyclic graphs.", "quantifier": "all finite graphs, all start sets", "why_tests_cant": "Graphs of any size and shape, including cycles and dangling edges.", "anchors": ["src/builtins/graph.cc: reachable, build_graph"]}
{"id": "C19", "title": "graph.reachable_paths returns exactly the maximal simple paths", "statement": "Every returned path starts in the start set, follows edges, repeats no vertex and cannot be extended; every such path is returned.", "quantifier": "all finite graphs, all start sets", "why_tests_cant": "Exponentially many paths in graphs of any size.", "anchors": ["src/builtins/graph.cc: reachable_paths"]}
{"id": "C20", "title": "array builtins implement list operations", "statement": "array.concat is list append, array.reverse is list reversal, array.slice(a, i, j) is the clamped subrange, array.flatten removes one level of nesting; length and membership follow.", "quantifier": "all arrays and all integer indices", "why_tests_cant": "Unbounded arrays and indices beyond either end.", "anchors": ["src/builtins/array.cc: concat, reverse, slice, flatten"]}
{"id": "C21", "title": "object builtins implement finite-map operations", "statement": "object.union(a,b) looks up b first then a; object.filter, object.remove and object.keys behave as restriction, deletion and domain; object.union_n folds union left to right.", "quantifier": "all objects and key collections", "why_tests_cant": "Unbounded objects and overlap patterns.", "anchors": ["src/builtins/objects.cc: object_union, union_n, filter, remove, keys"]}
{"id": "C22", "title": "Set operators implement set algebra", "statement": "Union, intersection and difference of sets contain exactly the members given by set algebra (members identified by value), with no duplicates.", "quantifier": "all sets of values", "why_tests_cant": "Unbounded sets of nested values.", "anchors": ["src/resolver.cc: set_union, set_intersection, set_difference, set", "src/encoding.cc: to_key"]}
{"id": "C23", "title": "Values are identified by their canonical key exactly when they are equal", "statement": "Two values have the same canonical key if and only if they are the same Rego value, regardless of the order in which sets and objects were written.", "quantifier": "all pairs of values, nested arbitrarily", "why_tests_cant": "Injectivity and order-independence over an infinite recursive type.", "anchors": ["src/encoding.cc: to_key"]}
{"id": "C24", "title": "sort, min and max respect the value order", "statement": "sort(c) is the ascending permutation of the members of c, min(c)/max(c) are its least/greatest member.", "quantifier": "all collections of numbers/strings", "why_tests_cant": "Arbitrary collections; correctness is about order on all pairs.", "anchors": ["src/builtins/core.cc: sort_, min, max"]}
{"id": "C25", "title": "semver.compare is the semantic-version order", "statement": "semver.compare is antisymmetric and transitive and orders by major, minor, patch, then pre-release. semver.is_valid accepts every text x.y.z with numbers of 32 bits, also with a tag and metadata, and only texts with three parts between dots that each have a digit.", "quantifier": "all pairs and triples of versions", "why_tests_cant": "Order laws quantify over all triples.", "anchors": ["src/builtins/semver.cc: operator<, compare", "src/builtins/semver.cc: parse_semver, is_valid"]}
{"id": "C26", "title": "bits builtins are two's-complement operations", "statement": "bits.and/or/xor/negate/lsh/rsh on operands that fit in 64 bits give the mathematical bitwise result; other operands are a type error.", "quantifier": "all integer operands", "why_tests_cant": "2^128 operand pairs.", "anchors": ["src/builtins/bits.cc"]}
{"id": "C27", "title": "split and concat are inverse", "statement": "concat(d, split(s, d)) = s for every nonempty d, and no element of split(s, d) contains d.", "quantifier": "all strings s and nonempty delimiters d", "why_tests_cant": "All occurrences and overlaps of the delimiter.", "anchors": ["src/builtins/core.cc: split, concat"]}
{"id": "C28", "title": "replace rewrites every occurrence left to right", "statement": "replace(s, old, new) with nonempty old equals concat(new, split(s, old)), and terminates.", "quantifier": "all strings s, old, new", "why_tests_cant": "Overlaps between new and old text; any number of occurrences.", "anchors": ["src/builtins/core.cc: do_replace, replace"]}
{"id": "C29", "title": "trim builtins remove exactly the matching ends", "statement": "trim/trim_left/trim_right/trim_prefix/trim_suffix/trim_space return the unique maximal (or single) stripped substring.", "quantifier": "all strings and cutsets", "why_tests_cant": "All strings and cutsets.", "anchors": ["src/builtins/core.cc: do_trim, trim*"]}
{"id": "C30", "title": "startswith, endswith, contains, indexof agree with string structure", "statement": "startswith(s,p) iff s = p ++ r; endswith(s,p) iff s = r ++ p; contains(s,p) iff s = a ++ p ++ b; indexof gives the least such offset or -1; indexof_n gives all offsets.", "quantifier": "all strings", "why_tests_cant": "All strings, empty needles, overlaps.", "anchors": ["src/builtins/core.cc: startswith, endswith, contains, indexof, indexof_n"]}
{"id": "C31", "title": "substring returns the requested window", "statement": "substring(s, offset, length) returns the characters from offset, at most length of them (all the rest if length is negative), and a negative offset is an error.", "quantifier": "all strings, all integers", "why_tests_cant": "Unbounded indices and strings.", "anchors": ["src/builtins/core.cc: substring"]}
{"id": "C32", "title": "format_int prints the integer in the base", "statement": "format_int(n, b) for b in {2, 8, 10, 16} denotes n in base b.", "quantifier": "all integers n", "why_tests_cant": "All integers.", "anchors": ["src/builtins/core.cc: format_int"]}
{"id": "C33", "title": "JSON pointer text round trip", "statement": "Parsing a JSON pointer built by escaping key segments gives back the segments; malformed escapes are rejected.", "quantifier": "all lists of key segments", "why_tests_cant": "All placements of ~ and / in any number of segments.", "anchors": ["src/builtins/json.cc: Pointer parsing (next_key)"]}
{"id": "C34", "title": "json.patch follows RFC 6902", "statement": "json.patch(doc, ops) applies add, remove, replace, move, copy and test in order; a failing operation makes the whole call fail and leaves no partial result.", "quantifier": "all documents and all operation lists", "why_tests_cant": "Histories of operations of any length over arbitrary documents.", "anchors": ["src/builtins/json.cc: patch_, patch::Op::apply, Operation::run"]}
{"id": "C35", "title": "Duplicate object keys: last value wins", "statement": "Reading a JSON object with repeated keys gives an object with each key once, mapped to the last value, at every nesting depth.", "quantifier": "all JSON documents", "why_tests_cant": "Nesting and repetition unbounded.", "anchors": ["src/json.cc: dedup_items"]}
{"id": "C36", "title": "A saved bundle loads back as the same bundle", "statement": "Saving a bundle in the binary format and loading it gives an identical bundle (up to documented normalisation) whenever the bundle is within the format's limits.", "quantifier": "all bundles within the limits", "why_tests_cant": "Bundles are trees of unbounded width and depth.", "anchors": ["src/bundle_binary.cc: save, load, oregostream, iregostream"]}
{"id": "C37", "title": "Corruption of a bundle payload is detected", "statement": "Changing any burst of at most 32 consecutive bits of the payload of a saved bundle (in particular any byte) makes loading fail.", "quantifier": "all bundles, all positions, all corruptions confined to such a burst", "why_tests_cant": "All payloads and corruptions.", "anchors": ["src/bundle_binary.cc: crc32_add, BundleDef::load"]}
{"id": "C38", "title": "Truncated, over-long or foreign files are rejected", "statement": "Loading a file whose magic, version, declared size or checksum does not match returns no bundle.", "quantifier": "all byte strings", "why_tests_cant": "All byte strings.", "anchors": ["src/bundle_binary.cc: header, BundleDef::load"]}
{"id": "C39", "title": "Loading arbitrary bytes never reads out of range", "statement": "For any input bytes the binary loader either returns a bundle or fails; it performs no access outside the input and no unbounded allocation from an unchecked count.", "quantifier": "all byte strings", "why_tests_cant": "Hostile input space is infinite.", "anchors": ["src/bundle_binary.cc: iregostream, read_size_checked"]}
{"id": "C40", "title": "A verified bundle never accesses out of range", "statement": "If the bundle verifier accepts a bundle then executing any entry point or the query performs no out-of-range access to locals, strings, plans, functions or builtins. A call of a function by its name in a verified bundle, however deep it is nested, has at least as many arguments as the function has parameters.", "quantifier": "all bundles accepted by the verifier, all inputs, all executions", "why_tests_cant": "All programs and all executions.", "anchors": ["src/bundle.cc: BundleDef::verify, verify_operand, verify_stmt", "src/virtual_machine.cc: read_local, write_local, unpack_operand"]}
{"id": "C41", "title": "Evaluation is bounded by the statement limit", "statement": "With a statement limit n, evaluation executes at most n statements plus the ones needed to notice the limit, and then reports an error rather than a result.", "quantifier": "all programs, all inputs, all limits", "why_tests_cant": "All programs, including non-terminating ones.", "anchors": ["src/virtual_machine.cc: run_stmt, run_block, State"]}
{"id": "C42", "title": "Call and block nesting are bounded", "statement": "Evaluation never nests calls or blocks deeper than the configured limits; exceeding a limit is reported as an error.", "quantifier": "all programs, inputs, limits", "why_tests_cant": "All programs.", "anchors": ["src/virtual_machine.cc: run_call, run_block"]}
{"id": "C43", "title": "with overrides do not leak", "statement": "After a with-statement the overridden document has the value it had before, whatever the body did.", "quantifier": "all values, paths and bodies", "why_tests_cant": "All bodies, nested with statements, error exits.", "anchors": ["src/virtual_machine.cc: run_with, write_and_swap"]}
{"id": "C44", "title": "A runtime error is never reported as a normal result", "statement": "If any runtime error is recorded during evaluation the query output is an error document, never a result set.", "quantifier": "all programs and inputs", "why_tests_cant": "All executions.", "anchors": ["src/virtual_machine.cc: run_query, run_entrypoint, add_error"]}
{"id": "C45", "title": "Memoised function results equal recomputation", "statement": "Results served from the function cache equal what calling the function again in the same evaluation would return, and calls made under a with override neither read nor populate the cache.", "quantifier": "all programs and call histories", "why_tests_cant": "All call histories.", "anchors": ["src/virtual_machine.cc: run_call, State::is_in_cache, add_to_cache"]}
{"id": "C46", "title": "not is negation as failure", "statement": "not B succeeds exactly when B is undefined and the bindings made in B that are observable outside are those of the enclosing frame semantics.", "quantifier": "all bodies and states", "why_tests_cant": "All bodies.", "anchors": ["src/virtual_machine.cc: run_stmt (Not)"]}
{"id": "C47", "title": "Conflicting definitions are errors", "statement": "Assigning a complete rule or inserting an object key twice with different values is an error; with equal values it is not.", "quantifier": "all values, all histories of assignments", "why_tests_cant": "Histories of any length.", "anchors": ["src/virtual_machine.cc: AssignVarOnce, ObjectInsertOnce, insert_into_object"]}
{"id": "C48", "title": "Partial sets and objects accumulate without duplicates", "statement": "A set built by any sequence of additions has each value once, independent of order; an object built by insertions maps each key to one value.", "quantifier": "all histories of additions", "why_tests_cant": "Histories of any length and order.", "anchors": ["src/virtual_machine.cc: SetAdd, ObjectInsert"]}
{"id": "C49", "title": "break leaves exactly the requested number of blocks", "statement": "A Break with index n exits exactly the n+1 innermost blocks and execution continues after them.", "quantifier": "all nestings and all n", "why_tests_cant": "All nestings.", "anchors": ["src/virtual_machine.cc: run_block, push_break, pop_break"]}
{"id": "C50", "title": "scan visits every element once in order", "statement": "Scanning an array, object or set runs the body once per element, binding key and value of that element, in collection order.", "quantifier": "all collections and bodies", "why_tests_cant": "Unbounded collections.", "anchors": ["src/virtual_machine.cc: run_scan"]}
{"id": "C51", "title": "Builtin allow and deny lists are enforced", "statement": "After a whitelist (blacklist) is set, calling a builtin outside (inside) the list gives an error and never runs it.", "quantifier": "all histories of list configuration, registration and lookup", "why_tests_cant": "Histories of configuration calls.", "anchors": ["src/builtins.cc: BuiltInsDef::at, call", "include/rego/rego.hh: whitelist, blacklist, allow_all"]}
{"id": "C52", "title": "Builtin errors surface according to the mode", "statement": "A builtin's evaluation error makes the call undefined in the default mode and an error in strict mode; unknown names, wrong arity and deprecated-in-strict are always errors.", "quantifier": "all builtins, arguments and modes", "why_tests_cant": "All combinations.", "anchors": ["src/builtins.cc: BuiltInsDef::call, is_deprecated"]}
{"id": "C53", "title": "C API: size-then-fetch always succeeds", "statement": "For every string the API exposes, calling the size function, allocating that many bytes and calling the fetch function succeeds and yields the NUL-terminated text; a smaller buffer is refused and nothing is written.", "quantifier": "all texts and all buffer sizes", "why_tests_cant": "All texts and sizes.", "anchors": ["src/rego_c.cc: regoNodeValueSize/regoNodeValue, regoNodeTypeNameSize/regoNodeTypeName, regoNodeJSONSize/regoNodeJSON, regoOutputJSONSize/regoOutputJSON, regoErrorSize"]}
{"id": "C54", "title": "C API: the input builder builds the value described", "statement": "A sequence of builder calls generated from a JSON value leaves exactly that value on the stack with status OK; any failing call makes validation and set-input fail.", "quantifier": "all values; all call sequences", "why_tests_cant": "Call histories of any length.", "anchors": ["src/rego_c.cc: regoInput*, regoSetInput"]}
{"id": "C55", "title": "Interpreter setters are all-or-nothing", "statement": "A failing call to set input, data, query or modules leaves the interpreter's other state unchanged, and a query whose text fails to parse is reported as an error.", "quantifier": "all call histories", "why_tests_cant": "Histories.", "anchors": ["src/interpreter.cc: set_*, add_*, query_node"]}
{"id": "C56", "title": "Output accessors report exactly what the query produced", "statement": "ok() is true iff there is no error; expressions and bindings are available exactly for valid indices; otherwise an exception is raised.", "quantifier": "all outputs and indices", "why_tests_cant": "All outputs.", "anchors": ["src/output.cc"]}
{"id": "C57", "title": "Literal reordering respects variable dependencies", "statement": "In the reordered body every literal comes after the literals that bind the variables it needs, each literal appears at most once, and every literal is kept when dependencies are acyclic.", "quantifier": "all rule bodies (literal/variable dependency graphs)", "why_tests_cant": "All graphs.", "anchors": ["src/dependency_graph.cc: topological_sort, find_graphs"]}
{"id": "C58", "title": "regex.globs_match detects common strings", "statement": "regex.globs_match(a, b) is true exactly when some non-empty string matches both globs.", "quantifier": "all pairs of globs within limits", "why_tests_cant": "Languages are infinite.", "anchors": ["src/builtins/regex.cc: gintersect, gsimplify, trim_matching_affixes, gmatch"]}
{"id": "C59", "title": "Non-deterministic builtins are stable within a query", "statement": "uuid.rfc4122(k) and time.now_ns() give the same value for the same key throughout one evaluation.", "quantifier": "all call histories within a query", "why_tests_cant": "Histories.", "anchors": ["src/builtins/uuid.cc: UUIDRFC4122", "src/builtins/time.cc: NowNS"]}
{"id": "C60", "title": "Evaluation is a function of bundle, data and input", "statement": "Two evaluations of the same bundle with the same data and input give the same result, and reusing one virtual machine for many queries leaks nothing from one query to the next.", "quantifier": "all bundles, inputs and histories of queries", "why_tests_cant": "Histories.", "anchors": ["src/virtual_machine.cc: run_query, State"]}
{"id": "C61", "title": "strings.count counts leftmost non-overlapping occurrences", "statement": "strings.count(s, p) is the number of occurrences of p found when scanning s from the left and resuming after each one; the empty string occurs once more than there are bytes.", "quantifier": "all strings s, p", "why_tests_cant": "Unbounded strings and overlaps.", "anchors": ["src/builtins/core.cc: strings.count"]}
{"id": "C62", "title": "object.subset is containment", "statement": "object.subset(a, b) is true exactly when b is contained in a: every item of an object recursively, an array as a contiguous part, a set member by member (also in an array).", "quantifier": "all pairs of collections, nested to any depth", "why_tests_cant": "Nested values of every shape and size; false answers need every position to be excluded.", "anchors": ["src/builtins/objects.cc: is_subset, array_subset, set_subset, object_subset"]}
{"id": "C63", "title": "walk enumerates every sub-value", "statement": "walk(x) yields exactly the pairs [path, value] such that following path in x leads to value, every path once, and terminates.", "quantifier": "all values of any depth and width", "why_tests_cant": "The values are unbounded trees; completeness is a claim about all paths.", "anchors": ["src/builtins/core.cc: walk"]}
{"id": "C64", "title": "Membership is membership", "statement": "x in c holds exactly when x equals a member of the array or set c or a value of the object c; i, x in c holds when x is found at index or key i.", "quantifier": "all items, indices and collections", "why_tests_cant": "Equality of arbitrary nested values in arbitrary collections.", "anchors": ["src/resolver.cc: membership, array_find, object_find", "src/builtins/internal.cc: member_2, member_3"]}
{"id": "C65", "title": "json.filter keeps what the paths lead to", "statement": "json.filter(object, paths) contains a value exactly if one of the paths leads to it, to something that contains it, or through it; what a path leads to is kept as it is, and the elements of arrays stay in order.", "quantifier": "all objects and all lists or sets of paths, given as strings or as arrays", "why_tests_cant": "Paths may share prefixes, lie below each other and end above or below the places that exist, in any number and at any depth.", "anchors": ["src/builtins/json.cc: filter, ptree::insert"]}
{"id": "C66", "title": "json.remove removes what the paths lead to and nothing else", "statement": "json.remove(object, paths) is the object without the values the paths lead to; all other values are left as they are.", "quantifier": "all objects and all lists or sets of paths, given as strings or as arrays", "why_tests_cant": "Paths may share prefixes, lie below each other and end above or below the places that exist, in any number and at any depth.", "anchors": ["src/builtins/json.cc: remove_, ptree::insert"]}
{"id": "C67", "title": "Builtin names resolve to the builtin of that name", "statement": "Every standard builtin name is found and resolves to the builtin of that name, and no other name resolves to a standard builtin.", "quantifier": "all names", "why_tests_cant": "The space of names is infinite; the look-up is a generated decision tree over length, first and last character.", "anchors": ["src/builtins.cc: BuiltInsDef::lookup", "src/builtins/core.cc: core, strings", "src/builtins/crypto.cc: crypto", "src/builtins/jwt.cc: jwt", "src/builtins/aws.cc: aws", "src/builtins/uuid.cc: uuid"]}
{"id": "C68", "title": "decode_verify accepts exactly the tokens that are signed and meet the constraints", "statement": "io.jwt.decode_verify answers [true, header, payload] exactly when the token is three base64url sections, the third is a signature of the first two under the algorithm in the header with the key in the constraints, the algorithm is the wanted one, and issuer, subject, audience, expiry and not-before time meet the constraints; at every level of a nested token, at most ten. It never accepts without a key, never accepts an expired token, and a certificate is never used as a shared secret.", "quantifier": "all tokens, constraints, keys and clocks", "why_tests_cant": "The tokens an attacker can write are unbounded; tests check a few fixed tokens.", "anchors": ["src/builtins/jwt.cc: decode_verify_impl, check_aud_claim, check_string_claim, get_object_string, get_object_number, split_jwt", "src/builtins/crypto_openssl3.cc: verify_signature, verify_signature_any_key, verify_hmac, load_public_key", "src/builtins/crypto_utils.hh: validate_pem, extract_jwks_keys, parse_algorithm_impl"]}
{"id": "C69", "title": "verify_* answers true exactly for valid signatures under that algorithm", "statement": "io.jwt.verify_<alg> answers true exactly when the token is three base64url sections, its header names that algorithm, and the third section is a signature of the first two with the given key; every other token gets false or an error, never an exception.", "quantifier": "all tokens, keys and the 13 algorithms", "why_tests_cant": "Tests hold a few tokens per algorithm.", "anchors": ["src/builtins/jwt.cc: verify_impl, algo_from_verify_name, split_jwt, count_dots", "src/builtins/crypto_openssl3.cc: verify_signature, md_for_algo"]}
{"id": "C70", "title": "Signed tokens decode and verify", "statement": "The token of io.jwt.encode_sign(_raw) is the base64url texts of header, payload and signature joined by dots; io.jwt.decode gives header and payload back, io.jwt.verify_* with the matching key answers true, and the payload that is signed is the payload that was given.", "quantifier": "all headers, payloads and keys", "why_tests_cant": "Round trips over all JSON values and keys cannot be enumerated.", "anchors": ["src/builtins/jwt.cc: encode_sign_raw_impl, encode_sign_impl, rego_node_to_json, decode_impl", "src/builtins/crypto_openssl3.cc: sign", "src/builtins/crypto_utils.hh: base64url_encode_nopad_impl"]}
{"id": "C71", "title": "Durations are parsed to their number of nanoseconds", "statement": "time.parse_duration_ns accepts a text exactly if it is 0, +0, -0 or a non-empty sequence of decimal numbers each followed by a unit (ns, us, \u00b5s, ms, s, m, h, d, w, y), answers the exact number of nanoseconds of the sum, gives an error when that does not fit 64 bits, and terminates on every text.", "quantifier": "all texts", "why_tests_cant": "The texts form an infinite language; rounding and overflow happen at the edges.", "anchors": ["src/builtins/time.cc: do_parse_duration, duration_error, duration_units"]}
{"id": "C72", "title": "time.date, time.clock and time.weekday are those of the Gregorian calendar", "statement": "For every timestamp that fits 64 bits, and every time zone, time.date, time.clock and time.weekday answer the date, time of day and weekday of the proleptic Gregorian calendar in that zone; other arguments are an error, never an exception.", "quantifier": "all integers, all zones", "why_tests_cant": "Leap years, negative timestamps and zone offsets give 2^64 cases.", "anchors": ["src/builtins/time.cc: clock_, date_, weekday, process_arg, get_timestamp"]}
{"id": "C73", "title": "time.add_date counts in the calendar", "statement": "time.add_date moves the date by the given years and months, counts a day beyond the end of the month on into the next one, adds the days and keeps the time of day; a result outside 64 bits is an error.", "quantifier": "all timestamps and all integer years, months and days", "why_tests_cant": "Four unbounded integers.", "anchors": ["src/builtins/time.cc: add_date"]}
{"id": "C74", "title": "time.diff splits the difference into calendar parts", "statement": "time.diff answers the years, months, days, hours, minutes and seconds between two instants: the parts are in range (months below 12), adding them to the earlier instant gives the later one, and the order of the arguments does not matter.", "quantifier": "all pairs of timestamps", "why_tests_cant": "All pairs of instants cannot be listed.", "anchors": ["src/builtins/time.cc: diff"]}
{"id": "C75", "title": "time.format writes the instant", "statement": "time.format of a timestamp is its date and time of day in ISO form with nine digits of fraction (and the offset of the zone); different timestamps get different texts; a fraction asked for by the layout is the fraction of the second; a layout or zone that cannot be used is an error.", "quantifier": "all timestamps, zones and layouts", "why_tests_cant": "Layouts are free texts.", "anchors": ["src/builtins/time.cc: format, info_string, time_string, timezone_string, get_format, insert_fraction"]}
{"id": "C76", "title": "units.parse and units.parse_bytes read amounts with units", "statement": "units.parse answers amount times unit for every text made of a decimal amount (exponent of at most six digits) and an optional decimal or binary unit, and an error for every other text; units.parse_bytes also takes a final b or B and answers a whole number; the answer equals the same number written otherwise, and no text makes them throw.", "quantifier": "all texts", "why_tests_cant": "The texts form an infinite language with letters of either case, m and M that differ, and numbers beyond every machine type.", "anchors": ["src/builtins/units.cc: do_parse, parse_number, scale, strip_escaped_quotes", "src/resolver.cc: Resolver::scalar(double)"]}
{"id": "C77", "title": "uri.parse accepts exactly the URI references and reports their components", "statement": "uri.parse succeeds on a text exactly when it is scheme, authority, path, query and fragment composed by their delimiters, each proper for its place; it reports the lower-case scheme, the decoded host, the port, the decoded path, the query and the decoded fragment, and raw_path is the path as written. A text has only one such decomposition. Composing and parsing gives the components back. uri.is_valid says whether uri.parse succeeds.", "quantifier": "every text", "why_tests_cant": "The texts with nested delimiters, escapes, zones and empty components are unbounded; tests sample a few URLs", "anchors": ["src/builtins/uri.cc: url_parse, parse_authority, unescape, escape_path", "src/builtins/uri.cc: parse, is_valid"]}
{"id": "C78", "title": "ceil, floor, round and abs are the mathematical functions", "statement": "ceil(x) is the least integer not below x, floor(x) the greatest not above, round(x) the nearest with halves away from zero, abs(x) the absolute value; integers of any size are exact. Other values are type errors.", "quantifier": "every number, integer or not, of any size", "why_tests_cant": "Halves, negative numbers, the bounds of 64 bits and the last digit of a double are not all sampled", "anchors": ["src/builtins/core.cc: abs_, ceil_, floor_, round_", "src/internal.cc: get_double"]}
{"id": "C79", "title": "to_number gives the number a text is the text of", "statement": "to_number of the decimal text of an integer is that integer at any size; null, true, false are 0, 1, 0; numbers are unchanged; a text that is no number is an error; equal strings give equal numbers.", "quantifier": "every value, every text", "why_tests_cant": "Texts are unbounded, and the same string has two representations", "anchors": ["src/builtins/core.cc: to_number", "src/bigint.cc: BigInt::is_int", "src/resolver.cc: Resolver::scalar"]}
{"id": "C80", "title": "lower and upper change the case of letters and nothing else", "statement": "lower(s) and upper(s) have the length of s, differ from it only in letters, are idempotent, and lower(upper(s)) = lower(s).", "quantifier": "every string", "why_tests_cant": "Strings are unbounded; every byte value matters", "anchors": ["src/builtins/core.cc: lower, upper"]}
{"id": "C81", "title": "sprintf writes the format with each directive replaced by its argument", "statement": "A format is plain characters and directives; sprintf writes the characters as they are and for each directive, in order, the next argument in the notation the directive asks for; %% is a percent sign, unknown letters are left; too few arguments are an error and arguments left over are ignored.", "quantifier": "every format, every list of arguments", "why_tests_cant": "Formats and arguments are unbounded; widths, 32 and 64 bit bounds and representation of strings are corner cases", "anchors": ["src/builtins/core.cc: parse_format, sprintf_", "src/internal.cc: get_raw_string, is_truthy"]}
{"id": "C82", "title": "A template string stands for its parts one after the other", "statement": "A template string evaluates to the concatenation of its literal parts and the values of its expressions, an expression without result is <undefined>, and one with two results is an error; the result is a valid string whatever characters the values have.", "quantifier": "every list of parts", "why_tests_cant": "The values interpolated are arbitrary, with control characters, quotes and escapes", "anchors": ["src/builtins/internal.cc: template_string, stringify_value, escape_append"]}
{"id": "C83", "title": "print writes one line for every combination of results", "statement": "internal.print writes, for every way to choose one result of each of its arguments, one line with these separated by blanks, in order; an argument without result is <undefined>.", "quantifier": "every list of sets of results", "why_tests_cant": "The number of combinations is unbounded", "anchors": ["src/builtins/internal.cc: print, print_cross_product, print_value"]}
{"id": "C84", "title": "Sharing and in-place change of values is not observable", "statement": "The virtual machine stores values as graphs of shared nodes and changes some of them in place. For every bundle that changes a collection in place only in the function (or plan) that made it and only until it is first read, the output of a query or an entry point is exactly the output of a machine that copies every value: no statement changes a value seen through another variable, the cache, the input, the data or an earlier result. Errors are reported only if the copying machine fails too or a limit on statements or nesting is exceeded.", "quantifier": "All bundles with that discipline, all data and input documents, all builtin libraries, all limits and all executions.", "why_tests_cant": "Aliasing bugs need a particular sequence of statements that share a node and then change it; tests see only the sequences someone thought of.", "anchors": ["src/virtual_machine.cc:run_block", "src/virtual_machine.cc:run_stmt", "src/virtual_machine.cc:run_query", "src/virtual_machine.cc:run_entrypoint"]}
{"id": "C85", "title": "A compiled program gives the values of its rules", "statement": "Evaluating an entry point gives the value of its rule in Rego: the value all definitions agree on, taking the first branch of each that holds, or the default; the set or object of all values a partial rule has for the solutions of its bodies; undefined if there is none. An error is reported exactly if two definitions conflict, a builtin fails or a limit is exceeded. A result is never wrong, and does not depend on other entry points.", "quantifier": "All non-recursive programs of the modelled syntax (arbitrary nesting of collections, comprehensions, negation, every, with, function calls), all inputs, data, builtins and limits", "why_tests_cant": "Programs are unbounded trees; errors of code generation show up only for particular nestings, for instance of scopes and temporaries", "anchors": ["src/rego_to_bundle.cc: expr_to_opblock, add_plans, expand_withseq", "src/opblock.cc", "src/internal.cc: get_inner, add_literal_to_block, rule_stmt", "src/virtual_machine.cc: run_entrypoint"]}
{"id": "C86", "title": "The verifier accepts every compiled program, which then runs inside its tables", "statement": "The bundle the compiler makes from a valid program passes the check that runs when it is bound to the virtual machine, and evaluating it never reads or writes outside of locals, strings, functions and plans.", "quantifier": "All programs of the modelled syntax, all documents", "why_tests_cant": "Programs are unbounded; the bundle may have any number of strings and locals", "anchors": ["src/bundle.cc: verify, verify_stmt, verify_operand", "src/rego_to_bundle.cc: index_strings_locals", "src/virtual_machine.cc: bundle"]}
{"id": "C87", "title": "The numbers of locals and the order of functions in a bundle do not matter", "statement": "Two bundles that differ only in how their locals are numbered and in the order in which their functions are listed behave alike: every entry point and query has the same outcome, including errors and limits, and if the verifier accepts one (within the conditions it leaves open) it accepts the other.", "quantifier": "All bundles, all permutations of the locals that keep input and data, all orders of functions, all documents, builtins and limits", "why_tests_cant": "The numbering and the order depend on the compiler and on the order of rules in the source; there are as many as permutations", "anchors": ["src/rego_to_bundle.cc: index_strings_locals", "src/virtual_machine.cc: run_stmt, read_local, write_local, run_call", "src/bundle.cc: verify"]}
{"id": "C88", "title": "A bundle saved as JSON loads as the same bundle", "statement": "When a bundle is saved in JSON form (data.json and plan.json) and the files are loaded, loading succeeds and the loaded bundle has the same plans, functions, strings, built-ins, query and data document, so that every entry point and query has the same outcome.", "quantifier": "All bundles the compiler can build: every statement, nesting of blocks, operand, declaration of a built-in and data document", "why_tests_cant": "The writer and the reader are two tree-rewriting passes with a rule per statement; the rules match on shape, so that any document or nesting may be taken for something else", "anchors": ["src/bundle_json.cc: bundle_to_json, json_to_bundle", "src/interpreter.cc: save_bundle, load_bundle", "src/bundle.cc: BundleDef::from_node", "src/json.cc: from_json_to_term"]}
{"id": "C89", "title": "The name of an entry point selects the plan built for it", "statement": "In a bundle made from a compiled program, looking up the name of an entry point (or of a function, or the query) gives the plan (or function) that was built under this name, and a name that was not given is not found.", "quantifier": "All bundles, any number of entry points in any order, also repeated", "why_tests_cant": "The index is taken from the size of a map that is filled in a loop; whether it agrees with the position in the list of plans depends on the whole list of names", "anchors": ["src/bundle.cc: BundleDef::from_node, find_plan, find_function", "src/interpreter.cc: entrypoints, build, query_bundle"]}
{"id": "C90", "title": "The executed bundle is the one the tree stands for", "statement": "The bundle that the virtual machine executes has exactly the statements, operands, targets, nested blocks, parameters, names, strings, declarations, data and query that the compiled (or loaded) tree of the intermediate language says, and its frames have room for every local that a statement writes.", "quantifier": "All bundles: every statement type with every combination of operands, any nesting of blocks, loops, negations and with, any number of functions and plans", "why_tests_cant": "Each of the 33 statement types is decoded by its own code with fields in its own order; a swapped pair of fields or a local that is not counted shows only in a program that uses this field in a way that matters", "anchors": ["src/bundle.cc: BundleDef::from_node, node_to_statement, node_to_block, node_to_plan, node_to_function, node_to_operand", "include/rego/rego.hh: wf_bundle"]}
{"id": "C91", "title": "The JSON text of a result is JSON and stands for the result", "statement": "The text that a query returns is a JSON text, whatever the values in the result. The document that it is has, for every result, the values of the expressions in order and the bindings; arrays keep their order, a set is the array of its members, an object has the same items, a key that is not a string is named by its JSON text. Values that are the same have the same text, however their sets and objects are stored.", "quantifier": "all values and all lists of results, of any depth and size", "why_tests_cant": "A test parses the outputs of some queries; nesting of sets and objects, keys of other types and every storage order cannot be listed.", "anchors": ["src/encoding.cc:to_key", "src/output.cc:Output::json", "src/interpreter.cc:Interpreter::output_to_string", "src/rego_c.cc:regoNodeJSON"]}
{"id": "C92", "title": "JSON documents are taken as they are, and results can be given back", "statement": "Every JSON text given as data or input is accepted, and a text that is not JSON is refused. The value is the one the text stands for: returned as the result of a query it is the same document, at every depth, with each name once and its last value. A result without sets, given back as input, is the same value.", "quantifier": "all JSON texts, with any white space, nesting, escapes and repeated names; all values", "why_tests_cant": "Tests read some documents; the grammar of JSON has unboundedly many texts and the reader takes numbers by two regular expressions that do not cover it.", "anchors": ["src/json.cc:json_to_rego", "src/json.cc:dedup_items", "src/interpreter.cc:Interpreter::set_input_json", "src/interpreter.cc:Interpreter::add_data_json", "src/encoding.cc:to_key"]}
{"id": "C93", "title": "Operators group as the table says, and nothing is lost", "statement": "An expression with operators, brackets, calls, minus signs and membership is read into the tree that the table of precedences gives: tighter operators first, equal ones from the left. Every such tree can be written without further brackets and is read back. What is read contains all that was written, in order; what cannot be grouped is refused, not read in part.", "quantifier": "all sequences of tokens of expressions, of any length and nesting", "why_tests_cant": "Tests read some expressions with two or three operators; combinations of eight levels with unary minus, negative numbers, keys of membership and brackets at any depth cannot be listed.", "anchors": ["src/file_to_rego.cc:unary", "src/file_to_rego.cc:arithbin_first", "src/file_to_rego.cc:arithbin_second", "src/file_to_rego.cc:comparison", "src/file_to_rego.cc:membership", "src/file_to_rego.cc:assign"]}
{"id": "C94", "title": "Texts are cut into the tokens they are made of", "statement": "An expression may be laid out with any blanks, ends of lines and comments between its tokens, and is read as the same tree. Numbers, strings with escapes, raw strings, names that begin with a keyword, keywords and signs are found as they are written, and nothing of the text is left out.", "quantifier": "all texts; all tokens and all layouts of them; all expressions", "why_tests_cant": "Tests read some expressions in one layout; names such as not_x, numbers with exponents, strings with every escape and comments in every place cannot be listed.", "anchors": ["src/parse.cc:parser", "src/file_to_rego.cc:file_to_rego"]}
{"id": "C95", "title": "Comparisons are a total order that agrees with equality", "statement": "For any two values, of the same or of different types, each of ==, !=, <, <=, >, >= gives true or false; == holds exactly if the two are the same value (sets and objects whatever the order they were written in); exactly one of a < b, a == b, a > b holds; <= and >= are the disjunctions; < is transitive across types. Integers of any size are ordered as numbers and strings by their characters.", "quantifier": "All values whose floating point numbers have up to fifteen digits (and pairs and triples of them), both as operators and as the builtins equal, neq, lt, lte, gt, gte.", "why_tests_cant": "Transitivity and trichotomy are statements about all pairs and triples of nested values; the implementation compares texts, so that a clash of two texts or a cycle through three types appears only for particular values.", "anchors": ["src/resolver.cc:Resolver::boolinfix", "src/resolver.cc:do_bool", "src/encoding.cc:to_key", "src/builtins/core.cc:equal, gt, lt"]}
{"id": "C96", "title": "Arithmetic gives exact integers, numbers for numbers and errors for everything else", "statement": "The operators +, -, * on integers of any size are exact, also when an operand is a float without a fraction; - on two sets is the difference; / is the quotient of the doubles read for its operands and an error for zero; an operator on two numbers gives a number or a reported failure; any other operands are an error. sum and product of an array or set of integers are exact, and over numbers of any kind give a number or a reported failure.", "quantifier": "All pairs of values and all operators, all arrays and sets for sum and product, every library of doubles.", "why_tests_cant": "The operands range over all types and sizes, and the result of sum depends on the whole history of the accumulator.", "anchors": ["src/resolver.cc:Resolver::arithinfix", "src/resolver.cc:do_arith", "src/internal.cc:try_get_int", "src/builtins/core.cc:plus_, minus_, mul_, div_, rem_, sum, product"]}
{"id": "C97", "title": "Numbers are written as they were read", "statement": "A number with a decimal point or exponent in a policy, data or input appears in results as the same number: what is written stands for the number nearest to it with sixteen digits, the order of numbers is kept, and numbers that are doubles with at most sixteen digits come out unchanged.", "quantifier": "every decimal text of a number, of any length, within the range of doubles", "why_tests_cant": "the numbers are infinitely many and rounding errors show only for particular digits", "anchors": ["src/encoding.cc:to_key", "src/resolver.cc:Resolver::scalar", "src/parse.cc:Float"]}
{"id": "C98", "title": "Comparisons of numbers agree with the numbers", "statement": "Comparing two numbers, whether written as integers or as floats, gives an answer that agrees with the order of the numbers they stand for: a < b is only said of a smaller number, equal numbers are never told apart, and numbers that differ by more than the precision of doubles are told apart.", "quantifier": "every pair of numbers written in any way, and every comparison operator", "why_tests_cant": "rounding errors show only for particular pairs of numbers, of which there are infinitely many", "anchors": ["src/resolver.cc:do_bool", "src/resolver.cc:boolinfix", "src/internal.cc:get_double", "src/encoding.cc:to_key"]}
{"id": "C99", "title": "Unification finds exactly the solutions of a body", "statement": "A body with literals a = b, x := t and tests, over arrays, objects and variables in any order, is compiled to a sequence of assignments, tests and accesses that succeeds exactly if some values of the variables make all literals hold, and that gives every variable its value in that solution; variables from outside keep theirs.", "quantifier": "every body: any number of literals in any order, patterns of any depth, every value of the documents and of the variables from outside", "why_tests_cant": "the result depends on which variables have values at each step of a worklist, so the cases grow with the number and the nesting of the literals", "anchors": ["src/dependency_graph.cc:DependencyGraph::add_exprs", "src/dependency_graph.cc:DependencyGraph::add_terms", "src/dependency_graph.cc:DependencyGraph::resolve_unify_literals", "src/dependency_graph.cc:DependencyGraph::update_edges", "src/dependency_graph.cc:DependencyGraph::sort", "src/rego_to_bundle.cc:unify"]}
{"id": "C100", "title": "Enumerations in bodies range over all members", "statement": "A literal with references such as xs[i] or xs[_], and some k, v in xs, are compiled to loops over the members and unifications with the keys, which hold exactly for the values of the variables for which the literal holds: every member is tried, none is tried that is not there, and the modifiers (with) of the literal apply.", "quantifier": "every literal and body: references with any number of keys and enumerations in any order on either side of operators, := and =, calls of walk, some with any patterns; every value of the documents and variables, with or without modifiers", "why_tests_cant": "the number of loops and their order depend on the reference, and each rule is one of a family that depends on where the reference stands; tests see single combinations", "anchors": ["src/rego_to_bundle.cc:ref_to_scan", "src/rego_to_bundle.cc:implicit_scans", "src/rego_to_bundle.cc:find_locals", "src/rego_to_bundle.cc:rules"]}
{"id": "C101", "title": "A body has the solutions of its literals as written", "statement": "A body made of a = b, a := b and tests, as written by the user, succeeds exactly if some values of its variables make both sides of every = and := equal and every test hold, whichever literals the compiler turns into assignments, tests or unifications and in whatever order they are written; documents, rules and variables from outside are compared, not assigned.", "quantifier": "every body: any literals in any order, constants and patterns of any depth, nested bodies and function bodies, every value of the documents", "why_tests_cant": "how a literal is compiled depends on what stands before it in the body, on which names are rules or arguments, and on whether some other literal is a unification; tests cover a few combinations", "anchors": ["src/rego_to_bundle.cc:rules", "src/rego_to_bundle.cc:implicit_scans", "src/rego_to_bundle.cc:is_func_arg", "src/internal.cc:is_constant", "src/dependency_graph.cc:DependencyGraph::sort"]}
{"id": "C102", "title": "The value of a rule is that of its own expression", "statement": "Moving the values, keys and arguments of rule heads into the bodies keeps what a rule means: every body gives, for all arguments, exactly the values that the expression of its else, or else of the head, has under its own literals; a rule without bodies always holds; rules with keys give the keys and values of their head under each body and are rejected exactly if they have an else; and all definitions of a function get the same parameters, one for each argument, shared with no other function.", "quantifier": "every rule with any expressions, literals, arguments and bodies; every list of definitions of functions in any packages", "why_tests_cant": "the literal with the value is carried from body to body and replaced by else, and the parameters are remembered by name across packages; tests try the usual order of bodies and different names", "anchors": ["src/rego_to_bundle.cc:rules"]}
{"id": "C103", "title": "Every rule is in the document its package and reference name", "statement": "After merging any modules, the rules of a document are exactly the rules of all modules whose package and reference together name it, however the path is divided between package and reference and in whatever order the modules are added; there is a document at exactly the paths that packages and references need, each path names one document, the query is kept apart from data, and merging fails only if the reference of a package has an argument that is no string.", "quantifier": "every list of modules, packages and references of any length, every order of the modules", "why_tests_cant": "the hierarchy is built by changing nodes in place while modules are read one after the other; tests try a few packages", "anchors": ["src/rego_to_bundle.cc:merge_documents", "src/rego_to_bundle.cc:add_or_find_child_document", "src/rego_to_bundle.cc:merge"]}
{"id": "C104", "title": "with reaches everything that is called", "statement": "Evaluating a rule or function with modifiers that replace rules, functions or builtins gives what its definition gives when every reference to a replaced name, in the rule itself and in everything it calls directly or indirectly, stands for the replacement; the modifiers of inner calls are added to those of outer ones and win over them, and nothing outside of the call is affected.", "quantifier": "every program of functions calling each other to any depth, every list of modifiers with constants, variables or functions as values, every nesting of modifiers", "why_tests_cant": "the compiler copies functions for every call with modifiers and passes the values of variables as additional arguments from copy to copy; tests try one or two levels", "anchors": ["src/rego_to_bundle.cc:WithInfo", "src/rego_to_bundle.cc:with_rules", "src/rego_to_bundle.cc:contains_callstmt"]}
{"id": "C105", "title": "regex.template_match matches literals as they are and expressions between delimiters", "statement": "regex.template_match answers true exactly if the value is made, in order, of the literal texts of the template and, in the place of each expression between delimiters, of a text that the expression matches. Every template and every pair of delimiters is answered.", "quantifier": "every template, value and pair of delimiters", "why_tests_cant": "the answer depends on how delimiters, literals and expressions of any length are interleaved; tests use a few templates with single braces", "anchors": ["src/builtins/regex.cc:parse_template", "src/builtins/regex.cc:compile_template", "src/builtins/regex.cc:template_match"]}
{"id": "C106", "title": "json.marshal_with_options follows its options in any order", "statement": "json.marshal_with_options sets the text in lines exactly if pretty is true, or if pretty is not given and an indent or a prefix is; lines are indented by the indent given (a tab if none), every line begins with the prefix given, and a text that is not set in lines has neither. The order of the options does not matter; an unknown option or one of a wrong type is an error.", "quantifier": "every value, every object of options, every text", "why_tests_cant": "options combine, and the number of lines has no limit", "anchors": ["src/builtins/json.cc:marshal_with_options"]}
{"id": "C107", "title": "rand.intn stays below its bound", "statement": "rand.intn(seed, n) gives an integer r with 0 <= r < abs(n), the same for the same seed and bound.", "quantifier": "every seed and every integer n", "why_tests_cant": "the bound ranges over all integers and the generator over all seeds", "anchors": ["src/builtins/numbers.cc:intn"]}
{"id": "C108", "title": "regex.split ends and cuts at the matches", "statement": "regex.split(pattern, value) ends and gives the texts between the successive leftmost matches of the pattern in the value, in order; the pieces with the matches between them give back the value.", "quantifier": "every pattern, every string", "why_tests_cant": "values have no limit of length, and patterns may match the empty text or depend on what is before", "anchors": ["src/builtins/regex.cc:split"]}
{"id": "C109", "title": "regex.find_n and find_all_string_submatch_n give the first matches", "statement": "regex.find_n(pattern, value, n) gives the texts of the first n successive leftmost matches that do not overlap, without empty matches where a match ends, and all of them if n is negative; regex.find_all_string_submatch_n gives for each of the same matches its text and the texts of its groups.", "quantifier": "every pattern, every string, every integer n", "why_tests_cant": "values and numbers of matches have no limit", "anchors": ["src/builtins/regex.cc:find_n", "src/builtins/regex.cc:find_all_string_submatch_n"]}
{"id": "C110", "title": "regex.match and regex.replace agree with the matches", "statement": "regex.match(pattern, value) is true exactly if the pattern matches at some position of the value; regex.replace(s, pattern, value) is s with the value put for every match of the pattern and nothing else changed.", "quantifier": "every pattern, every string", "why_tests_cant": "the position of a match and the number of matches have no limit", "anchors": ["src/builtins/regex.cc:match", "src/builtins/regex.cc:replace"]}
{"id": "C111", "title": "The value of a package", "statement": "A reference to a package, such as data.p, gives the object of everything in it: for the package and each package below it, at every depth, one member for each rule that is not a function and has a value, and one member for each package below; nothing else is in it. When the reference has further arguments, what they exclude is left out and nothing else. Building the object never fails.", "quantifier": "All trees of packages and rules, all values of the rules (including rules without a value), all arguments of the reference", "why_tests_cant": "The object depends on the shape of the whole tree and on which rules are undefined for the given input; tests have a few trees", "anchors": ["src/internal.cc document_stmt", "src/internal.cc DocumentPath", "src/internal.cc rule_stmt", "src/opblock.cc", "src/virtual_machine.cc"]}
{"id": "C112", "title": "References into data", "statement": "A reference data.a.b.c gives: when a part of it names a rule, the value of that rule with the rest of the reference looked up in it (undefined when the rule is); when it names a package, the object of the package together with the members data has there; otherwise what is found in data at that path when the policy runs, including changes made by with, and undefined if nothing is there.", "quantifier": "All trees of packages and rules, all base documents at compile time, all values of data at run time, all references made of names, of any length", "why_tests_cant": "Which case applies depends on how the whole reference lies in the package tree and the base document; data at run time may differ from data at compile time", "anchors": ["src/opblock.cc lookup_ref", "src/opblock.cc add_prefix", "src/opblock.cc ref_to_opblock", "src/internal.cc base_block", "src/virtual_machine.cc merge_objects"]}
{"id": "C113", "title": "References with arguments in brackets", "statement": "A reference data.p[x].y\u2026, where p is a package and x has a value, gives what the reference with the value of x in place of x gives: when the names and the values of the arguments name a rule, the value of that rule with the other arguments, whatever their values, looked up in it; when they name a package, its object; when they name something in data, what is there; undefined otherwise.", "quantifier": "All trees of packages and rules, all base documents at compile time, all values of the arguments, references of any length", "why_tests_cant": "The function is chosen at run time by its name, put together from the values of the arguments; which names collide depends on the whole package tree and on the values", "anchors": ["src/opblock.cc lookup_ref", "src/internal.cc rule_dynamic_block", "src/rego_to_bundle.cc rule_ident_to_string", "src/virtual_machine.cc CallDynamic"]}
{"id": "C114", "title": "Rules with values for keys", "statement": "A rule p[x][y] := v or p[x] contains v gives an object with the value of every solution at the keys of that solution, with the sets of all members the solutions give, and with nothing else; each key is there once; two solutions with the same keys and different values are a conflict, and nothing else is an error; the order of the rules and of the solutions does not matter.", "quantifier": "All rules with any number of bodies and solutions, any number of keys, any values for keys", "why_tests_cant": "What is built depends on all solutions together and on how their keys share beginnings; the object is changed in place along each way", "anchors": ["src/rego_to_bundle.cc bodyobjdynamic_block", "src/rego_to_bundle.cc bodysetdynamic_block", "src/rego_to_bundle.cc add_plans", "src/virtual_machine.cc insert_into_object", "src/virtual_machine.cc SetAdd"]}
{"id": "C115", "title": "Rules with constant keys, with else", "statement": "A rule whose bodies write p[\"a\"] := v if ... else := w if ..., beside bodies with values for keys, has a value in which each constant key shows the value of the first alternative that has a solution. It is an error if and only if two solutions that count give different values to one key. The order of the bodies does not matter.", "quantifier": "all lists of bodies, all constant keys, all numbers of alternatives and all values of their solutions", "why_tests_cant": "the bodies with the same key share a local that survives from one body to the next; tests use a few keys in one order", "anchors": ["src/rego_to_bundle.cc: bodyobjstatic_block, _body_block_add, add_plans", "src/virtual_machine.cc: AssignVarOnce, IsUndefined, IsDefined, ObjectInsertOnce, ResetLocal"]}
{"id": "C116", "title": "Variables of every and not stay apart from other variables of the same name", "statement": "A variable of a rule that is used in an every, in a not or in a comprehension inside them refers to the declaration in the nearest scope around it, also after the variables of all scopes of the rule have become locals of one function. Variables of different scopes with the same name never share a local.", "quantifier": "all rules, all nestings of scopes, all names and all uses", "why_tests_cant": "whether two variables get mixed up depends on the nesting and on the names in the whole rule; tests use a few nestings", "anchors": ["src/rego_to_bundle.cc: unique_locals", "src/opblock.cc: var_to_opblock"]}
{"id": "C117", "title": "Every string and every local variable of a bundle has an index of its own", "statement": "When a program is built into a bundle, the index in place of a string, of a part of a path in a with, or of the text of a number is the place where the string table of the bundle has exactly that text; the table has no repetitions and nothing that is not referred to. The index in place of a local variable is 0 for input, 1 for data, and greater for every other one; two references have the same index if and only if they are to the same variable (the same name in the same function, or the same made name), and no index is left unused, so a frame is no larger than the variables ask for.", "quantifier": "all sequences of references to strings, numbers and local variables, in any number of functions and plans, with any names and texts", "why_tests_cant": "the maps grow with the program; a wrong boundary or a name shared by two functions shows only in programs with certain combinations of names", "anchors": ["src/rego_to_bundle.cc:index_strings_locals", "src/rego_to_bundle.cc:to_stringseq"]}
{"id": "C118", "title": "The name of an entry point is the path of its document", "statement": "The entry point named p1/p2/.../pn is the document data.p1.p2...pn, for all names pi without a slash of which the last is not empty; whatever name is given, the reference made of it is to data, has no part with a slash and gives back the name up to one slash at the end, so names that do not end with a slash stand for the same document only if they are the same; the name made for a query is the rule of the query; and no name makes the compiler access memory out of range.", "quantifier": "all texts given as names of entry points, of any length and with any number of slashes", "why_tests_cant": "the texts are given by the caller without a check; positions of slashes, empty parts and prefixes combine without bound", "anchors": ["src/rego_to_bundle.cc:merge", "src/interpreter.cc:entrypoints", "src/rego_c.cc:regoAddEntrypoint"]}
