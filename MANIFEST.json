{
 "claims": [
  {
   "property": "C01",
   "status": "proved",
   "theorems": [
    "Verif.BigInt.C01_add_exact",
    "Verif.BigInt.C01_sum_exact"
   ],
   "note": "integers of any size, both build modes"
  },
  {
   "property": "C02",
   "status": "proved",
   "theorems": [
    "Verif.BigInt.C02_sub_exact"
   ],
   "note": ""
  },
  {
   "property": "C03",
   "status": "proved",
   "theorems": [
    "Verif.BigInt.C03_mul_exact",
    "Verif.BigInt.C03_product_exact"
   ],
   "note": ""
  },
  {
   "property": "C04",
   "status": "proved",
   "theorems": [
    "Verif.BigInt.C04_compare_exact"
   ],
   "note": ""
  },
  {
   "property": "C05",
   "status": "partial",
   "theorems": [
    "Verif.BigInt.C05_remainder_wrong",
    "Verif.BigInt.C05_remainder_exact_partial",
    "Verif.BigInt.C05_mod_zero"
   ],
   "note": "violated by the code: 75 % 7 is 0 (release) or aborts (debug); exact when no proper prefix of the dividend is a multiple of the divisor"
  },
  {
   "property": "C06",
   "status": "proved",
   "theorems": [
    "Verif.BigInt.C06_canonical",
    "Verif.BigInt.C06_same_text",
    "Verif.BigInt.C06_negative_zero_wrong"
   ],
   "note": "for canonical literals; the literal -0 is accepted and breaks exactness (witness proved)"
  },
  {
   "property": "C07",
   "status": "proved",
   "theorems": [
    "Verif.BigInt.C07_range",
    "Verif.BigInt.C07_range_members"
   ],
   "note": ""
  },
  {
   "property": "C08",
   "status": "proved",
   "theorems": [
    "Verif.BigInt.C08_range_step",
    "Verif.BigInt.C08_range_step_members"
   ],
   "note": ""
  },
  {
   "property": "C09",
   "status": "partial",
   "theorems": [
    "Verif.Encoding.C09_encode_rfc",
    "Verif.Encoding.C09_roundtrip",
    "Verif.Encoding.C09_no_pad_rfc_partial",
    "Verif.Encoding.C09_no_pad_roundtrip_partial",
    "Verif.Encoding.C09_no_pad_empty_wrong",
    "Verif.Encoding.C09_rejects_odd"
   ],
   "note": "round trip and RFC 4648 text for all byte strings; encode_no_pad of the empty string is undefined behaviour (witness)"
  },
  {
   "property": "C10",
   "status": "partial",
   "theorems": [
    "Verif.Encoding.C10_roundtrip_unsigned",
    "Verif.Encoding.C10_signed",
    "Verif.Encoding.C10_roundtrip_partial",
    "Verif.Encoding.C10_signed_wrong",
    "Verif.Encoding.C10_text",
    "Verif.Encoding.C10_refused"
   ],
   "note": "exact result for both signednesses of char; with a signed char bytes from 0x80 on do not round-trip (witness)"
  },
  {
   "property": "C100",
   "status": "partial",
   "theorems": [
    "C100_scan_partial",
    "C100_body_partial",
    "C100_some_partial",
    "C100_resolved_partial",
    "C100_comparison_wrong",
    "C100_operand_wrong",
    "C100_key_wrong",
    "C100_walk_wrong",
    "C100_walkeq_wrong",
    "C100_nested_wrong"
   ],
   "note": "The literals made of a literal (or a body, or some k, v in e) hold for exactly the same values of the variables. Partial: what follows the first loop must not depend on the modifiers (with), and enumerations nested to the right of operators or in calls are left as they are; the _wrong theorems give literals for which the code disagrees."
  },
  {
   "property": "C101",
   "status": "partial",
   "theorems": [
    "Verif.Unify.C101_sound_partial",
    "Verif.Unify.C101_complete_partial",
    "Verif.Unify.C101_bound_partial",
    "Verif.Unify.Ex.C101_assigned_wrong",
    "Verif.Unify.Ex.C101_document_wrong",
    "Verif.Unify.Ex.C101_order_wrong"
   ],
   "note": "Proved for bodies in which a variable set equal to a constant is no document and is not declared with := or given from outside, which are acyclic, drop no unification, and, if they have no unification or loop, assign variables before they are read. Three witnesses show that these restrictions are needed: x := 1; x = 2 succeeds, q = 1 shadows the rule q, f(x); x = 5 fails."
  },
  {
   "property": "C102",
   "status": "partial",
   "theorems": [
    "Verif.Heads.C102_value_partial",
    "Verif.Heads.C102_keys",
    "Verif.Heads.C102_params_partial",
    "Verif.Heads.Ex.C102_body_after_else_wrong",
    "Verif.Heads.Ex.C102_literal_of_else_wrong",
    "Verif.Heads.Ex.C102_only_else_wrong",
    "Verif.Heads.Ex.C102_params_wrong"
   ],
   "note": "Proved if no body follows an else, and if functions of the same name have as many arguments in all packages. The code violates the rest, with witnesses: a body after an else gets no value or the literal of the else, an else without a body before it replaces the head, and functions of one name in two packages read the parameters outside of the array."
  },
  {
   "property": "C103",
   "status": "proved",
   "theorems": [
    "Verif.Merge.C103_rules",
    "Verif.Merge.C103_complete",
    "Verif.Merge.C103_documents",
    "Verif.Merge.C103_distinct",
    "Verif.Merge.C103_query",
    "Verif.Merge.C103_fails",
    "Verif.Merge.C103_order",
    "Verif.Merge.Ex.C103_escape_wrong"
   ],
   "note": "Names are the texts of the source: C103_escape_wrong shows that a[\"b\"] and a[\"\\\\u0062\"] are two packages."
  },
  {
   "property": "C104",
   "status": "partial",
   "theorems": [
    "Verif.Mock.C104_with_partial",
    "Verif.Mock.Ex.C104_variable_wrong",
    "Verif.Mock.Ex.C104_nested_wrong",
    "Verif.Mock.Ex.C104_only_wrong",
    "Verif.Mock.Ex.C104_doubles"
   ],
   "note": "Proved for programs in which no modifiers use a variable twice, nothing that is called with modifiers is replaced itself, and functions that call with modifiers also call without. The code violates the property in each of the three cases, with witnesses."
  },
  {
   "property": "C105",
   "status": "partial",
   "theorems": [
    "Verif.Template.C105_template_partial",
    "Verif.Template.C105_sections",
    "Verif.Template.ecma_ok",
    "Verif.Template.C105_literal_wrong",
    "Verif.Template.C105_empty_wrong",
    "Verif.Template.C105_escape_wrong",
    "Verif.Template.C105_nested_wrong"
   ],
   "note": "Exact for templates with plain literals and visible delimiters, for a syntax of regular expressions; every template is answered unless both delimiters are empty. The code is wrong for literals with metacharacters, empty delimiters, escaped values and nested delimiters (witnesses)."
  },
  {
   "property": "C106",
   "status": "partial",
   "theorems": [
    "Verif.Marshal.C106_options_partial",
    "Verif.Marshal.C106_unknown",
    "Verif.Marshal.C106_escape_wrong"
   ],
   "note": "Proved for all options and texts as they are stored; escape sequences in indents and prefixes are not unescaped (witness)."
  },
  {
   "property": "C107",
   "status": "partial",
   "theorems": [
    "Verif.Rand.C107_range_partial",
    "Verif.Rand.C107_same",
    "Verif.Rand.C107_large",
    "Verif.Rand.C107_negative_wrong",
    "Verif.Rand.C107_zero_wrong"
   ],
   "note": "Proved for positive bounds of 64 bits; negative bounds do not bound, zero is undefined behaviour, larger bounds are errors."
  },
  {
   "property": "C108",
   "status": "partial",
   "theorems": [
    "Verif.Regex.C108_pieces_partial",
    "Verif.Regex.C108_joined",
    "Verif.Regex.C108_ends_partial",
    "Verif.Regex.C108_forever_wrong",
    "Verif.Regex.C108_anchor_wrong",
    "Verif.Regex.C108_escape_wrong"
   ],
   "note": "Pieces and end of the call proved for patterns that match no empty text (and do not look back); that nothing is lost is proved for all patterns. The call never ends for a pattern like x* (C108_forever_wrong), ^ matches again after every cut (C108_anchor_wrong), escape sequences are cut (C108_escape_wrong)."
  },
  {
   "property": "C109",
   "status": "partial",
   "theorems": [
    "Verif.Regex.C109_find_partial",
    "Verif.Regex.C109_submatch_partial",
    "Verif.Regex.C109_same_partial",
    "Verif.Regex.C109_find_wrong",
    "Verif.Regex.C109_submatch_end_wrong",
    "Verif.Regex.C109_submatch_anchor_wrong",
    "Verif.Regex.C109_submatch_again_wrong"
   ],
   "note": "Proved for patterns that match no empty text (submatches: and do not look back) and numbers of 64 bits; the other cases are refuted by witnesses."
  },
  {
   "property": "C11",
   "status": "proved",
   "theorems": [
    "Verif.Encoding.C11_roundtrip",
    "Verif.Encoding.C11_text",
    "Verif.Encoding.C11_decode",
    "Verif.Encoding.C11_bad_escape_wrong"
   ],
   "note": "bad escapes are undefined behaviour in the code (characterised)"
  },
  {
   "property": "C110",
   "status": "partial",
   "theorems": [
    "Verif.Regex.C110_match",
    "Verif.Regex.C110_match_all",
    "Verif.Regex.C110_replace_partial",
    "Verif.Regex.C110_replace_wrong"
   ],
   "note": "regex.match for every pattern; regex.replace for patterns that match no empty text and values without a dollar sign; empty matches are refuted by a witness."
  },
  {
   "property": "C111",
   "status": "partial",
   "theorems": [
    "Verif.Docs.C111_shows_partial",
    "Verif.Docs.C111_slash_wrong",
    "Verif.Docs.C111_again_wrong"
   ],
   "note": "Proved for every tree of packages in which rules and packages have different names, names have no slash and no quote, and the locals of the code are undefined at its start. C111_slash_wrong: two packages whose paths have the same text, a[\"x/y\"] and a.x.y, are mixed up. C111_again_wrong: when the code runs again in one function its locals still hold what they held, so rules that are no longer defined stay. Merging with base documents is not part of it."
  },
  {
   "property": "C112",
   "status": "partial",
   "theorems": [
    "Verif.Refs.C112_rule_partial",
    "Verif.Refs.C112_package_partial",
    "Verif.Refs.C112_both_partial",
    "Verif.Refs.C112_data_partial",
    "Verif.Refs.C112_base_wrong",
    "Verif.Refs.C112_gone_wrong",
    "Verif.Refs.C112_member_wrong"
   ],
   "note": "Proved for references made of names (no brackets), packages and rules with different names, and base documents that are objects where there are packages. C112_base_wrong: a base value known at compile time hides the rule with its name. C112_gone_wrong: a package with a base document at compile time is undefined when data has none at run time. C112_member_wrong: data.a.r and the member r of data.a differ when data also has a.r. Missing: brackets, members with the same name in both."
  },
  {
   "property": "C113",
   "status": "partial",
   "theorems": [
    "Verif.Dynamic.C113_compiled",
    "Verif.Dynamic.C113_rule_compiled",
    "Verif.Dynamic.C113_rule_partial",
    "Verif.Dynamic.C113_none_partial",
    "Verif.Dynamic.C113_package_wrong",
    "Verif.Dynamic.C113_data_wrong",
    "Verif.Dynamic.C113_dots_wrong"
   ],
   "note": "Proved: a reference through a package is compiled to a dynamic call exactly when there is no base document with the name of the package; with names without dots and quotes, when its arguments name a rule the call gives the value of that rule with the rest looked up in it, and it is undefined when they name none. Missing, because the code does not do it: packages and data below the package are undefined (C113_package_wrong, C113_data_wrong), and a value with a dot in it reaches another package (C113_dots_wrong)."
  },
  {
   "property": "C114",
   "status": "partial",
   "theorems": [
    "Verif.Nested.C114_value_partial",
    "Verif.Nested.C114_order_partial",
    "Verif.Nested.C114_order_wrong",
    "Verif.Nested.C114_mixed_wrong"
   ],
   "note": "Proved for all lists of solutions where the way of none goes through the end of another one, and solutions with the same way are of the same kind. Missing, because the code does not do it: p[x] := {...} together with p[x][y] := v is merged or an error depending on the order (C114_order_wrong), and p[x] := [...] with p[x] contains v changes the array (C114_mixed_wrong)."
  },
  {
   "property": "C115",
   "status": "partial",
   "theorems": [
    "Verif.Nested.C115_value_partial",
    "Verif.Nested.C115_order_partial",
    "Verif.Nested.C115_else_wrong",
    "Verif.Nested.C115_quotes_wrong",
    "Verif.Nested.C115_bodies_wrong"
   ],
   "note": "Excluded because the code does something else there: two bodies with the same constant key one of which has an else (C115_else_wrong), keys with the same text but for the quotes (C115_quotes_wrong), alternatives with several bodies (C115_bodies_wrong), and, as in C114, ways through the ends of others."
  },
  {
   "property": "C116",
   "status": "partial",
   "theorems": [
    "Verif.Locals.C116_same_partial",
    "Verif.Locals.C116_exact",
    "Verif.Locals.C116_made",
    "Verif.Locals.C116_distinct",
    "Verif.Locals.C116_nested_wrong",
    "Verif.Locals.C116_captured_wrong",
    "Verif.Locals.C116_shared_wrong",
    "Verif.Locals.C116_overwritten_wrong",
    "Verif.Locals.C116_unassigned_wrong"
   ],
   "note": "Excluded because the code is wrong there: variables that refer from an inner scope to the declaration of an outer one in an every or not, as in every x in xs { not q(x) } (C116_nested_wrong, C116_captured_wrong). Comprehensions that are not in an every or not keep their names, also if a variable of the rule has the same one (C116_shared_wrong)."
  },
  {
   "property": "C117",
   "status": "proved",
   "theorems": [
    "Verif.Index.C117_strings",
    "Verif.Index.C117_locals",
    "Verif.Index.C117_dense"
   ],
   "note": "For references in the order the pass rewrites them. Hypotheses: fresh (Trieste) has a number above those of all made names, and no number has an empty text, for which the index would not be initialised."
  },
  {
   "property": "C118",
   "status": "partial",
   "theorems": [
    "Verif.EntryName.C118_path_partial",
    "Verif.EntryName.C118_inverse_partial",
    "Verif.EntryName.C118_distinct_partial",
    "Verif.EntryName.C118_query",
    "Verif.EntryName.C118_bounds",
    "Verif.EntryName.C118_bounds_wrong",
    "Verif.EntryName.C118_query_wrong"
   ],
   "note": "Excluded because the code is wrong there: names that begin with querymodule$. C118_bounds says exactly which of them are read out of range."
  },
  {
   "property": "C12",
   "status": "partial",
   "theorems": [
    "Verif.Encoding.C12_decode_object_partial",
    "Verif.Encoding.C12_single_doubled",
    "Verif.Encoding.C12_single_wrong"
   ],
   "note": "holds for queries with a separator; a query with a single parameter gives its value twice (witness)"
  },
  {
   "property": "C13",
   "status": "proved",
   "theorems": [
    "Verif.Encoding.C13_roundtrip",
    "Verif.Encoding.C13_text",
    "Verif.Encoding.C13_unescape"
   ],
   "note": ""
  },
  {
   "property": "C14",
   "status": "proved",
   "theorems": [
    "Verif.Uuid.C14_text",
    "Verif.Uuid.C14_roundtrip",
    "Verif.Uuid.C14_accepts",
    "Verif.Uuid.C14_digits",
    "Verif.Uuid.C14_random",
    "Verif.Uuid.C14_variant"
   ],
   "note": "For every 16-byte id; random over every choice of the random bytes."
  },
  {
   "property": "C15",
   "status": "partial",
   "theorems": [
    "Verif.Uuid.C15_time_partial",
    "Verif.Uuid.C15_time_overflow",
    "Verif.Uuid.C15_clock",
    "Verif.Uuid.C15_node",
    "Verif.Uuid.C15_id",
    "Verif.Uuid.C15_mac_partial",
    "Verif.Uuid.C15_mac_wrong",
    "Verif.Uuid.C15_fields_partial",
    "Verif.Uuid.C15_domain"
   ],
   "note": "Time exact when nanoseconds fit int64 (else signed overflow, proved); macvariables wrong when both low bits of byte 10 are set (case 0xb11 instead of 0b11)."
  },
  {
   "property": "C16",
   "status": "partial",
   "theorems": [
    "Verif.Glob.C16_partial",
    "Verif.Glob.C16_simple",
    "Verif.Glob.C16_delims",
    "Verif.Glob.C16_builtin_partial",
    "Verif.Glob.C16_escape_wrong",
    "Verif.Glob.C16_star_wrong",
    "Verif.Glob.C16_depth_wrong"
   ],
   "note": "Proved for every properly written pattern (grammar and language in Glob/Spec.lean) in which an escaped character is last and no star precedes alternatives starting with a star: the answer is membership in the language or the resource-limit error; without alternatives and with at most 4095 stars no limit is hit. The code is wrong outside: what follows an escaped character is ignored (C16_escape_wrong, for all patterns), C16_star_wrong, C16_depth_wrong."
  },
  {
   "property": "C17",
   "status": "partial",
   "theorems": [
    "Verif.Glob.C17_partial",
    "Verif.Glob.C17_builtin_partial",
    "Verif.Glob.C17_wrong"
   ],
   "note": "Proved for texts in which only the last character may be a metacharacter; C17_wrong proves that for every other text the quoted pattern does not match the text, but matches its prefix up to the first metacharacter."
  },
  {
   "property": "C18",
   "status": "partial",
   "theorems": [
    "Verif.Graph.C18_reachable_partial",
    "Verif.Graph.C18_arguments",
    "Verif.Graph.C18_neighbours"
   ],
   "note": "Termination and exact reachable set for every graph and every initial array or set of values; wrong arguments are errors. Missing: vertices with floats of more than fifteen digits or with keys that are not strings, where keys do not identify values (C23)."
  },
  {
   "property": "C19",
   "status": "partial",
   "theorems": [
    "Verif.Graph.C19_reachable_paths_partial",
    "Verif.Graph.C18_arguments",
    "Verif.Graph.C18_neighbours"
   ],
   "note": "Termination and exact set of maximal simple paths. Missing: vertices with floats of more than fifteen digits or with keys that are not strings, where keys do not identify values (C23)."
  },
  {
   "property": "C20",
   "status": "partial",
   "theorems": [
    "Verif.Collections.C20_concat",
    "Verif.Collections.C20_reverse",
    "Verif.Collections.C20_slice",
    "Verif.Collections.C20_slice_range_wrong",
    "Verif.Collections.C20_flatten"
   ],
   "note": "Full for arrays and 64-bit indices; an index of more than 64 bits is an error instead of being clamped (C20_slice_range_wrong)."
  },
  {
   "property": "C21",
   "status": "partial",
   "theorems": [
    "Verif.Collections.C21_union",
    "Verif.Collections.C21_union_n",
    "Verif.Collections.C21_filter",
    "Verif.Collections.C21_remove",
    "Verif.Collections.C21_keys",
    "Verif.Collections.C21_get_partial",
    "Verif.Collections.C21_get_index_wrong"
   ],
   "note": "Full for objects whose keys are well-formed values (floats of up to fifteen digits), arbitrary values; object.get throws for an array index beyond the end (C21_get_index_wrong)."
  },
  {
   "property": "C22",
   "status": "partial",
   "theorems": [
    "Verif.Collections.C22_make_partial",
    "Verif.Collections.C22_union_partial",
    "Verif.Collections.C22_intersection_partial",
    "Verif.Collections.C22_difference_partial",
    "Verif.Collections.C22_union_n_partial",
    "Verif.Collections.C22_intersection_n_partial"
   ],
   "note": "For sets of well-formed values at any depth: floats have up to fifteen digits, and an integer beside a float fits in a double; object keys inside members are strings."
  },
  {
   "property": "C23",
   "status": "partial",
   "theorems": [
    "Verif.C23_key_identifies_partial",
    "Verif.C23_same_equivalence",
    "Verif.C23_number_keys_wrong",
    "Verif.C23_digits_wrong",
    "Verif.C23_large_wrong",
    "Verif.C23_zero_wrong",
    "Verif.C23_throw_wrong"
   ],
   "note": "Floats of up to fifteen digits and string keys. Beyond that it fails: C23_digits_wrong, C23_large_wrong, C23_zero_wrong, C23_throw_wrong, C23_number_keys_wrong."
  },
  {
   "property": "C24",
   "status": "partial",
   "theorems": [
    "Verif.Collections.C24_sort_by_text",
    "Verif.Collections.C24_strings_partial",
    "Verif.Collections.C24_numbers_partial",
    "Verif.Collections.C24_numbers_wrong",
    "Verif.Collections.C24_space_wrong",
    "Verif.Collections.C24_set_wrong"
   ],
   "note": "The order used is that of the texts: right for strings whose characters are above the quote and for positive integers of equal length, wrong in general (witnesses)."
  },
  {
   "property": "C25",
   "status": "partial",
   "theorems": [
    "Verif.Semver.C25_antisymmetry_wrong",
    "Verif.Semver.C25_major_wrong",
    "Verif.Semver.C25_prerelease_wrong",
    "Verif.Semver.C25_range_wrong",
    "Verif.Semver.C25_greater_partial",
    "Verif.Semver.C25_equal",
    "Verif.Semver.C25_parse_tagged",
    "Verif.Semver.C25_parse_plain",
    "Verif.Semver.C25_order_partial",
    "Verif.Semver.C25_plain_partial",
    "Verif.Semver.C25_two_dots",
    "Verif.Semver.C25_valid_parts",
    "Verif.Semver.C25_valid",
    "Verif.Semver.C25_parse_meta",
    "Verif.Semver.C25_tag_wrong"
   ],
   "note": "The claim is false of the code (witnesses); proved: equality, greater implies smaller, correct order when no number decreases and the tag is the same, exact characterisation for plain versions."
  },
  {
   "property": "C26",
   "status": "partial",
   "theorems": [
    "Verif.Bits.C26_and",
    "Verif.Bits.C26_or",
    "Verif.Bits.C26_xor",
    "Verif.Bits.C26_negate",
    "Verif.Bits.C26_refused",
    "Verif.Bits.C26_refused_right",
    "Verif.Bits.C26_not_int",
    "Verif.Bits.C26_rsh_partial",
    "Verif.Bits.C26_lsh_partial",
    "Verif.Bits.C26_lsh_63_wrong",
    "Verif.Bits.C26_shift_wrong",
    "Verif.Bits.C26_negative_shift"
   ],
   "note": "and/or/xor/negate/refusals in full; shifts: rsh exact below 64, lsh exact below 63; lsh by 63 has the wrong sign and shifts by 64 or more are undefined behaviour (proved)."
  },
  {
   "property": "C27",
   "status": "partial",
   "theorems": [
    "Verif.Strings.C27_split_partial",
    "Verif.Strings.C27_roundtrip",
    "Verif.Strings.C27_parts_clean",
    "Verif.Strings.C27_empty_delimiter",
    "Verif.Strings.C27_escape_wrong"
   ],
   "note": "Proved for every string and delimiter on the stored text, including termination. The stored text keeps JSON escapes, so a delimiter can match inside an escape sequence (C27_escape_wrong)."
  },
  {
   "property": "C28",
   "status": "partial",
   "theorems": [
    "Verif.Strings.C28_replace",
    "Verif.Strings.C28_empty_old_wrong",
    "Verif.Strings.C28_escape_wrong"
   ],
   "note": "Proved for every nonempty old on the stored text. An empty old never terminates (C28_empty_old_wrong) and escapes can be torn (C28_escape_wrong)."
  },
  {
   "property": "C29",
   "status": "partial",
   "theorems": [
    "Verif.Strings.C29_trim_partial",
    "Verif.Strings.C29_trim_space_partial",
    "Verif.Strings.C29_trim_left_partial",
    "Verif.Strings.C29_trim_right_partial",
    "Verif.Strings.C29_trim_prefix",
    "Verif.Strings.C29_trim_suffix",
    "Verif.Strings.C29_quotes_wrong"
   ],
   "note": "Proved on the unescaped text for every string. The result is not escaped again, so surrounding quotes in it are lost (C29_quotes_wrong)."
  },
  {
   "property": "C30",
   "status": "partial",
   "theorems": [
    "Verif.Strings.C30_startswith",
    "Verif.Strings.C30_endswith",
    "Verif.Strings.C30_contains",
    "Verif.Strings.C30_indexof",
    "Verif.Strings.C30_indexof_none",
    "Verif.Strings.C30_indexof_n",
    "Verif.Strings.C30_any_prefix_match",
    "Verif.Strings.C30_any_suffix_match",
    "Verif.Strings.C30_escape_wrong"
   ],
   "note": "Proved for every pair of strings on the stored text; the stored text keeps JSON escapes, so contains of a newline and n is true (C30_escape_wrong)."
  },
  {
   "property": "C31",
   "status": "partial",
   "theorems": [
    "Verif.Strings.C31_window_partial",
    "Verif.Strings.C31_negative_offset",
    "Verif.Strings.C31_range_wrong",
    "Verif.Strings.C31_escape_wrong"
   ],
   "note": "Proved for every string and 64-bit offset and length; larger numbers are errors and escapes count as several characters."
  },
  {
   "property": "C32",
   "status": "partial",
   "theorems": [
    "Verif.Strings.C32_base10",
    "Verif.Strings.C32_base8_16_partial",
    "Verif.Strings.C32_base2_partial",
    "Verif.Strings.C32_base2_wrong",
    "Verif.Strings.C32_negative_wrong",
    "Verif.Strings.C32_refused"
   ],
   "note": "Base 10 proved for all 64-bit integers; bases 8 and 16 for the non-negative ones; base 2 prints only two bits and negative numbers are printed as unsigned (proved as disagreements)."
  },
  {
   "property": "C33",
   "status": "proved",
   "theorems": [
    "Verif.Json.C33_pointer",
    "Verif.Json.C33_roundtrip",
    "Verif.Json.C33_rejects"
   ],
   "note": "Pointers without a leading slash are also accepted, as in OPA; the specification Pointer says so. Keys are JSON texts as stored; escape sequences inside them are not decoded."
  },
  {
   "property": "C34",
   "status": "partial",
   "theorems": [
    "Verif.Json.C34_op_partial",
    "Verif.Json.C34_sequence_partial",
    "Verif.Json.C34_patch_partial",
    "Verif.Json.C34_describes",
    "Verif.Json.C34_array_path_partial",
    "Verif.Json.C34_test_wrong",
    "Verif.Json.C34_test_wrong'",
    "Verif.Json.C34_root_wrong",
    "Verif.Json.C34_same_place_wrong",
    "Verif.Json.C34_index_wrong",
    "Verif.Json.C34_array_wrong",
    "Verif.Json.C34_quoted_wrong"
   ],
   "note": "False of the code in general: tests are evaluated before everything else on the original document, copy/move to the root or to the same place, non-indices on arrays, array paths are not escaped. Proved for lists whose tests come first and whose paths avoid these cases and sets: the result is the one RFC 6902 gives and there is an error exactly when there is none."
  },
  {
   "property": "C35",
   "status": "partial",
   "theorems": [
    "Verif.Json.C35_last_wins_partial",
    "Verif.Json.C35_elements",
    "Verif.Json.C35_members",
    "Verif.Json.C35_escape_wrong"
   ],
   "note": "Keys are compared as written in the JSON text; two spellings of one key with different escapes are both kept (C35_escape_wrong)."
  },
  {
   "property": "C36",
   "status": "proved",
   "theorems": [
    "Verif.Binary.C36_roundtrip",
    "Verif.Binary.C36_reload",
    "Verif.Binary.C36_data",
    "Verif.Binary.C36_queryPlan_wrong",
    "Verif.Binary.C36_large_wrong",
    "Verif.Binary.C36_sets_wrong",
    "Verif.Binary.C36_nesting_wrong"
   ],
   "note": "Within the limits (Fits) and up to normalisation (norm), which does not change a JSON data document. The _wrong theorems show what happens beyond the limits: a query plan number of 128 or more is lost, sets come back as arrays, files over 256 MiB or nested 256 deep are saved but do not load."
  },
  {
   "property": "C37",
   "status": "proved",
   "theorems": [
    "Verif.Binary.C37_burst",
    "Verif.Binary.C37_burst_any",
    "Verif.Binary.C37_header_wrong"
   ],
   "note": "Any burst of at most 32 bits in the payload, of a saved file or of any file that loads. The header itself is not covered (C37_header_wrong)."
  },
  {
   "property": "C38",
   "status": "partial",
   "theorems": [
    "Verif.Binary.C38_rejects_partial",
    "Verif.Binary.C38_truncated",
    "Verif.Binary.C38_overlong_wrong"
   ],
   "note": "Magic, versions, size and checksum of an accepted file are right and truncated files are rejected; over-long files are accepted, which is proved as well."
  },
  {
   "property": "C39",
   "status": "partial",
   "theorems": [
    "Verif.Binary.C39_safe_partial",
    "Verif.Binary.C39_limits",
    "Verif.Binary.C39_stack_wrong",
    "Verif.Binary.C39_assert_wrong",
    "Verif.Binary.C39_short_wrong"
   ],
   "note": "Release build, stack as deep as the file is long. A crafted file overflows any given stack, and a debug build aborts on a wrong document size; both are proved. Allocation for BSON strings is not modelled."
  },
  {
   "property": "C40",
   "status": "partial",
   "theorems": [
    "Verif.VM.C40_entrypoint_safe_partial",
    "Verif.VM.C40_query_safe_partial",
    "Verif.VM.Witness.C40_gap_locals",
    "Verif.VM.Witness.C40_gap_scan",
    "Verif.VM.Witness.C40_gap_merge",
    "Verif.VM.Witness.C40_gap_function",
    "Verif.VM.Witness.C40_gap_with",
    "Verif.VM.Witness.C40_gap_result_shape",
    "Verif.C40_arguments"
   ],
   "note": "False as stated: the gap theorems exhibit bundles that pass verification and still leave the defined range. The partial theorems prove safety for verified bundles that also satisfy Scoped, the conditions the verifier forgets. C40_arguments needs no such condition: calls by name in a verified bundle have at least as many arguments as parameters."
  },
  {
   "property": "C41",
   "status": "proved",
   "theorems": [
    "Verif.VM.C41_statement_limit",
    "Verif.VM.C41_terminates"
   ],
   "note": "Every run executes at most the statement limit and the model's evaluation is total."
  },
  {
   "property": "C42",
   "status": "proved",
   "theorems": [
    "Verif.VM.C42_nesting_bounded",
    "Verif.VM.C42_block_limit_reported",
    "Verif.VM.C42_call_limit_reported"
   ],
   "note": ""
  },
  {
   "property": "C43",
   "status": "partial",
   "theorems": [
    "Verif.VM.C43_handle_restored",
    "Verif.VM.C43_value_restored",
    "Verif.VM.C43_documents_kept",
    "Verif.VM.C43_override_at",
    "Verif.VM.C43_override_elsewhere",
    "Verif.VM.C43_body_sees_override",
    "Verif.VM.Witness.C43_inplace_wrong"
   ],
   "note": "with restores the handle in every bundle; the value behind it is restored in bundles that change nodes in place only through builder locals (Bundle.Owned); a hand-made bundle without that discipline leaks (witness)"
  },
  {
   "property": "C44",
   "status": "partial",
   "theorems": [
    "Verif.VM.C44_errors_kept",
    "Verif.VM.C44_query_errors",
    "Verif.VM.C44_entrypoint_errors",
    "Verif.VM.Witness.C44_merge_error_wrong"
   ],
   "note": "A recorded error always reaches the output. ObjectMerge conflicts write an error node without recording it, so an error value can be handed back inside a result (C44_merge_error_wrong)."
  },
  {
   "property": "C45",
   "status": "partial",
   "theorems": [
    "Verif.VM.C45_with_bypasses_cache",
    "Verif.VM.C45_hit",
    "Verif.VM.C45_fill",
    "Verif.Compile.C45_transparent_partial",
    "Verif.VM.Witness.C45_stale_wrong"
   ],
   "note": "under with the cache is neither read nor filled, outside it the stored value is what the first call returned; for the bundles of the programs of Verif.Compile, after any history of calls, assignments and with statements, a call answers as if nothing were remembered; false for a hand-made bundle whose function changes its caller's documents (witness)"
  },
  {
   "property": "C46",
   "status": "proved",
   "theorems": [
    "Verif.VM.C46_not",
    "Verif.VM.C46_double_not"
   ],
   "note": "Break codes are C49's concern."
  },
  {
   "property": "C47",
   "status": "partial",
   "theorems": [
    "Verif.VM.C47_assign_once_partial",
    "Verif.VM.C47_insert_once_partial",
    "Verif.VM.C47_undefined_skipped",
    "Verif.VM.Witness.C47_key_collision_wrong"
   ],
   "note": "Conflict is decided on canonical key text, which is not injective ({1:x} vs {\"1\":x}); the partial theorems are exact up to that key."
  },
  {
   "property": "C48",
   "status": "proved",
   "theorems": [
    "Verif.VM.C48_object",
    "Verif.VM.C48_set",
    "Verif.VM.C48_set_order",
    "Verif.VM.C48_add_succeeds"
   ],
   "note": ""
  },
  {
   "property": "C49",
   "status": "partial",
   "theorems": [
    "Verif.VM.C49_break_skips_rest_partial",
    "Verif.VM.C49_break_leaves_all_wrong",
    "Verif.VM.Witness.C49_break_release_wrong",
    "Verif.VM.Witness.C49_break_debug_wrong"
   ],
   "note": "The code does not satisfy the property: a break leaves every enclosing block, for every nesting. What holds: statements after the break in the innermost block are skipped."
  },
  {
   "property": "C50",
   "status": "proved",
   "theorems": [
    "Verif.VM.C50_scan",
    "Verif.VM.C50_scan_other"
   ],
   "note": ""
  },
  {
   "property": "C51",
   "status": "partial",
   "theorems": [
    "Verif.Registry.C51_forbidden_partial",
    "Verif.Registry.C51_runs",
    "Verif.Registry.C51_permitted",
    "Verif.Registry.C51_registered",
    "Verif.Registry.C51_defined_partial",
    "Verif.Registry.C51_default_wrong",
    "Verif.Registry.C51_null_wrong"
   ],
   "note": "For every history of calls on any registries: a forbidden builtin never runs and gives no value (an error in strict mode), a permitted one runs, calls are defined for standard, permitted or registered regular names. Missing: undefined instead of an error in the default mode, null dereference for names outside the standard library under a list (both witnessed)."
  },
  {
   "property": "C52",
   "status": "partial",
   "theorems": [
    "Verif.Registry.C52_user",
    "Verif.Registry.C52_std",
    "Verif.Registry.C52_unknown",
    "Verif.Registry.C52_arity",
    "Verif.Registry.C52_deprecated",
    "Verif.Registry.C52_args",
    "Verif.Registry.C52_noargs_wrong"
   ],
   "note": "Proved for every history and call that is answered; a call without arguments to an unknown builtin or with wrong arity is undefined behaviour (witnessed). Behaviours of builtins are arbitrary functions of the arguments."
  },
  {
   "property": "C53",
   "status": "partial",
   "theorems": [
    "Verif.CApi.C53_size_then_fetch_partial",
    "Verif.CApi.C53_any_buffer",
    "Verif.CApi.C53_type_name_wrong",
    "Verif.CApi.C53_large_wrong"
   ],
   "note": "Size then fetch works for every text below 4 GiB except the name of a node type, whose size function forgets the NUL."
  },
  {
   "property": "C54",
   "status": "partial",
   "theorems": [
    "Verif.CApi.C54_build_partial",
    "Verif.CApi.C54_build_sets_partial",
    "Verif.CApi.C54_set_input_partial",
    "Verif.CApi.C54_sticky",
    "Verif.CApi.C54_valid",
    "Verif.CApi.C54_unchanged",
    "Verif.CApi.C54_codes",
    "Verif.CApi.C54_misuse_wrong",
    "Verif.CApi.C54_repeated_wrong",
    "Verif.CApi.C54_string_wrong"
   ],
   "note": "Every value is built exactly (up to the order of sets); failing calls are sticky. Missing: strings are stored unescaped, misuse of object items is not detected."
  },
  {
   "property": "C55",
   "status": "partial",
   "theorems": [
    "Verif.Interp.C55_unchanged",
    "Verif.Interp.C55_history",
    "Verif.Interp.C55_failed_calls",
    "Verif.Interp.C55_query_partial",
    "Verif.Interp.C55_query_wrong",
    "Verif.Interp.C55_query_wrong_witness",
    "Verif.Interp.C55_reported",
    "Verif.Interp.C55_errors"
   ],
   "note": "The state after any history is exactly what the successful calls contributed. Missing: a query text that cannot be parsed is silently replaced by the previous query. Readers and compiler are parameters."
  },
  {
   "property": "C56",
   "status": "partial",
   "theorems": [
    "Verif.Interp.C56_ok_partial",
    "Verif.Interp.C56_compile",
    "Verif.Interp.C56_exception_wrong",
    "Verif.Interp.C56_undefined_wrong",
    "Verif.Interp.C56_null_wrong",
    "Verif.Interp.C56_expressions",
    "Verif.Interp.C56_bindings",
    "Verif.Interp.C56_errors_nonempty",
    "Verif.Interp.C56_size"
   ],
   "note": "Accessors are exact for every output of the machine. Missing: an evaluation that throws gives an output that is OK."
  },
  {
   "property": "C57",
   "status": "partial",
   "theorems": [
    "Verif.DepGraph.C57_total",
    "Verif.DepGraph.C57_only",
    "Verif.DepGraph.C57_bound_before",
    "Verif.DepGraph.C57_order_partial",
    "Verif.DepGraph.C57_once_partial",
    "Verif.DepGraph.C57_kept",
    "Verif.DepGraph.C57_cycle_wrong",
    "Verif.DepGraph.C57_twice_wrong",
    "Verif.DepGraph.C57_arg_wrong"
   ],
   "note": "Proved for every body, dependency relation and order of the subgraphs: sorting terminates, emits only body literals, each after a binder of every variable it needs, and keeps every literal when the dependencies are acyclic. 'After all binders' and 'at most once' need that a variable has one binder; with several binders a literal can be emitted twice (witness). Literals of a cycle are dropped without an error (witness). The computation of the edges of a literal (update_edges) and unification are not modelled."
  },
  {
   "property": "C58",
   "status": "partial",
   "theorems": [
    "Verif.Globs.C58_total",
    "Verif.Globs.C58_invalid",
    "Verif.Globs.C58_decided",
    "Verif.Globs.C58_sound_partial",
    "Verif.Globs.C58_complete_partial",
    "Verif.Globs.C58_exact_partial",
    "Verif.Globs.C58_empty_wrong",
    "Verif.Globs.C58_plus_wrong",
    "Verif.Globs.C58_set_wrong",
    "Verif.Globs.C58_last_wrong",
    "Verif.Globs.C58_run_wrong",
    "Verif.Globs.C58_order_wrong"
   ],
   "note": "The claim is false of the code in both directions (witnesses: two empty globs, x+x+, empty sets, trailing and consecutive stars, argument order). Proved for all globs: termination, error conditions, a boolean for short globs; positive answers right without empty sets and repeated plus runs; negative answers right without stars or for isolated stars against a flagless glob."
  },
  {
   "property": "C59",
   "status": "proved",
   "theorems": [
    "Verif.Registry.C59_now",
    "Verif.Registry.C59_uuid",
    "Verif.Registry.C59_new_query_partial",
    "Verif.Registry.C59_stale_wrong"
   ],
   "note": "Stability within a query is proved for every history without clear; the value may be one cached by an earlier query of another interpreter on the thread (witnessed)."
  },
  {
   "property": "C60",
   "status": "partial",
   "theorems": [
    "Verif.VM.C60_session_partial",
    "Verif.VM.Witness.C60_inplace_wrong"
   ],
   "note": "every query of a session on shared data has the outcome it has alone, for bundles with the builder discipline; a hand-made bundle can change the data (witness)"
  },
  {
   "property": "C61",
   "status": "proved",
   "theorems": [
    "Verif.Strings.C61_count",
    "Verif.Strings.C61_count_empty"
   ],
   "note": "On the stored text, for every pair of strings, with termination."
  },
  {
   "property": "C62",
   "status": "partial",
   "theorems": [
    "Verif.Collections.C62_subset_partial",
    "Verif.Collections.C62_empty_wrong"
   ],
   "note": "For well-formed values without empty arrays on the right; with one the code has undefined behaviour (C62_empty_wrong)."
  },
  {
   "property": "C63",
   "status": "proved",
   "theorems": [
    "Verif.Collections.C63_walk",
    "Verif.Collections.C63_functional"
   ],
   "note": "For every value; that no path comes twice assumes sets and objects without duplicates."
  },
  {
   "property": "C64",
   "status": "partial",
   "theorems": [
    "Verif.Collections.C64_member_partial",
    "Verif.Collections.C64_member_at_partial",
    "Verif.Collections.C64_set_index_wrong"
   ],
   "note": "For well-formed values; for a set the index is compared with the storage position (C64_set_index_wrong)."
  },
  {
   "property": "C65",
   "status": "partial",
   "theorems": [
    "Verif.Json.C65_filter",
    "Verif.Json.C65_call",
    "Verif.Json.C65_array",
    "Verif.Json.C65_set",
    "Verif.Json.C65_object",
    "Verif.Json.C65_errors",
    "Verif.Json.C66_key_wrong",
    "Verif.Json.C65_slash_wrong"
   ],
   "note": "Complete for values under string keys; members with other keys are never kept (C66_key_wrong); string paths are not unescaped as pointers are (C65_slash_wrong). The work list of the code is modelled as a recursion."
  },
  {
   "property": "C66",
   "status": "partial",
   "theorems": [
    "Verif.Json.C66_remove_partial",
    "Verif.Json.C66_call",
    "Verif.Json.C66_array_partial",
    "Verif.Json.C66_set_partial",
    "Verif.Json.C66_scalar_wrong",
    "Verif.Json.C66_key_wrong"
   ],
   "note": "False of the code when a path goes on below a scalar (the scalar is removed) and for members whose key is not a string (always removed). Proved for the rest."
  },
  {
   "property": "C67",
   "status": "partial",
   "theorems": [
    "Verif.Registry.C67_lookup_partial",
    "Verif.Registry.C67_alias_wrong",
    "Verif.Registry.C67_throw_wrong",
    "Verif.Registry.C67_ub_wrong"
   ],
   "note": "Exact for regular names; the irregular names that are aliased, throw or are undefined are witnessed."
  },
  {
   "property": "C68",
   "status": "partial",
   "theorems": [
    "Verif.Jwt.C68_accepts_partial",
    "Verif.Jwt.C68_needs_key",
    "Verif.Jwt.C68_alg",
    "Verif.Jwt.C68_expired",
    "Verif.Jwt.C68_defined",
    "Verif.Jwt.C68_confusion_wrong",
    "Verif.Jwt.C68_ignored_wrong",
    "Verif.Jwt.C68_throws_wrong"
   ],
   "note": "Exact acceptance proved for all tokens and constraints with JSON reader, OpenSSL and clock as parameters. The code deviates: certificate text usable as HMAC secret, constraints of the wrong type ignored, exceptions on bad base64 (witness theorems)."
  },
  {
   "property": "C69",
   "status": "partial",
   "theorems": [
    "Verif.Jwt.C69_verify_partial",
    "Verif.Jwt.C69_sections",
    "Verif.Jwt.C69_throws_wrong"
   ],
   "note": "True exactly for valid signatures; the code throws on sections that are not base64 (witness)."
  },
  {
   "property": "C70",
   "status": "partial",
   "theorems": [
    "Verif.Jwt.C70_token",
    "Verif.Jwt.C70_decode",
    "Verif.Jwt.C70_verify_hmac",
    "Verif.Jwt.C70_verify_key",
    "Verif.Jwt.C70_payload_partial",
    "Verif.Jwt.C70_injection_wrong"
   ],
   "note": "Round trips proved. encode_sign changes payloads with escapes (witness), so the last part holds only without escapes."
  },
  {
   "property": "C71",
   "status": "partial",
   "theorems": [
    "Verif.Time.C71_total",
    "Verif.Time.C71_language",
    "Verif.Time.C71_range",
    "Verif.Time.C71_exact_partial",
    "Verif.Time.C71_precision_wrong",
    "Verif.Time.C71_sign_wrong"
   ],
   "note": "Language, termination and range hold for all texts; the sum is exact for whole numbers up to 2^53 ns per term, witnesses for lost precision and for signs that hold for one term only (-1h30m is -30m)."
  },
  {
   "property": "C72",
   "status": "partial",
   "theorems": [
    "Verif.Time.C72_total",
    "Verif.Time.C72_date",
    "Verif.Time.C72_clock_partial",
    "Verif.Time.C72_zone_partial",
    "Verif.Time.C72_weekday",
    "Verif.Time.C72_weekday_utc",
    "Verif.Time.C72_range",
    "Verif.Time.C72_clock_wrong",
    "Verif.Time.C72_throws_wrong"
   ],
   "note": "Date and weekday for all timestamps; clock except for the first day, where the code overflows; local times must fit 64 bits; unknown zones throw."
  },
  {
   "property": "C73",
   "status": "partial",
   "theorems": [
    "Verif.Time.C73_add_date_partial",
    "Verif.Time.C73_years_wrong",
    "Verif.Time.C73_wrap_wrong",
    "Verif.Time.C73_overflow_wrong",
    "Verif.Time.C73_early_wrong"
   ],
   "note": "Holds while years and months fit 32 bits, the years stay within 32767 and the day count fits 64 bits; witnesses for each of these limits."
  },
  {
   "property": "C74",
   "status": "partial",
   "theorems": [
    "Verif.Time.C74_diff_partial",
    "Verif.Time.C74_calendar_wrong",
    "Verif.Time.C74_months_wrong",
    "Verif.Time.C74_overflow_wrong"
   ],
   "note": "The parts add up with years of 365 days and months of 2629746 s; they are not the calendar's: 2021-01-01 to 2022-01-01 is 11 months and 30 days, and months can be 12."
  },
  {
   "property": "C75",
   "status": "partial",
   "theorems": [
    "Verif.Time.C75_format",
    "Verif.Time.C75_injective",
    "Verif.Time.C75_zone",
    "Verif.Time.C75_fraction_wrong",
    "Verif.Time.C75_throws_wrong"
   ],
   "note": "Without layout for all timestamps; with zone while the local time fits; layouts are left to the library, except that their fraction is the whole timestamp."
  },
  {
   "property": "C76",
   "status": "partial",
   "theorems": [
    "Verif.Units.C76_language",
    "Verif.Units.C76_bytes_language",
    "Verif.Units.C76_whole_partial",
    "Verif.Units.C76_double",
    "Verif.Units.C76_text_wrong",
    "Verif.Units.C76_bytes_wrong",
    "Verif.Units.C76_throws_wrong",
    "Verif.Units.C76_exa_wrong"
   ],
   "note": "The language holds in both directions for all texts; whole amounts in canonical form are exact; others go through doubles (parameters). Witnesses: leading zeros and plus signs stay in the text, amounts without unit are not rounded, large exponents throw, large doubles become integers written with an exponent."
  },
  {
   "property": "C77",
   "status": "partial",
   "theorems": [
    "Verif.Uri.C77_parse",
    "Verif.Uri.C77_unique",
    "Verif.Uri.C77_roundtrip",
    "Verif.Uri.C77_fields",
    "Verif.Uri.C77_is_valid",
    "Verif.Uri.C77_empty",
    "Verif.Uri.C77_opaque",
    "Verif.Uri.C77_raw_path_wrong"
   ],
   "note": "Everything but raw_path holds for all texts. raw_path is not the path as written: when the path is written canonically it is the decoded path, so two different paths share one raw_path (C77_raw_path_wrong)."
  },
  {
   "property": "C78",
   "status": "partial",
   "theorems": [
    "Verif.Core.C78_round_partial",
    "Verif.Core.C78_int",
    "Verif.Core.C78_abs_int",
    "Verif.Core.C78_abs_float_partial",
    "Verif.Core.C78_type",
    "Verif.Core.C78_round_unique",
    "Verif.Core.C78_range_wrong",
    "Verif.Core.C78_digit_wrong",
    "Verif.Core.C78_abs_wrong",
    "Verif.Core.C78_throws_wrong"
   ],
   "note": "Proved for every double whose rounded value fits 64 bits and all integers. Doubles beyond 64 bits are undefined behaviour, numbers beyond the doubles throw, the 17th digit is dropped before rounding, abs keeps six decimals."
  },
  {
   "property": "C79",
   "status": "partial",
   "theorems": [
    "Verif.Core.C79_exact",
    "Verif.Core.C79_stod_partial",
    "Verif.Core.C79_text_wrong",
    "Verif.Core.C79_quotes_wrong",
    "Verif.Core.C79_throws_wrong"
   ],
   "note": "Exact for decimal texts. Texts such as - and 007 are answered as integers with that text, strings answered by builtins are read as doubles, numbers beyond the doubles throw."
  },
  {
   "property": "C80",
   "status": "partial",
   "theorems": [
    "Verif.Core.C80_case_partial",
    "Verif.Core.C80_laws_partial",
    "Verif.Core.C80_ascii_wrong"
   ],
   "note": "Proved for every ASCII text; any other character is undefined behaviour (std::tolower of a negative char)."
  },
  {
   "property": "C81",
   "status": "partial",
   "theorems": [
    "Verif.Core.C81_sprintf_partial",
    "Verif.Core.C81_format",
    "Verif.Core.C81_few",
    "Verif.Core.C81_more",
    "Verif.Core.C81_plain",
    "Verif.Core.C81_int_partial",
    "Verif.Core.C81_int_wrong",
    "Verif.Core.C81_binary_wrong",
    "Verif.Core.C81_big_wrong",
    "Verif.Core.C81_quotes_wrong",
    "Verif.Core.C81_collection_wrong",
    "Verif.Core.C81_spec_wrong",
    "Verif.Core.C81_width_wrong"
   ],
   "note": "The reading of formats and the order of arguments hold for all inputs. The notation of single values does not: %d reads 32 bits, %b always throws, integers beyond 64 bits are errors, strings answered by builtins are written with quotes, %s of collections is empty or an element, %O and misplaced flags are undefined, 1023 characters at most."
  },
  {
   "property": "C82",
   "status": "partial",
   "theorems": [
    "Verif.Core.C82_template_partial",
    "Verif.Core.C82_conflict",
    "Verif.Core.C82_body_unique",
    "Verif.Core.C82_escape_wrong"
   ],
   "note": "Proved for strings and for values shown without backslash. A collection with a string that has an escape gives a text that is no JSON string."
  },
  {
   "property": "C83",
   "status": "proved",
   "theorems": [
    "Verif.Core.C83_print",
    "Verif.Core.C83_lines"
   ],
   "note": "What is written for all arguments; the output stream itself is not modelled."
  },
  {
   "property": "C84",
   "status": "proved",
   "theorems": [
    "Verif.Copy.C84_entrypoint",
    "Verif.Copy.C84_query",
    "Verif.Copy.C84_exact",
    "Verif.Copy.C84_alias_wrong",
    "Verif.Copy.aliased_undisciplined",
    "Verif.Compile.C84_compiled"
   ],
   "note": "Refinement of the heap machine to a machine on values (Copy/Machine.lean), for bundles which meet Copy/Disc.lean. C84_alias_wrong: the verifier accepts bundles without the discipline, and there sharing is visible. Every compiled program of the modelled syntax follows the discipline (C84_compiled)."
  },
  {
   "property": "C85",
   "status": "partial",
   "theorems": [
    "Verif.Compile.C85_entrypoint_partial",
    "Verif.Compile.C85_no_wrong_result_partial",
    "Verif.Compile.C85_entries_partial",
    "Verif.Compile.Wrong.C85_assign_undefined_wrong",
    "Verif.Compile.Wrong.C85_assign_input_wrong",
    "Verif.Compile.Wrong.C85_object_undefined_wrong",
    "Verif.Compile.Wrong.C85_argument_undefined_wrong",
    "Verif.Compile.Wrong.C85_equal_value_wrong",
    "Verif.Compile.Wrong.C85_with_input_wrong",
    "Verif.Compile.Wrong.C85_with_order_wrong",
    "Verif.Compile.Wrong.C85_bodies_wrong"
   ],
   "note": "Proved for the syntax left by the simplifying passes, outside of the positions where the code is wrong (witnesses) and without nested keys or several definitions of a constant key; conflicts between bodies of one head are not reported (C85_bodies_wrong)."
  },
  {
   "property": "C86",
   "status": "partial",
   "theorems": [
    "Verif.Compile.C86_verified_partial",
    "Verif.Compile.C86_safe_partial",
    "Verif.Compile.Wrong.C86_number_rejected_wrong"
   ],
   "note": "Proved if there are no more strings than locals; otherwise the verifier can reject a correct bundle (witness)."
  },
  {
   "property": "C87",
   "status": "proved",
   "theorems": [
    "Verif.VM.C87_entrypoint",
    "Verif.VM.C87_query",
    "Verif.VM.C87_verified"
   ],
   "note": "Exact equality of outcomes, for every bundle; the relation is Renumbered in Bundle/Number.lean."
  },
  {
   "property": "C88",
   "status": "partial",
   "theorems": [
    "Verif.Store.C88_tree_partial",
    "Verif.Store.C88_executed_partial",
    "Verif.Store.C88_data_wrong",
    "Verif.Store.C88_decl_wrong"
   ],
   "note": "Saving succeeds and the loaded tree is the saved one (reloaded), and BundleDef::from_node gives the same executable part, query and data document. Missing: data with members that are mistaken for parts of a plan, for which the files cannot be loaded (C88_data_wrong); quotes in declarations of built-ins, which get escapes (C88_decl_wrong); sets in the data; the text form of JSON, which is Trieste's."
  },
  {
   "property": "C89",
   "status": "partial",
   "theorems": [
    "Verif.Store.C89_plan_partial",
    "Verif.Store.C89_function_partial",
    "Verif.Store.C89_query_partial",
    "Verif.Store.C89_twice_wrong"
   ],
   "note": "Proved for names that are all different. False when an entry point is given twice: later names then select the plan before theirs (C89_twice_wrong)."
  },
  {
   "property": "C90",
   "status": "partial",
   "theorems": [
    "Verif.Store.C90_executed_partial",
    "Verif.Store.C90_saved_partial"
   ],
   "note": "The specification gives the tree of a bundle by the grammar; from_node of this tree is the bundle, for all statements, declarations, plans and functions; saved as JSON and loaded it is the same bundle with the data sorted. Missing: source files."
  },
  {
   "property": "C91",
   "status": "partial",
   "theorems": [
    "Verif.Output.C91_text_partial",
    "Verif.Output.C91_output_partial",
    "Verif.Output.C91_same_partial",
    "Verif.Output.C91_apart_partial",
    "Verif.Output.C91_integers",
    "Verif.Output.C91_keys_wrong"
   ],
   "note": "Texts are read by a parser for RFC 8259. Strings, floating point numbers and json::escape are assumed to give texts of JSON. Items with different keys and the same name, such as 1 and \"1\", lose all but one (C91_keys_wrong)."
  },
  {
   "property": "C92",
   "status": "partial",
   "theorems": [
    "Verif.Output.C92_taken_partial",
    "Verif.Output.C92_refused",
    "Verif.Output.C92_back_partial",
    "Verif.Output.C92_numbers_partial",
    "Verif.Output.C92_exponent_wrong"
   ],
   "note": "Numbers such as 1e5 or 1.5E3 are JSON and are not taken (C92_exponent_wrong, C92_numbers_partial says exactly which are). Trieste's JSON reader is taken to read RFC 8259. C92_back_partial leaves out sets, floating point numbers and keys that are not strings."
  },
  {
   "property": "C93",
   "status": "partial",
   "theorems": [
    "Verif.Parse.C93_read",
    "Verif.Parse.C93_only",
    "Verif.Parse.C93_unambiguous",
    "Verif.Parse.C93_refused",
    "Verif.Parse.C93_glued_partial",
    "Verif.Parse.C93_opa_partial",
    "Verif.Parse.C93_sets_wrong",
    "Verif.Parse.C93_minus_wrong",
    "Verif.Parse.C93_glued_wrong"
   ],
   "note": "The code's own table puts & and | on the level of * (C93_sets_wrong); with it the reading is complete and sound (C93_read, C93_only). C93_opa_partial: the table of the Open Policy Agent where & and | are not mixed with sums and products. A minus sign right behind &, |, in or a comma is refused (C93_minus_wrong); 5 -3*2 is refused (C93_glued_wrong). Arrays, objects, sets and comprehensions are not in the trees."
  },
  {
   "property": "C94",
   "status": "partial",
   "theorems": [
    "Verif.Parse.C94_tokens",
    "Verif.Parse.C94_whole",
    "Verif.Parse.C94_layout",
    "Verif.Parse.C94_expression_partial",
    "Verif.Parse.C94_only",
    "Verif.Parse.C94_package_wrong",
    "Verif.Parse.C94_comment_wrong",
    "Verif.Parse.C94_minus_wrong"
   ],
   "note": "Tokens are set apart by a blank at least. A query that begins with a name such as packages is taken for a module (C94_package_wrong); a comment on the last line without an end of line is refused (C94_comment_wrong); 5-3*2 is refused (C94_minus_wrong). Template strings are not modelled."
  },
  {
   "property": "C95",
   "status": "partial",
   "theorems": [
    "Verif.Operators.C95_decided_partial",
    "Verif.Operators.C95_equal_partial",
    "Verif.Operators.C95_trichotomy_partial",
    "Verif.Operators.C95_transitive_partial",
    "Verif.Operators.C95_integers",
    "Verif.Operators.C95_strings_partial",
    "Verif.Operators.C95_strings_wrong",
    "Verif.Operators.C95_arrays_wrong",
    "Verif.Operators.C95_types_wrong",
    "Verif.Operators.C95_floats_wrong",
    "Verif.Operators.C95_digits_wrong",
    "Verif.Double.ieee_ok"
   ],
   "note": "Total order agreeing with equality on all values, with floats of up to fifteen digits whose doubles are read as IEEE 754 says. With integers beyond the doubles equality is not transitive, and it ignores the seventeenth digit; strings with a space or exclamation mark after a common beginning, arrays of numbers and mixed types are not in the order of the Open Policy Agent."
  },
  {
   "property": "C96",
   "status": "partial",
   "theorems": [
    "Verif.Operators.C96_integers",
    "Verif.Operators.C96_type_error",
    "Verif.Operators.C96_set_minus",
    "Verif.Operators.C96_numbers",
    "Verif.Operators.C96_divide",
    "Verif.Operators.C96_divide_wrong",
    "Verif.Operators.C96_whole_partial",
    "Verif.Operators.C96_whole_wrong",
    "Verif.Operators.C96_sum_product",
    "Verif.Operators.C96_sum_types_partial",
    "Verif.Operators.C96_sum_wrong",
    "Verif.Operators.C96_set_other"
   ],
   "note": "Exactness on integers, types of operands and results. Violated: whole floats of more than 31 digits are cut, division of large integers goes through doubles, sum and product with a member that is not a number answer false or undefined instead of an error."
  },
  {
   "property": "C97",
   "status": "partial",
   "theorems": [
    "Verif.Double.C97_near",
    "Verif.Double.C97_nearest",
    "Verif.Double.C97_monotone",
    "Verif.Double.C97_exact",
    "Verif.Double.C97_total",
    "Verif.Double.C97_short_partial",
    "Verif.Double.C97_digits_wrong",
    "Verif.Double.C97_power_wrong"
   ],
   "note": "Written numbers are the nearest with sixteen digits and keep the order; unchanged if exact, or if the digits begin between 1 and 4.5. Not all short numbers survive: 8.2 is written 8.199999999999999 and 1e23 is written 9.999999999999999e+22 (witnessed)."
  },
  {
   "property": "C98",
   "status": "partial",
   "theorems": [
    "Verif.Double.C98_sound_partial",
    "Verif.Double.C98_separated",
    "Verif.Double.C98_answers",
    "Verif.Double.C98_large_wrong"
   ],
   "note": "For floats of any text and integers below 2^53. Larger integers compared with floats may be wrong: 1152921504606847232 == 1152921504606847232.0 is false (witnessed)."
  },
  {
   "property": "C99",
   "status": "partial",
   "theorems": [
    "Verif.Unify.C99_sound_partial",
    "Verif.Unify.C99_complete_partial",
    "Verif.Unify.C99_bound_partial",
    "Verif.Unify.Ex.C99_size_wrong",
    "Verif.Unify.Ex.C99_throws_wrong",
    "Verif.Unify.Ex.C99_nested_wrong",
    "Verif.Unify.Ex.C99_set_wrong",
    "Verif.Unify.Ex.C99_cycle_wrong",
    "Verif.Unify.Ex.C99_keys_wrong"
   ],
   "note": "Sound and complete for bodies for which the code drops nothing (no violated assertion, no recorded error), without cycles, and with keys of patterns that have different values. Without these the code is wrong, as the theorems with the suffix _wrong show. Not modelled: with, loops, nested bodies. C99_bound_partial: every variable of the patterns is bound by a literal, unless an array or object is compared with something that is never one."
  }
 ]
}
