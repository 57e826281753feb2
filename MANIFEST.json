{
 "claims": [
  {
   "property": "C01",
   "status": "proved",
   "theorems": [
    "Verif.Props.C01_json_roundtrip",
    "Verif.Props.C01_json_injective"
   ],
   "note": "packed and pretty, all trees whose numbers are JSON numbers (C10)"
  },
  {
   "property": "C02",
   "status": "proved",
   "theorems": [
    "Verif.Props.C02_json_string_literal"
   ],
   "note": ""
  },
  {
   "property": "C03",
   "status": "proved",
   "theorems": [
    "Verif.Props.C03_packed_is_stripped_pretty",
    "Verif.Props.C03_packed_has_no_ws",
    "Verif.Props.C03_same_value"
   ],
   "note": ""
  },
  {
   "property": "C04",
   "status": "proved",
   "theorems": [
    "Verif.Props.C04_quoted_roundtrip",
    "Verif.Props.C04_quoted_injective"
   ],
   "note": ""
  },
  {
   "property": "C05",
   "status": "partial",
   "theorems": [
    "Verif.Props.C05_yaml_roundtrip_partial",
    "Verif.Props.C05_yaml_injective_partial",
    "Verif.Props.C05_boolean_key_refuted",
    "Verif.Props.C05_empty_key_refuted"
   ],
   "note": "C05_yaml_roundtrip_partial: the emitted YAML document is read back as exactly the same tree. The hypothesis `YamlOk` says that numbers are JSON numbers, strings are well-formed UTF-8 and no key is empty or one of the words null/true/false (in the three capitalisations of the YAML core schema). Missing: those keys, for which the property is false, see `C05_boolean_key_refuted`, `C05_empty_key_refuted`. C05_yaml_injective_partial: hence different trees have different YAML texts. C05_boolean_key_refuted: C05 refuted: a member whose key is the string `true` is written as the plain key `true`, which YAML resolves to a boolean: it is not read back as the same tree. C05_empty_key_refuted: C05 refuted: a member with an empty key is written with no key text at all (a null key in YAML)."
  },
  {
   "property": "C06",
   "status": "proved",
   "theorems": [
    "Verif.Props.C06_decode_wellformed",
    "Verif.Props.C06_encode_decode",
    "Verif.Props.C06_decode_encode",
    "Verif.Props.C06_spec_is_utf8"
   ],
   "note": ""
  },
  {
   "property": "C07",
   "status": "partial",
   "theorems": [
    "Verif.Props.C07_no_read_past_end",
    "Verif.Props.C07_total_and_scalar",
    "Verif.Props.C07_prefix_preserved",
    "Verif.Props.C07_framed_partial",
    "Verif.Props.C07_swallows_refuted",
    "Verif.Props.C07_misreads_lead_refuted",
    "Verif.Props.C07_stray_refuted"
   ],
   "note": "never reads past the end, terminates, only scalars, valid prefix kept; exact replacement proved for framed input; false of the code for missing/stray continuation bytes and leads F8-FF (refutations proved)"
  },
  {
   "property": "C08",
   "status": "proved",
   "theorems": [
    "Verif.Props.C08_insert_lookup",
    "Verif.Props.C08_insert_keys",
    "Verif.Props.C08_last_write_wins",
    "Verif.Props.C08_one_member_per_key",
    "Verif.Props.C08_array_unique"
   ],
   "note": ""
  },
  {
   "property": "C09",
   "status": "partial",
   "theorems": [
    "Verif.Props.C09_refl",
    "Verif.Props.C09_trans",
    "Verif.Props.C09_order_ignored",
    "Verif.Props.C09_only_order_ignored_partial",
    "Verif.Props.C09_symm_partial",
    "Verif.Props.C09_symmetry_refuted"
   ],
   "note": "C09_only_order_ignored_partial: if no object in the left value repeats a key, equality holds exactly when the values differ only in the order of object members. Missing: objects with repeated keys, where it fails, see `C09_symmetry_refuted`. C09_symm_partial: equality is symmetric when no object in the left value repeats a key. C09_symmetry_refuted: C09 refuted: with a repeated key, equality is not symmetric."
  },
  {
   "property": "C10",
   "status": "proved",
   "theorems": [
    "Verif.Props.C10_number_grammar",
    "Verif.Props.C10_literal_to_number",
    "Verif.Props.C10_literal_to_boolean"
   ],
   "note": ""
  },
  {
   "property": "C11",
   "status": "partial",
   "theorems": [
    "Verif.Props.C11_position_partial",
    "Verif.Props.C11_start_partial",
    "Verif.Props.C11_end_line",
    "Verif.Props.C11_last_line_start_refuted",
    "Verif.Props.C11_last_line_end_refuted",
    "Verif.Props.C11_empty_at_zero_refuted"
   ],
   "note": "C11_position_partial: for every text and every non-empty range such that some newline follows its last character (or is it), the reported start is the line and column of the first character and the reported end is the line and column of the last character. Missing: ranges that touch an unterminated last line and the empty range at offset 0, where the code is wrong (`C11_last_line_start_refuted`, `C11_last_line_end_refuted`, `C11_empty_at_zero_refuted`). C11_start_partial: the start position of a range alone only needs a newline at or after the start. C11_last_line_start_refuted: C11 refuted: *every* range that starts after the last newline of the source is reported as starting in line 0, column 0. C11_last_line_end_refuted: C11 refuted: a range that ends after the last newline is always reported as ending in column 1. C11_empty_at_zero_refuted: C11 refuted: for the empty range at offset 0 the code dereferences the iterator before the first element, whatever the (non-pathological) text."
  },
  {
   "property": "C12",
   "status": "proved",
   "theorems": [
    "Verif.Props.C12_coverage",
    "Verif.Props.C12_merges_only_adjacent",
    "Verif.Props.C12_no_adjacent_left",
    "Verif.Props.C12_text"
   ],
   "note": ""
  },
  {
   "property": "C13",
   "status": "partial",
   "theorems": [
    "Verif.Props.C13_index_partial",
    "Verif.Props.C13_range_by_index_partial",
    "Verif.Props.C13_range_by_buffer_partial",
    "Verif.Props.C13_index_overflow_refuted",
    "Verif.Props.C13_scan_overflow_refuted",
    "Verif.Props.C13_end_of_source_refuted"
   ],
   "note": "C13_index_partial: for every text (without NUL) the index has one entry per byte, and the entry of each byte of the `k`-th character is `k`. C13_range_by_index_partial: for every text (without NUL) and every byte range that starts at a character `a` and ends after character `b - 1`, or beyond the end of the text, the index conversion gives the character range. C13_range_by_buffer_partial: the same for the conversion that scans the buffer; here also the end of the text is a valid start. C13_index_overflow_refuted: C13 refuted: building the index writes beyond its buffer *exactly* for the sources whose last unit is cut off. C13_scan_overflow_refuted: C13 refuted: counting characters up to a position of such a source reads beyond the terminator, here for the position of the tabulator in `E2 09`, the conversion that the check for tabulators applies. C13_end_of_source_refuted: C13 refuted: a range that starts at the end of the source reads one entry beyond the index, whatever the text."
  },
  {
   "property": "C14",
   "status": "proved",
   "theorems": [
    "Verif.Props.C14_null_source",
    "Verif.Props.C14_out",
    "Verif.Props.C14_code",
    "Verif.Props.C14_ok_iff_no_error",
    "Verif.Props.C14_to",
    "Verif.Props.C14_serialize",
    "Verif.Props.C14_check_null",
    "Verif.Props.C14_check"
   ],
   "note": ""
  },
  {
   "property": "C15",
   "status": "partial",
   "theorems": [
    "Verif.Props.C15_content",
    "Verif.Props.C15_error",
    "Verif.Props.C15_total_partial",
    "Verif.Props.C15_escape_refuted",
    "Verif.Props.C15_undefined_refuted"
   ],
   "note": "C15_total_partial: a parse result is produced for every report and conversion outcome, provided that the conversion throws only standard exceptions and parse errors, and that no annotation is at the empty range at offset 0. Missing: these two cases, where it is not (`C15_escape_refuted`, `C15_undefined_refuted`). C15_escape_refuted: C15 is false for other exceptions: whatever the report says, anything else that the conversion throws is not caught. (The code of the blueprint classes does throw `const char*`.) C15_undefined_refuted: C15 is false for annotations at the empty range at offset 0."
  },
  {
   "property": "C16",
   "status": "proved",
   "theorems": [
    "Verif.Props.C16_parse",
    "Verif.Props.C16_serialize",
    "Verif.Props.C16_null"
   ],
   "note": ""
  },
  {
   "property": "C17",
   "status": "partial",
   "theorems": [
    "Verif.Props.C17_rejected_partial",
    "Verif.Props.C17_accepted",
    "Verif.Props.C17_outcome",
    "Verif.Props.C17_not_parsed",
    "Verif.Props.C17_malformed_refuted"
   ],
   "note": "C17_rejected_partial: a source with a tab always fails with the business error, at the character position of the first tab; without tab and with a carriage return, at that of the first carriage return. Missing: malformed UTF-8, where the position may not be computable (`C17_malformed_refuted`). C17_malformed_refuted: C17 is false for malformed sources: two bytes, the first announcing three, and a tab: the computation of the position reads beyond the end of the source."
  },
  {
   "property": "C18",
   "status": "proved",
   "theorems": [
    "Verif.Props.C18_once",
    "Verif.Props.C18_unique"
   ],
   "note": ""
  },
  {
   "property": "C19",
   "status": "proved",
   "theorems": [
    "Verif.Props.C19_off_no_maps",
    "Verif.Props.C19_off_only_drops_maps",
    "Verif.Props.C19_on_complete",
    "Verif.Props.C19_off_complete"
   ],
   "note": ""
  },
  {
   "property": "C20",
   "status": "proved",
   "theorems": [
    "Verif.Props.C20_closure",
    "Verif.Props.C20_declarations"
   ],
   "note": ""
  },
  {
   "property": "C21",
   "status": "proved",
   "theorems": [
    "Verif.Props.C21_total",
    "Verif.Props.C21_base",
    "Verif.Props.C21_unique",
    "Verif.Props.C21_error",
    "Verif.Props.C21_cyclic_chain",
    "Verif.Props.C21_duplicate",
    "Verif.Props.C21_nested_cycle_rejected"
   ],
   "note": ""
  },
  {
   "property": "C22",
   "status": "partial",
   "theorems": [
    "Verif.Props.C22_closed",
    "Verif.Props.C22_circular",
    "Verif.Props.C22_accepts",
    "Verif.Props.C22_acyclic",
    "Verif.Props.C22_unknown_partial",
    "Verif.Props.C22_unknown_include_refuted"
   ],
   "note": "C22_unknown_partial: an include of a type without entry in the table is refused. C22_unknown_include_refuted: C22 refuted: a type that is declared nowhere but used as a nested type gets an empty entry in the table while the dependencies are resolved, and including it is accepted."
  },
  {
   "property": "C23",
   "status": "partial",
   "theorems": [
    "Verif.Props.C23_irreflexive",
    "Verif.Props.C23_asymmetric",
    "Verif.Props.C23_base_first",
    "Verif.Props.C23_sorted_partial",
    "Verif.Props.C23_not_a_weak_order_refuted"
   ],
   "note": "C23_sorted_partial: C23, for the order that a sort has to establish: in every list in which no type is less than an earlier one, each type comes after the types it depends on. Missing from the property: that a sort reaches such a list; it need not (`C23_not_a_weak_order_refuted`). C23_not_a_weak_order_refuted: C23 is false: the comparison is not transitive, and for the types `A (C)`, `B`, `C` no order at all is sorted."
  },
  {
   "property": "C24",
   "status": "partial",
   "theorems": [
    "Verif.Props.C24_finite_map",
    "Verif.Props.C24_refused",
    "Verif.Props.C24_remove",
    "Verif.Props.C24_builtins_partial",
    "Verif.Props.C24_builtins_refuted"
   ],
   "note": "C24_builtins_partial: from the initial registry, in every history without `clear` and without removing that name, the built-in types are found unchanged. Missing: nothing protects them from `remove` and `clear`. C24_builtins_refuted: C24 is false where it says always: the built-in types can be removed."
  },
  {
   "property": "C25",
   "status": "partial",
   "theorems": [
    "Verif.Props.C25_root_partial",
    "Verif.Props.C25_root_unique",
    "Verif.Props.C25_cyclic_refuted",
    "Verif.Props.C25_resolve_partial",
    "Verif.Props.C25_resolve_finds",
    "Verif.Props.C25_variable_parent_hang_refuted",
    "Verif.Props.C25_accepted"
   ],
   "note": "C25_root_partial: if no chain of parents returns to its start, the lookup ends for every name, with the element at the end of the chain, or nothing if the name is not registered. Missing: cyclic registries, for which it does not end (`C25_cyclic_refuted`). C25_cyclic_refuted: C25 is false for cyclic registries: from each element on a cycle of parents the lookup never ends. C25_resolve_partial: C25, base type of a named type: ends for all types whose chain of parents does not return, and what it yields is the base type of the first type in the chain that has one. C25_variable_parent_hang_refuted: C25 is false for blueprints: two types with variable parents naming each other are accepted by the parser, and then resolving their base type never ends."
  },
  {
   "property": "C26",
   "status": "proved",
   "theorems": [
    "Verif.Props.C26_ordered_map",
    "Verif.Props.C26_claim",
    "Verif.Props.C26_find"
   ],
   "note": ""
  },
  {
   "property": "C27",
   "status": "proved",
   "theorems": [
    "Verif.Props.C27_last_wins",
    "Verif.Props.C27_unique",
    "Verif.Props.C27_addMember"
   ],
   "note": ""
  },
  {
   "property": "C28",
   "status": "partial",
   "theorems": [
    "Verif.Props.C28_objects_partial",
    "Verif.Props.C28_most_derived_partial",
    "Verif.Props.C28_infos",
    "Verif.Props.C28_scalars",
    "Verif.Props.C28_arrays",
    "Verif.Props.C28_mixed",
    "Verif.Props.C28_same_kind_refuted",
    "Verif.Props.C28_array_items_lost_refuted",
    "Verif.Props.C28_one_of_lost_refuted",
    "Verif.Props.C28_non_string_key_refuted"
   ],
   "note": "C28_objects_partial: for every chain of objects whose members have distinct names the merge succeeds; the properties of the result are those of the first object overlaid successively with those of the others (inherited properties keep their place, an overridden one gets the most derived definition, new ones follow in order); the result keeps the element name of the first. Objects with nameless members (`One Of`, mixins) are not covered here. C28_most_derived_partial: so the definition of a property in the result is the most derived one of the chain. C28_same_kind_refuted: C28 refuted for the other kinds: two elements of the same kind that is none of string, number, boolean, array, object, enum or ref never merge. C28_array_items_lost_refuted: C28 refuted: the items that a type adds to an array type without value are lost. C28_one_of_lost_refuted: C28 refuted: overriding one property of a `One Of` replaces the whole `One Of`, so that an inherited property that is not overridden (here `b`) is lost. C28_non_string_key_refuted: C28 refuted: a member whose key is not a string (a variable property of a named type is an `extend`) is a null dereference."
  },
  {
   "property": "C29",
   "status": "partial",
   "theorems": [
    "Verif.Props.C29_full_copy",
    "Verif.Props.C29_copy_serialises",
    "Verif.Props.C29_copy_equal",
    "Verif.Props.C29_chosen_parts",
    "Verif.Props.C29_equality",
    "Verif.Props.C29_equivalence",
    "Verif.Props.C29_equal_not_same_refuted",
    "Verif.Props.C29_null_enum_refuted"
   ],
   "note": "C29_equal_not_same_refuted: C29 refuted in the other direction: elements that compare equal may serialise differently, since the names are not compared (e.g. an object that inherits from `A` and one that inherits from `B`). C29_null_enum_refuted: C29 refuted: comparing an enumeration whose value is null dereferences the null pointer, also with its own copy."
  },
  {
   "property": "C30",
   "status": "partial",
   "theorems": [
    "Verif.Props.C30_terminates",
    "Verif.Props.C30_wraps_refuted",
    "Verif.Props.C30_arithmetic_partial",
    "Verif.Props.C30_counts_unique",
    "Verif.Props.C30_small_partial",
    "Verif.Props.C30_exact_partial",
    "Verif.Props.C30_single_partial",
    "Verif.Props.C30_single_refuted"
   ],
   "note": "C30_wraps_refuted: Sums and products wrap around. C30_arithmetic_partial: Sums and products are exact when they are infinite or below the largest machine number. C30_small_partial: Every size computed belongs to an element with an exact count `n`, and is `n` if `n` is below the largest machine number. C30_exact_partial: The size of an element made of at most 20 parts is exact, and infinite exactly if the element types infinitely many values. C30_single_partial: In particular such an element has size 1 only if it types exactly one value. C30_single_refuted: An object with 32 booleans that may be null types more than four billion values, but its computed size is 1, so that the schema generator takes it for a single value."
  },
  {
   "property": "C31",
   "status": "proved",
   "theorems": [
    "Verif.Props.C31_terminates",
    "Verif.Props.C31_unique_keys",
    "Verif.Props.C31_primitive",
    "Verif.Props.C31_object_exact",
    "Verif.Props.C31_contains"
   ],
   "note": ""
  },
  {
   "property": "C32",
   "status": "partial",
   "theorems": [
    "Verif.Props.C32_valid_partial",
    "Verif.Props.C32_variable_refuted",
    "Verif.Props.C32_alternatives_refuted",
    "Verif.Props.C32_fixed_array_refuted",
    "Verif.Props.C32_fixed_alternatives_refuted"
   ],
   "note": "C32_valid_partial: The body generated for a regular structure is valid against the schema generated for it."
  },
  {
   "property": "C33",
   "status": "partial",
   "theorems": [
    "Verif.Props.C33_terminates",
    "Verif.Props.C33_dialect",
    "Verif.Props.C33_formed",
    "Verif.Props.C33_proper_partial",
    "Verif.Props.C33_duplicate_refuted",
    "Verif.Props.C33_enum_refuted"
   ],
   "note": "C33_proper_partial: If no object declares a property twice and no enumeration is empty, then in the schema and all the schemas in it the names of properties are different, so are the required ones, and enumerations and lists of alternatives are not empty."
  },
  {
   "property": "C34",
   "status": "partial",
   "theorems": [
    "Verif.Props.C34_accepted_partial",
    "Verif.Props.C34_refuted",
    "Verif.Props.C34_value",
    "Verif.Props.C34_rejected",
    "Verif.Props.C34_colon",
    "Verif.Props.C34_nul_refuted",
    "Verif.Props.C34_fetch_partial",
    "Verif.Props.C34_fetch_refuted"
   ],
   "note": "C34_accepted_partial: A line without NUL is accepted exactly if its name is a token without an exclamation mark; its value is then what follows the colon (or the name), trimmed. Partial: the exclamation mark is allowed in tokens. C34_refuted: Header names with an exclamation mark are valid tokens but rejected. C34_nul_refuted: A line ends at a NUL: what follows it is lost. C34_fetch_partial: The line of a range of the input is its text without surrounding white space, if it is not blank. C34_fetch_refuted: If it is blank, everything that follows is taken."
  },
  {
   "property": "C35",
   "status": "proved",
   "theorems": [
    "Verif.Props.C35_no_loss",
    "Verif.Props.C35_duplicate",
    "Verif.Props.C35_content"
   ],
   "note": ""
  },
  {
   "property": "C36",
   "status": "partial",
   "theorems": [
    "Verif.Props.C36_split_partial",
    "Verif.Props.C36_split_one",
    "Verif.Props.C36_split_refuted",
    "Verif.Props.C36_escape_refuted",
    "Verif.Props.C36_json",
    "Verif.Props.C36_schema",
    "Verif.Props.C36_roundtrip_partial",
    "Verif.Props.C36_roundtrip_refuted",
    "Verif.Props.C36_garbage"
   ],
   "note": "C36_split_partial: Every text of a media type whose quoted values need no escapes is split into its type, subtype and suffix and its first parameter. Partial: further parameters are lost and escapes are kept (refuted below). C36_split_refuted: Two parameters: `c=d` is part of the text, and lost. C36_escape_refuted: A quoted value with an escape: the backslash is kept. C36_roundtrip_partial: A well-formed media type with at most one parameter, whose value is a name or must be quoted and needs no escape, is printed as a text of it, and printing and parsing gives it back. Partial: see the refutation. C36_roundtrip_refuted: Printing and parsing loses a second parameter, an empty value, and a value with a star, and doubles an escape."
  },
  {
   "property": "C37",
   "status": "partial",
   "theorems": [
    "Verif.Props.C37_parts",
    "Verif.Props.C37_lossless",
    "Verif.Props.C37_warnings",
    "Verif.Props.C37_warning_count",
    "Verif.Props.C37_names",
    "Verif.Props.C37_rfc_partial",
    "Verif.Props.C37_rfc_refuted"
   ],
   "note": "C37_rfc_partial: C37, partial: a variable of RFC 6570 with a maximum length below 1000 is accepted as it is. Missing: lengths from 1000 (`C37_rfc_refuted`). C37_rfc_refuted: C37, refutation of the reading \"valid by RFC 6570\": `{a.}` and `{a:}` are no templates of RFC 6570 and are accepted without a warning; `{a:1000}` is one and is not."
  },
  {
   "property": "C38",
   "status": "partial",
   "theorems": [
    "Verif.Props.C38_encoding_partial",
    "Verif.Props.C38_encoding_refuted",
    "Verif.Props.C38_suggestion"
   ],
   "note": "C38_encoding_partial: C38. The suggested encoding is that of RFC 3986 exactly when no byte is below 16. C38_encoding_refuted: C38, refutation: the suggestion for the byte 1 is `%1`, as in the warning for the variable `a<1>`."
  },
  {
   "property": "C39",
   "status": "proved",
   "theorems": [
    "Verif.Props.C39_parameters",
    "Verif.Props.C39_unique",
    "Verif.Props.C39_last_wins",
    "Verif.Props.C39_maps",
    "Verif.Props.C39_warning_count",
    "Verif.Props.C39_eligible"
   ],
   "note": ""
  },
  {
   "property": "C40",
   "status": "proved",
   "theorems": [
    "Verif.Props.C40_identifier",
    "Verif.Props.C40_rest",
    "Verif.Props.C40_plain",
    "Verif.Props.C40_values"
   ],
   "note": ""
  },
  {
   "property": "C41",
   "status": "partial",
   "theorems": [
    "Verif.Props.C41_terminates",
    "Verif.Props.C41_balanced",
    "Verif.Props.C41_safe_partial",
    "Verif.Props.C41_refuted",
    "Verif.Props.C41_signature_refuted"
   ],
   "note": "C41_safe_partial: Nothing outside the string is read if no comma is last or followed by a closing parenthesis, and no closing parenthesis or end follows the opening one: partial, as the property is claimed of all texts. C41_refuted: `attribute[attribute.length() - 1]` is read of an empty attribute. C41_signature_refuted: So is it while a whole signature is parsed."
  },
  {
   "property": "C42",
   "status": "partial",
   "theorems": [
    "Verif.Props.C42_trim",
    "Verif.Props.C42_trim_idempotent",
    "Verif.Props.C42_split_first",
    "Verif.Props.C42_split",
    "Verif.Props.C42_key_value",
    "Verif.Props.C42_trim_info_partial",
    "Verif.Props.C42_trim_info_refuted"
   ],
   "note": "C42_trim_info_partial: The position and length of the trimmed text are those of the trimmed text, if there is any. C42_trim_info_refuted: Of blank text they are not: the length is negative (and converted to a huge unsigned one)."
  },
  {
   "property": "C43",
   "status": "partial",
   "theorems": [
    "Verif.Props.C43_section_parsing_terminates",
    "Verif.Props.C43_list_section_ends_at_next_item",
    "Verif.Props.C43_header_sections_obey",
    "Verif.Props.C43_any_processor_refuted"
   ],
   "note": "C43_any_processor_refuted: \"Whatever the processors do\" is too much: the parser only compares for equality, so that a processor that hands back an earlier node keeps it busy for ever."
  },
  {
   "property": "C44",
   "status": "partial",
   "theorems": [
    "Verif.Props.C44_reference_text",
    "Verif.Props.C44_no_named_reference_pending",
    "Verif.Props.C44_order_does_not_matter_partial",
    "Verif.Props.C44_first_definition_counts",
    "Verif.Props.C44_error_reported_iff",
    "Verif.Props.C44_blank_symbol_refuted",
    "Verif.Props.C44_deprecated_headers_refuted",
    "Verif.Props.C44_chained_model_refuted"
   ],
   "note": "C44_order_does_not_matter_partial: The outcome depends on the models by name only, not on whether the model or the reference comes first: every request and response is filled in with the model it names, or is left as it is and marked unresolved if there is no such model. Missing from the full property: references with a blank symbol, and documents with deprecated headers sections (both refuted below). C44_blank_symbol_refuted: A reference with a blank symbol stays pending for ever, nothing is reported, and the text is lost. C44_deprecated_headers_refuted: With a deprecated headers section the order does matter: the headers survive if the model comes first, and are lost if it comes later. C44_chained_model_refuted: A model that is itself a reference to a later model is never filled in: a request that refers to it is called resolved, has no body, and nothing is reported."
  },
  {
   "property": "C45",
   "status": "proved",
   "theorems": [
    "Verif.Props.C45_transactions",
    "Verif.Props.C45_total",
    "Verif.Props.C45_request",
    "Verif.Props.C45_response",
    "Verif.Props.C45_count"
   ],
   "note": ""
  },
  {
   "property": "C46",
   "status": "partial",
   "theorems": [
    "Verif.Props.C46_explicit_body",
    "Verif.Props.C46_generated_body",
    "Verif.Props.C46_explicit_schema",
    "Verif.Props.C46_generated_schema",
    "Verif.Props.C46_case_refuted"
   ],
   "note": "C46_case_refuted: The name of the header is compared exactly, although header names ignore case: with `content-type` nothing is generated."
  },
  {
   "property": "C47",
   "status": "proved",
   "theorems": [
    "Verif.Props.C47_status",
    "Verif.Props.C47_method",
    "Verif.Props.C47_response",
    "Verif.Props.C47_method_warning"
   ],
   "note": ""
  },
  {
   "property": "C48",
   "status": "proved",
   "theorems": [
    "Verif.Props.C48_duplicates",
    "Verif.Props.C48_division",
    "Verif.Props.C48_malformed",
    "Verif.Props.C48_paragraphs"
   ],
   "note": ""
  },
  {
   "property": "C49",
   "status": "partial",
   "theorems": [
    "Verif.Props.C49_plain",
    "Verif.Props.C49_enclosed",
    "Verif.Props.C49_shape_partial",
    "Verif.Props.C49_refuted"
   ],
   "note": "C49_shape_partial: The result is the text or a trimmed escape with which it begins. C49_refuted: Text outside the first escape is lost when the text ends with another one."
  },
  {
   "property": "C50",
   "status": "proved",
   "theorems": [
    "Verif.Props.C50_resources"
   ],
   "note": ""
  },
  {
   "property": "C51",
   "status": "partial",
   "theorems": [
    "Verif.Props.C51_traits_partial",
    "Verif.Props.C51_conflict",
    "Verif.Props.C51_two_uses_refuted"
   ],
   "note": "C51_traits_partial: C51, partial: attributes with at most one use, one type and one sample value are read whatever their order: each says what it says, the others are as before, and there is no warning. Missing: several uses (`C51_two_uses_refuted`) and several samples (the last wins). C51_two_uses_refuted: C51, refutation of the reading \"contradictory uses are reported\": the second use becomes the type."
  },
  {
   "property": "C52",
   "status": "proved",
   "theorems": [
    "Verif.Props.C52_default",
    "Verif.Props.C52_values"
   ],
   "note": ""
  },
  {
   "property": "C53",
   "status": "proved",
   "theorems": [
    "Verif.Props.C53_document_is_read_to_its_end",
    "Verif.Props.C53_document_parsing_returns",
    "Verif.Props.C53_every_block_read_once"
   ],
   "note": ""
  },
  {
   "property": "C54",
   "status": "proved",
   "theorems": [
    "Verif.Props.C54_examples_of_an_action",
    "Verif.Props.C54_cut_is_unique"
   ],
   "note": ""
  },
  {
   "property": "C55",
   "status": "partial",
   "theorems": [
    "Verif.Props.C55_ends_partial",
    "Verif.Props.C55_no_mixins",
    "Verif.Props.C55_cyclic_refuted"
   ],
   "note": "C55_ends_partial: if no chain of parents in the registry returns to its start, the expansion of every usable element ends: with an element, or with the error that a type includes itself by a mixin. Missing: cyclic registries (`C55_cyclic_refuted`). C55_cyclic_refuted: C55 is false for cyclic registries: a reference to such a type is never resolved."
  },
  {
   "property": "C56",
   "status": "proved",
   "theorems": [
    "Verif.Props.C56_resolved"
   ],
   "note": ""
  },
  {
   "property": "C57",
   "status": "proved",
   "theorems": [
    "Verif.Props.C57_unchanged",
    "Verif.Props.C57_named",
    "Verif.Props.C57_no_lineage"
   ],
   "note": ""
  },
  {
   "property": "C58",
   "status": "proved",
   "theorems": [
    "Verif.Props.C58_lookup",
    "Verif.Props.C58_flags",
    "Verif.Props.C58_sample",
    "Verif.Props.C58_default",
    "Verif.Props.C58_value"
   ],
   "note": ""
  },
  {
   "property": "C59",
   "status": "proved",
   "theorems": [
    "Verif.Props.C59_tree",
    "Verif.Props.C59_mismatch"
   ],
   "note": ""
  },
  {
   "property": "C60",
   "status": "proved",
   "theorems": [
    "Verif.Props.C60_items"
   ],
   "note": ""
  },
  {
   "property": "C61",
   "status": "partial",
   "theorems": [
    "Verif.Props.C61_inside_partial",
    "Verif.Props.C61_own",
    "Verif.Props.C61_text",
    "Verif.Props.C61_overrun_refuted",
    "Verif.Props.C61_gap_refuted"
   ],
   "note": "C61_inside_partial: if the source maps reported are inside the source, then so are those of all nodes. Missing: maps that go beyond the end by the newline added, where it fails (`C61_overrun_refuted`). C61_overrun_refuted: C61 is false if the newline added is in the source map and the text of the item is not found: the source map of the paragraph goes beyond the end of the source. C61_gap_refuted: the position of the text is computed as if the source map of the item were one range: if it has a gap, the source map of the paragraph is somewhere else."
  },
  {
   "property": "C62",
   "status": "proved",
   "theorems": [
    "Verif.Props.C62_flags",
    "Verif.Props.C62_type",
    "Verif.Props.C62_warnings"
   ],
   "note": ""
  },
  {
   "property": "C63",
   "status": "partial",
   "theorems": [
    "Verif.Props.C63_specification",
    "Verif.Props.C63_list",
    "Verif.Props.C63_inner_refuted",
    "Verif.Props.C63_destination_refuted"
   ],
   "note": "C63_inner_refuted: a name before a bracket inside the list is lost, without any message. C63_destination_refuted: a comma in the destination of a link separates, and the rest of the destination becomes a nested type."
  },
  {
   "property": "C64",
   "status": "proved",
   "theorems": [
    "Verif.Props.C64_value",
    "Verif.Props.C64_type",
    "Verif.Props.C64_plain",
    "Verif.Props.C64_variable",
    "Verif.Props.C64_wildcard"
   ],
   "note": ""
  },
  {
   "property": "C65",
   "status": "proved",
   "theorems": [
    "Verif.Props.C65_kind",
    "Verif.Props.C65_declared",
    "Verif.Props.C65_values",
    "Verif.Props.C65_property"
   ],
   "note": ""
  },
  {
   "property": "C66",
   "status": "proved",
   "theorems": [
    "Verif.Props.C66_member",
    "Verif.Props.C66_named",
    "Verif.Props.C66_clash",
    "Verif.Props.C66_clash_exact",
    "Verif.Props.C66_named_unchecked"
   ],
   "note": ""
  },
  {
   "property": "C67",
   "status": "proved",
   "theorems": [
    "Verif.Props.C67_nothing",
    "Verif.Props.C67_named",
    "Verif.Props.C67_member",
    "Verif.Props.C67_unique"
   ],
   "note": ""
  },
  {
   "property": "C68",
   "status": "proved",
   "theorems": [
    "Verif.Props.C68_content",
    "Verif.Props.C68_samples",
    "Verif.Props.C68_default",
    "Verif.Props.C68_warnings",
    "Verif.Props.C68_unique",
    "Verif.Props.C68_total",
    "Verif.Props.C68_named"
   ],
   "note": ""
  },
  {
   "property": "C69",
   "status": "proved",
   "theorems": [
    "Verif.Props.C69_content",
    "Verif.Props.C69_samples",
    "Verif.Props.C69_default",
    "Verif.Props.C69_named"
   ],
   "note": ""
  },
  {
   "property": "C70",
   "status": "proved",
   "theorems": [
    "Verif.Props.C70_member",
    "Verif.Props.C70_named",
    "Verif.Props.C70_distinct",
    "Verif.Props.C70_complete",
    "Verif.Props.C70_ordered",
    "Verif.Props.C70_quiet"
   ],
   "note": ""
  },
  {
   "property": "C71",
   "status": "partial",
   "theorems": [
    "Verif.Props.C71_value",
    "Verif.Props.C71_property",
    "Verif.Props.C71_named",
    "Verif.Props.C71_kept",
    "Verif.Props.C71_line_refuted"
   ],
   "note": "C71_line_refuted: C71 is false of the line of a member that is an object and has no name: its description is lost."
  },
  {
   "property": "C72",
   "status": "proved",
   "theorems": [
    "Verif.Props.C72_property",
    "Verif.Props.C72_dropped",
    "Verif.Props.C72_kept",
    "Verif.Props.C72_order",
    "Verif.Props.C72_mixin",
    "Verif.Props.C72_oneOf"
   ],
   "note": ""
  },
  {
   "property": "C73",
   "status": "partial",
   "theorems": [
    "Verif.Props.C73_named",
    "Verif.Props.C73_members",
    "Verif.Props.C73_standard",
    "Verif.Props.C73_undefined_refuted",
    "Verif.Props.C73_endless_refuted"
   ],
   "note": "C73_undefined_refuted: C73 is false if types of an enumeration are not known: elements of one name are compared that are of different types, which dereferences a null pointer. C73_endless_refuted: C73 is false for a registry with a cycle of parents: the search for the basic type of a type never ends."
  },
  {
   "property": "C74",
   "status": "partial",
   "theorems": [
    "Verif.Props.C74_match",
    "Verif.Props.C74_capture",
    "Verif.Props.C74_resource",
    "Verif.Props.C74_action",
    "Verif.Props.C74_group",
    "Verif.Props.C74_data",
    "Verif.Props.C74_exclusive",
    "Verif.Props.C74_top",
    "Verif.Props.C74_keyword",
    "Verif.Props.C74_action_type",
    "Verif.Props.C74_resource_ends",
    "Verif.Props.C74_resource_ends_refuted"
   ],
   "note": "C74_resource_ends_refuted: C74 is false without the last condition but one: the header `Sample: B [/b]` has the form of a resource, but after a resource it is read as a part of its description."
  },
  {
   "property": "C75",
   "status": "partial",
   "theorems": [
    "Verif.Props.C75_plain",
    "Verif.Props.C75_named",
    "Verif.Props.C75_named_exact",
    "Verif.Props.C75_none",
    "Verif.Props.C75_rest",
    "Verif.Props.C75_uri_refuted"
   ],
   "note": "C75_uri_refuted: C75 is false for the URI of an action: the header `GET /a[GET]` reads as `METHOD /uri`, and its method is taken from there, but it also reads as an action named `GET /a`; so it counts as an action without a URI of its own, and the URI is nowhere."
  },
  {
   "property": "C76",
   "status": "partial",
   "theorems": [
    "Verif.Props.C76_uri",
    "Verif.Props.C76_endpoint",
    "Verif.Props.C76_named_endpoint",
    "Verif.Props.C76_named",
    "Verif.Props.C76_has_uri",
    "Verif.Props.C76_has_uri_refuted",
    "Verif.Props.C76_named_endpoint_refuted",
    "Verif.Props.C76_group",
    "Verif.Props.C76_group_named",
    "Verif.Props.C76_group_named_refuted"
   ],
   "note": "C76_has_uri_refuted: C76 is false for a header that ends with white space other than blanks: it is recognised as a resource, but has no name and no URI, since one function removes the white space and the other does not. C76_named_endpoint_refuted: C76 is false for a URI with a bracket: the resource and its action are given different names and URIs. C76_group_named_refuted: C76 is false for a header that starts with white space other than blanks: it is recognised as a group, but has no name."
  },
  {
   "property": "C77",
   "status": "proved",
   "theorems": [
    "Verif.Props.C77_sections",
    "Verif.Props.C77_exclusive",
    "Verif.Props.C77_payload",
    "Verif.Props.C77_type_section",
    "Verif.Props.C77_asset",
    "Verif.Props.C77_keyword"
   ],
   "note": ""
  },
  {
   "property": "C78",
   "status": "partial",
   "theorems": [
    "Verif.Props.C78_parts",
    "Verif.Props.C78_malformed",
    "Verif.Props.C78_only",
    "Verif.Props.C78_status",
    "Verif.Props.C78_response_named",
    "Verif.Props.C78_silent_refuted",
    "Verif.Props.C78_backslash_refuted"
   ],
   "note": "C78_silent_refuted: C78 is false of lines that begin with white space other than blanks, which recognition ignores: a vertical tab in front makes the whole signature disappear without a word. C78_backslash_refuted: a backslash in a media type, as in a quoted parameter, makes the signature malformed."
  },
  {
   "property": "C79",
   "status": "proved",
   "theorems": [
    "Verif.Props.C79_identifier",
    "Verif.Props.C79_relative"
   ],
   "note": ""
  },
  {
   "property": "C80",
   "status": "partial",
   "theorems": [
    "Verif.Props.C80_body",
    "Verif.Props.C80_no_body",
    "Verif.Props.C80_schema",
    "Verif.Props.C80_no_schema",
    "Verif.Props.C80_abbreviated",
    "Verif.Props.C80_reference",
    "Verif.Props.C80_reported",
    "Verif.Props.C80_section_reported",
    "Verif.Props.C80_total",
    "Verif.Props.C80_second_ignored_refuted",
    "Verif.Props.C80_total_refuted"
   ],
   "note": "C80_second_ignored_refuted: Refuted: that an additional body, which is reported as ignored, is ignored. It replaces the first one. C80_total_refuted: Refuted: that every payload is parsed. An empty block of code after a body makes the parser read before the start of an empty text."
  },
  {
   "property": "C81",
   "status": "proved",
   "theorems": [
    "Verif.Props.C81_empty_request",
    "Verif.Props.C81_body_not_allowed"
   ],
   "note": ""
  },
  {
   "property": "C82",
   "status": "partial",
   "theorems": [
    "Verif.Props.C82_local",
    "Verif.Props.C82_only_items",
    "Verif.Props.C82_pair",
    "Verif.Props.C82_total_refuted"
   ],
   "note": "C82_total_refuted: Refuted: that every list item can be read as a property. Empty parentheses make the parser read past the end."
  },
  {
   "property": "C83",
   "status": "proved",
   "theorems": [
    "Verif.Props.C83_value",
    "Verif.Props.C83_property",
    "Verif.Props.C83_attributes",
    "Verif.Props.C83_object_items",
    "Verif.Props.C83_array_items",
    "Verif.Props.C83_description"
   ],
   "note": ""
  },
  {
   "property": "C84",
   "status": "proved",
   "theorems": [
    "Verif.Props.C84_section",
    "Verif.Props.C84_one_of",
    "Verif.Props.C84_include",
    "Verif.Props.C84_section_elements",
    "Verif.Props.C84_one_of_elements",
    "Verif.Props.C84_include_blocks"
   ],
   "note": ""
  },
  {
   "property": "C85",
   "status": "proved",
   "theorems": [
    "Verif.Props.C85_payload",
    "Verif.Props.C85_one",
    "Verif.Props.C85_stops"
   ],
   "note": ""
  },
  {
   "property": "C86",
   "status": "proved",
   "theorems": [
    "Verif.Props.C86_action",
    "Verif.Props.C86_one",
    "Verif.Props.C86_stops"
   ],
   "note": ""
  },
  {
   "property": "C87",
   "status": "proved",
   "theorems": [
    "Verif.Props.C87_resource",
    "Verif.Props.C87_one",
    "Verif.Props.C87_stops"
   ],
   "note": ""
  },
  {
   "property": "C88",
   "status": "proved",
   "theorems": [
    "Verif.Props.C88_group",
    "Verif.Props.C88_one",
    "Verif.Props.C88_takes",
    "Verif.Props.C88_reported",
    "Verif.Props.C88_stops"
   ],
   "note": ""
  },
  {
   "property": "C89",
   "status": "proved",
   "theorems": [
    "Verif.Props.C89_named",
    "Verif.Props.C89_one",
    "Verif.Props.C89_decides",
    "Verif.Props.C89_ends",
    "Verif.Props.C89_ends_object",
    "Verif.Props.C89_properties",
    "Verif.Props.C89_item_section"
   ],
   "note": ""
  },
  {
   "property": "C90",
   "status": "proved",
   "theorems": [
    "Verif.Props.C90_data",
    "Verif.Props.C90_one",
    "Verif.Props.C90_decides",
    "Verif.Props.C90_given_up",
    "Verif.Props.C90_closes",
    "Verif.Props.C90_new",
    "Verif.Props.C90_within"
   ],
   "note": ""
  },
  {
   "property": "C91",
   "status": "proved",
   "theorems": [
    "Verif.Props.C91_lookahead",
    "Verif.Props.C91_one",
    "Verif.Props.C91_decides",
    "Verif.Props.C91_declared",
    "Verif.Props.C91_within_group",
    "Verif.Props.C91_group",
    "Verif.Props.C91_hidden",
    "Verif.Props.C91_name",
    "Verif.Props.C91_twice",
    "Verif.Props.C91_never_variable"
   ],
   "note": ""
  },
  {
   "property": "C92",
   "status": "proved",
   "theorems": [
    "Verif.Props.C92_document",
    "Verif.Props.C92_one",
    "Verif.Props.C92_whole",
    "Verif.Props.C92_no_gap",
    "Verif.Props.C92_resources",
    "Verif.Props.C92_settled",
    "Verif.Props.C92_clean",
    "Verif.Props.C92_required",
    "Verif.Props.C92_groups"
   ],
   "note": ""
  },
  {
   "property": "C93",
   "status": "proved",
   "theorems": [
    "Verif.Props.C93_section",
    "Verif.Props.C93_one",
    "Verif.Props.C93_names",
    "Verif.Props.C93_ends"
   ],
   "note": ""
  },
  {
   "property": "C94",
   "status": "proved",
   "theorems": [
    "Verif.Props.C94_line",
    "Verif.Props.C94_none",
    "Verif.Props.C94_one",
    "Verif.Props.C94_item",
    "Verif.Props.C94_ends"
   ],
   "note": ""
  },
  {
   "property": "C95",
   "status": "proved",
   "theorems": [
    "Verif.Props.C95_line",
    "Verif.Props.C95_torn",
    "Verif.Props.C95_one",
    "Verif.Props.C95_some",
    "Verif.Props.C95_text"
   ],
   "note": ""
  },
  {
   "property": "C96",
   "status": "proved",
   "theorems": [
    "Verif.Props.C96_run",
    "Verif.Props.C96_returns",
    "Verif.Props.C96_category",
    "Verif.Props.C96_positions",
    "Verif.Props.C96_long"
   ],
   "note": ""
  }
 ]
}