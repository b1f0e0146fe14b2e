{
 "claims": [
  {
   "property": "C01",
   "status": "proved",
   "theorems": [
    "Verif.Props.C01_base64_roundtrip",
    "Verif.Props.C01_base64_rfc4648",
    "Verif.Props.C01_base64_length",
    "Verif.Props.C01_base64_alphabet",
    "Verif.Props.C01_base64_blanks_ignored"
   ],
   "note": "Round trip, RFC 4648 agreement, length, alphabet and blank-insensitivity, for all byte strings."
  },
  {
   "property": "C02",
   "status": "proved",
   "theorems": [
    "Verif.Props.C02_double_quoted_reads_back",
    "Verif.Props.C02_every_string_has_a_form",
    "Verif.Props.C02_printable"
   ],
   "note": "In every scanner state in which a token may start, for every string and every permitted continuation. What is written contains no control characters (C02_printable)."
  },
  {
   "property": "C03",
   "status": "proved",
   "theorems": [
    "Verif.Props.C03_quoted_is_string",
    "Verif.Props.C03_quoted_is_string_tagged"
   ],
   "note": "All texts, both quoting styles, with and without tags."
  },
  {
   "property": "C04",
   "status": "partial",
   "theorems": [
    "Verif.Props.C04_unquoted_strings_false",
    "Verif.Props.C04_unquoted_strings_partial",
    "Verif.Props.C04_unquoted_strings_exact"
   ],
   "note": "The property as stated is false: C04_unquoted_strings_false exhibits a string that changes type. C04_unquoted_strings_partial proves it for every string outside the exactly characterised exceptions, C04_unquoted_strings_exact says the exceptions are exactly those."
  },
  {
   "property": "C05",
   "status": "partial",
   "theorems": [
    "Verif.Props.C05_int_roundtrip",
    "Verif.Props.C05_core_int_accepted",
    "Verif.Props.C05_only_core_ints_false",
    "Verif.Props.C05_int_exact"
   ],
   "note": "Round trip and acceptance hold for all integers; \"only core-schema integers\" is false (C05_only_core_ints_false, doubled sign); C05_int_exact gives the exact set accepted."
  },
  {
   "property": "C06",
   "status": "partial",
   "theorems": [
    "Verif.Props.C06_str_tag",
    "Verif.Props.C06_core_tag_false",
    "Verif.Props.C06_core_tag_partial",
    "Verif.Props.C06_core_tag_values"
   ],
   "note": "False as stated (C06_core_tag_false); the partial theorem covers the tags whose handling is correct."
  },
  {
   "property": "C07",
   "status": "partial",
   "theorems": [
    "Verif.Props.C07_empty_is_null_false",
    "Verif.Props.C07_null_spellings_partial"
   ],
   "note": "False as stated: an empty plain scalar is the empty string (C07_empty_is_null_false). The spelled nulls are proved."
  },
  {
   "property": "C08",
   "status": "partial",
   "theorems": [
    "Verif.Props.C08_scan_never_panics_false",
    "Verif.Props.C08_version_overflow_false",
    "Verif.Props.C08_scan_never_panics_partial"
   ],
   "note": "False in general (`@`, `%YAML 256.0` with overflow checks). Proved for every input without a reserved indicator in its last three bytes and, with overflow checks, without three digits after a percent sign. Token scanning is modelled on the string source."
  },
  {
   "property": "C09",
   "status": "partial",
   "theorems": [
    "Verif.Props.C09_limits_partial",
    "Verif.Props.C09_lone_cr_false",
    "Verif.Props.C09_quoted_nul_false",
    "Verif.Props.C09_deep_indent_false",
    "Verif.Props.C09_scan_finishes_false",
    "Verif.Props.C09_scan_finishes_partial"
   ],
   "note": "False in general: a carriage return alone, a NUL in quotes and a deeply indented block scalar loop for ever (proved for all iteration counts). Proved for all other inputs, with a bound of 6 tokens per byte and length+4 iterations per loop."
  },
  {
   "property": "C10",
   "status": "proved",
   "theorems": [
    "Verif.Props.C10_positions_exact"
   ],
   "note": "For every input and number of pulls; includes exact line and column numbers, error positions and that all tokens are sorted by start."
  },
  {
   "property": "C11",
   "status": "partial",
   "theorems": [
    "Verif.Props.C11_blocks_balance_false",
    "Verif.Props.C11_blocks_balance_partial"
   ],
   "note": "False in general (`a: [` leaves the mapping open). Proved: no BlockEnd without a start in any prefix for every input, and full balance when the brackets are balanced."
  },
  {
   "property": "C12",
   "status": "proved",
   "theorems": [
    "Verif.Props.C12_stream_end_final",
    "Verif.Props.C12_next_token_repeats",
    "Verif.Props.C12_errors_latch"
   ],
   "note": "For every input; both the iterator and next_token."
  },
  {
   "property": "C13",
   "status": "proved",
   "theorems": [
    "Verif.Props.C13_prefix",
    "Verif.Props.C13_complete",
    "Verif.Props.C13_load"
   ],
   "note": "Pull and push API, every token list, every prefix. Tokens are arbitrary, so nothing is assumed about the scanner."
  },
  {
   "property": "C14",
   "status": "proved",
   "theorems": [
    "Verif.Props.C14_no_panic"
   ],
   "note": "Any sequence of next/peek/load calls, including calls after errors."
  },
  {
   "property": "C15",
   "status": "partial",
   "theorems": [
    "Verif.Props.C15_peek_partial",
    "Verif.Props.C15_peek_error_partial",
    "Verif.Props.C15_peek_false"
   ],
   "note": "False after a failing peek (C15_peek_false). Proved in full where peeking succeeds, and a failing peek is shown to act exactly as a pull."
  },
  {
   "property": "C16",
   "status": "proved",
   "theorems": [
    "Verif.Props.C16_final",
    "Verif.Props.C16_only_after_end"
   ],
   "note": "After any history of calls; and None is returned only after StreamEnd."
  },
  {
   "property": "C17",
   "status": "proved",
   "theorems": [
    "Verif.Props.C17_numbering",
    "Verif.Props.C17_alias"
   ],
   "note": "Numbering and resolution stated on the tokens consumed."
  },
  {
   "property": "C18",
   "status": "partial",
   "theorems": [
    "Verif.Props.C18_leak_false",
    "Verif.Props.C18_load_partial"
   ],
   "note": "False for the pull API (C18_leak_false); proved for load, on success and on error."
  },
  {
   "property": "C19",
   "status": "partial",
   "theorems": [
    "Verif.Props.C19_directives_partial",
    "Verif.Props.C19_all_apply_false",
    "Verif.Props.C19_duplicates_false"
   ],
   "note": "False: only the last directive takes effect (C19_all_apply_false) and duplicate handles are accepted (C19_duplicates_false). The partial theorem gives the exact behaviour, the %YAML limit and no carry-over without keep_tags."
  },
  {
   "property": "C20",
   "status": "partial",
   "theorems": [
    "Verif.Props.C20_ascii_escapes_partial",
    "Verif.Props.C20_other_escapes_always_wrong",
    "Verif.Props.C20_percent_utf8_false"
   ],
   "note": "Exact for ASCII characters. False of every other character (C20_other_escapes_always_wrong): bytes are combined with the wrong shift."
  },
  {
   "property": "C21",
   "status": "partial",
   "theorems": [
    "Verif.Props.C21_trees_partial",
    "Verif.Props.C21_trees_false",
    "Verif.Props.C21_every_stream_described",
    "Verif.Props.C21_loader_never_panics",
    "Verif.Props.C21_one_document_each",
    "Verif.Props.C21_load"
   ],
   "note": "Loader driven by any complete event stream: the documents are exactly the trees described (C21_trees_partial), when no mapping key is tagged or an alias to an unfinished node. With a tagged key the claim is false (C21_trees_false): the key is taken for an empty slot, so {!t \"a\": \"b\"} loads as {}. For all streams: no panic, one document each."
  },
  {
   "property": "C22",
   "status": "proved",
   "theorems": [
    "Verif.Props.C22_alias_is_copy"
   ],
   "note": "For every arrangement: an alias inserts the same value as the anchored node, whatever is between, if the anchor number was given to no other node (the parser numbers anchors uniquely: C17)."
  },
  {
   "property": "C23",
   "status": "partial",
   "theorems": [
    "Verif.Props.C23_str_write_read",
    "Verif.Props.C23_str_write_frame",
    "Verif.Props.C23_int_index_mapping_false",
    "Verif.Props.C23_int_index_mapping_never_writes_value",
    "Verif.Props.C23_int_index_sequence_partial",
    "Verif.Props.C23_str_reads",
    "Verif.Props.C23_int_reads"
   ],
   "note": "String indexing proved; integer indexing of mappings for writing is refuted, for reading proved (an index of 2^63 or more asks for a negative key); sequences proved."
  },
  {
   "property": "C24",
   "status": "partial",
   "theorems": [
    "Verif.Props.C24_skip_false",
    "Verif.Props.C24_last_line_false",
    "Verif.Props.C24_white_space_false",
    "Verif.Props.C24_same_observations_partial",
    "Verif.Props.C24_skip_exact"
   ],
   "note": "Any text and any program of source operations, each used where the sources are meant to agree (Fine): same observations. The full claim is false: skip(33), last lines without a break and white space before text differ (three witnesses)."
  },
  {
   "property": "C25",
   "status": "partial",
   "theorems": [
    "Verif.Props.C25_compare_32",
    "Verif.Props.C25_compare_16",
    "Verif.Props.C25_sign_32",
    "Verif.Props.C25_spaces",
    "Verif.Props.C25_blanks",
    "Verif.Props.C25_breaks",
    "Verif.Props.C25_comments_false",
    "Verif.Props.C25_sign_16_false",
    "Verif.Props.C25_masks_false",
    "Verif.Props.C25_masks_partial",
    "Verif.Props.C25_lanes"
   ],
   "note": "All comparison, sign and table masks of 32 lanes and the comparison masks of 16 lanes, for every block; the lane-wise meaning of the other vector operations, with the exact condition under which adding panics (C25_lanes). The 16-lane sign mask panics on every vector and the mask of number signs is always empty, so the full claim is false."
  },
  {
   "property": "C26",
   "status": "partial",
   "theorems": [
    "Verif.Props.C26_single_quotes_exact",
    "Verif.Props.C26_single_quotes_lossless",
    "Verif.Props.C26_single_quotes_no_raw_control",
    "Verif.Props.C26_plain_exact",
    "Verif.Props.C26_plain_lossless_false",
    "Verif.Props.C26_plain_lossless_partial",
    "Verif.Props.C26_plain_no_tab_lf"
   ],
   "note": "Single-quoted display proved exact and lossless; plain display is refuted as lossless, with the exact condition in the partial theorem."
  },
  {
   "property": "C27",
   "status": "proved",
   "theorems": [
    "Verif.Props.C27_limit_counts_leaves",
    "Verif.Props.C27_can_expand_iff"
   ],
   "note": "The limit counts leaves for every tree and limit."
  },
  {
   "property": "C28",
   "status": "partial",
   "theorems": [
    "Verif.Props.C28_one_document_partial",
    "Verif.Props.C28_more_documents",
    "Verif.Props.C28_error",
    "Verif.Props.C28_no_document",
    "Verif.Props.C28_aliases_false",
    "Verif.Props.C28_documents_false"
   ],
   "note": "Any tokens. The iterator gives an item for every event of the first document except aliases, then ends (C28_one_document_partial; also with errors, further documents, no document). As stated the claim is false: aliases are dropped (C28_aliases_false) and later documents are not visited (C28_documents_false)."
  },
  {
   "property": "C29",
   "status": "partial",
   "theorems": [
    "Verif.Props.C29_items_partial",
    "Verif.Props.C29_typed_partial",
    "Verif.Props.C29_lenient_partial",
    "Verif.Props.C29_typed_false",
    "Verif.Props.C29_options_in_sequences_false",
    "Verif.Props.C29_tuples_in_sequences_false",
    "Verif.Props.C29_structs_in_sequences_false",
    "Verif.Props.C29_nested_ends_false",
    "Verif.Props.C29_quoted_null_false",
    "Verif.Props.C29_tilde_false",
    "Verif.Props.C29_hexadecimal_false",
    "Verif.Props.C29_decimal_agrees"
   ],
   "note": "For every type built from integers, booleans, floats, strings, units, options, vectors, maps, tuples and structs that satisfies Handled, and every document: deserialising returns v exactly if the node denotes v. The full claim is false: options, tuples and structs inside sequences, keys and options are misread, tuples that end in a sequence leave an event behind, and nulls and integers are read by text only (seven witnesses)."
  },
  {
   "property": "C30",
   "status": "partial",
   "theorems": [
    "Verif.Props.C30_wrapped_partial",
    "Verif.Props.C30_unwrapped_partial",
    "Verif.Props.C30_serialise_false"
   ],
   "note": "For every line width and division into words, a string without quotes, backslashes, line breaks, NULs, adjacent blanks and document markers is serialised to a text that the scanner, parser and loader read as that string; strings that fit on a line may have adjacent blanks and markers. The full claim is false: nothing is escaped, and two spaces at a wrap become a line feed."
  },
  {
   "property": "C31",
   "status": "partial",
   "theorems": [
    "Verif.Props.C31_escaping_false",
    "Verif.Props.C31_escaping_partial",
    "Verif.Props.C31_escaping_exact",
    "Verif.Props.C31_utf8_false"
   ],
   "note": "For every string: escape_double_quotes returns exactly the text in which each byte is escaped as Spec.Escaped says, and it panics exactly on strings with a truncated escape. The full claim (never panics) is false: concrete witnesses."
  },
  {
   "property": "C32",
   "status": "partial",
   "theorems": [
    "Verif.Props.C32_literal_partial",
    "Verif.Props.C32_literal_false",
    "Verif.Props.C32_characters_exact"
   ],
   "note": "Every string that is written as a literal block loads as itself, at any place of a tree except as a key, if its first line does not begin with a space, it does not end in two line feeds and is not only line feeds; as a whole document also no leading tab and no line `...`. False for those: concrete witnesses. Which strings are written so: C32_characters_exact."
  },
  {
   "property": "C33",
   "status": "partial",
   "theorems": [
    "Verif.Props.C33_local_partial",
    "Verif.Props.C33_loads_partial",
    "Verif.Props.C33_tags_exact",
    "Verif.Props.C33_tags_false"
   ],
   "note": "Exact: with no declared handles a printed tag is read back as itself if and only if it is a local tag whose suffix is not empty and needs no escapes; with declared handles local tags still are. The full claim is false: `!`, verbatim tags, tags with a declared prefix, escaped bytes."
  },
  {
   "property": "C34",
   "status": "partial",
   "theorems": [
    "Verif.Props.C34_level",
    "Verif.Props.C34_layout_partial",
    "Verif.Props.C34_nested_partial",
    "Verif.Props.C34_layout_false"
   ],
   "note": "The level is restored for every value, setting and state. The layout (every item and entry on a line of its own indented by best_indent times its depth, everything belonging to it deeper) holds for every value whose tags contain no line break; with such a tag it is false."
  },
  {
   "property": "C35",
   "status": "partial",
   "theorems": [
    "Verif.Props.C35_single_partial",
    "Verif.Props.C35_single_false"
   ],
   "note": "Any tokens. Loading one agrees with loading all, except that an error after the first document is not reported (C35_single_false)."
  },
  {
   "property": "C36",
   "status": "proved",
   "theorems": [
    "Verif.Props.C36_token_text_utf8"
   ],
   "note": "For every valid UTF-8 input and every token; the specification of UTF-8 is Lean's own encoder."
  },
  {
   "property": "C37",
   "status": "partial",
   "theorems": [
    "Verif.Props.C37_version_exact_partial",
    "Verif.Props.C37_release_wraps",
    "Verif.Props.C37_long_numbers_rejected",
    "Verif.Props.C37_debug_panics",
    "Verif.Props.C37_version_exact_false"
   ],
   "note": "Exact for numbers below 256. Larger ones wrap in a release build and panic in a debug build; ten or more digits are rejected."
  },
  {
   "property": "C38",
   "status": "proved",
   "theorems": [
    "Verif.Props.C38_blank_break_partition",
    "Verif.Props.C38_anchor_chars",
    "Verif.Props.C38_tag_chars",
    "Verif.Props.C38_as_hex",
    "Verif.Props.C38_alpha"
   ],
   "note": "All 256 byte values through case analysis on Nat, no bound."
  },
  {
   "property": "C39",
   "status": "proved",
   "theorems": [
    "Verif.Props.C39_bounded"
   ],
   "note": "Linear bound on events, for every token list."
  },
  {
   "property": "C40",
   "status": "proved",
   "theorems": [
    "Verif.Props.C40_scalars"
   ],
   "note": "For every token list and every prefix of the event stream."
  },
  {
   "property": "C41",
   "status": "proved",
   "theorems": [
    "Verif.Props.C41_bool_exact",
    "Verif.Props.C41_float_exact",
    "Verif.Props.C41_string_is_text"
   ],
   "note": "Exact characterisation for every text; the float reader is an arbitrary parameter."
  },
  {
   "property": "C42",
   "status": "partial",
   "theorems": [
    "Verif.Props.C42_complete_partial",
    "Verif.Props.C42_flow_pair_false"
   ],
   "note": "Every stream of the token grammar with at most one %TAG per document. The remaining case, a pair without key node inside [ ], is refuted (C42_flow_pair_false); several %TAG directives are refuted by C19_all_apply_false."
  },
  {
   "property": "C43",
   "status": "proved",
   "theorems": [
    "Verif.Props.C43_memory_safe"
   ],
   "note": "Any text, any program: no uninitialised cell is read, no index is out of bounds."
  },
  {
   "property": "C44",
   "status": "partial",
   "theorems": [
    "Verif.Props.C44_roundtrip_partial",
    "Verif.Props.C44_roundtrip_false"
   ],
   "note": "Emitter, scanner, parser and loader composed: every printable tree (local tags only, one per node and none on keys; literal blocks as in C32 and not as keys, scalar keys of at most 1024 bytes, strings not beginning with 0o or +, floats that print with digits and resolve back) loads as itself. The full claim is false: 0o17, floats printed as integers, bad values."
  },
  {
   "property": "C45",
   "status": "partial",
   "theorems": [
    "Verif.Props.C45_access_partial",
    "Verif.Props.C45_write",
    "Verif.Props.C45_tagged_false"
   ],
   "note": "Everything but the treatment of tagged nodes, which are reported bad and whose values no accessor reaches (C45_tagged_false)."
  },
  {
   "property": "C46",
   "status": "partial",
   "theorems": [
    "Verif.Props.C46_json_partial",
    "Verif.Props.C46_json_false"
   ],
   "note": "All JSON texts but those with a lone carriage return as white space, surrogate pairs, or only tabs between a colon and a number or word; those fail (C46_json_false, for all iteration counts)."
  },
  {
   "property": "C47",
   "status": "partial",
   "theorems": [
    "Verif.Props.C47_push_pull_partial",
    "Verif.Props.C47_push_pull_false",
    "Verif.Props.C47_push_pull_exact"
   ],
   "note": "Everything but aliases to anchors of earlier documents, which load refuses and pulling delivers (C47_push_pull_false). C47_push_pull_exact: on a stream that can be pulled to its end, load succeeds if and only if every alias refers to an anchor of its own document, and then sends what is pulled."
  },
  {
   "property": "C48",
   "status": "partial",
   "theorems": [
    "Verif.Props.C48_documents_partial",
    "Verif.Props.C48_documents_false"
   ],
   "note": "Proved for any number of printable documents (see C44) with a line break between them, where only the last may be a lone literal block; the exceptions are proved in C48_documents_false."
  },
  {
   "property": "C49",
   "status": "partial",
   "theorems": [
    "Verif.Props.C49_same_tokens_partial",
    "Verif.Props.C49_same_documents_partial",
    "Verif.Props.C49_loads_same_partial",
    "Verif.Props.C49_line_ends_false"
   ],
   "note": "Proved for all texts without carriage returns on which the scanner does not panic (C08; for the documents: nor loops for ever, C09); for the others the claim is false (C49_line_ends_false)."
  },
  {
   "property": "C50",
   "status": "proved",
   "theorems": [
    "Verif.Props.C50_moved_events",
    "Verif.Props.C50_moved_load",
    "Verif.Props.C50_kinds_decide"
   ],
   "note": ""
  },
  {
   "property": "C51",
   "status": "partial",
   "theorems": [
    "Verif.Props.C51_enum_partial",
    "Verif.Props.C51_enum_false",
    "Verif.Props.C51_fields_after_enums_false",
    "Verif.Props.C51_unit_in_mapping_false",
    "Verif.Props.C51_unit_panics"
   ],
   "note": "Proved, in both directions, for enums (and optional enums, C29) that are the whole document. False elsewhere: after an enum written as a mapping, the end of the mapping is read but not skipped, so the field after it is lost silently, and enums in sequences are errors. A variant without contents written as a mapping panics."
  },
  {
   "property": "C52",
   "status": "partial",
   "theorems": [
    "Verif.Props.C52_unknown_partial",
    "Verif.Props.C52_unknown_false",
    "Verif.Props.C52_denied"
   ],
   "note": "Proved for values that contain no collection as an element of a sequence or as a key of a mapping, and whose scalars resolve. False otherwise: an unknown field with the value [[1]] is an error."
  },
  {
   "property": "C53",
   "status": "partial",
   "theorems": [
    "Verif.Props.C53_typed_json_partial",
    "Verif.Props.C53_strings_are_null",
    "Verif.Props.C53_typed_json_false"
   ],
   "note": "Proved from text to value, through scanner, parser, iterator and deserialiser, for the types of C29/C51 and all texts but those of C46, \"\" and \"null\" for optional values, -0 for unsigned integers, and unknown members with collections inside of arrays. False there: \"null\" as Option<String> is None."
  },
  {
   "property": "C54",
   "status": "partial",
   "theorems": [
    "Verif.Props.C54_block_partial",
    "Verif.Props.C54_block_false"
   ],
   "note": "Proved for all texts of the grammar, anchors, aliases, tags and flow collections included, with the empty string in place of missing nodes (they are null in YAML: the claim is false there, C54_block_false, see C07), without integers with a misplaced sign (C05) and without document markers on indented lines of plain scalars (C55). Texts that begin with a byte order mark are left out: the scanner does not skip it."
  },
  {
   "property": "C55",
   "status": "partial",
   "theorems": [
    "Verif.Props.C55_lines_partial",
    "Verif.Props.C55_item_partial",
    "Verif.Props.C55_value_partial",
    "Verif.Props.C55_lines_false"
   ],
   "note": "Proved for all such scalars, alone, as items and as values (and, with C54, anywhere in block style), without document markers at the beginning of an indented line of a plain scalar: there the claim is false (C55_lines_false)."
  },
  {
   "property": "C56",
   "status": "partial",
   "theorems": [
    "Verif.Props.C56_scroll_partial",
    "Verif.Props.C56_item_partial",
    "Verif.Props.C56_value_partial",
    "Verif.Props.C56_scroll_false"
   ],
   "note": "Proved for all block scalars with content, alone, as items and values with what follows (and, with C54, anywhere in block style); at the end of the text only with content to the left of column 125. For block scalars without content at the end of the text, and for content at column 125 or beyond, the claim is false (C56_scroll_false)."
  },
  {
   "property": "C57",
   "status": "partial",
   "theorems": [
    "Verif.Props.C57_documents_partial",
    "Verif.Props.C57_documents_false"
   ],
   "note": "Proved for all documents in block style as in C54-C56 and C58-C59, with the empty string for what is missing, and where no block scalar with its content in the first column comes before ---. For the latter, and with null for missing documents, the claim is false (C57_documents_false)."
  },
  {
   "property": "C58",
   "status": "partial",
   "theorems": [
    "Verif.Props.C58_flow_partial",
    "Verif.Props.C58_flow_false"
   ],
   "note": "Proved for all flow collections of the grammar (and, with C54 and C57, anywhere in block style and in several documents), with the empty string for what is missing, and without: a key and a value between [ and ]; plain scalars that end with a word - or begin with a colon; a line end between a collection and a colon with no white space after it. Apart from scalars that begin with a colon, the claim is false there in general (C58_flow_false)."
  },
  {
   "property": "C59",
   "status": "partial",
   "theorems": [
    "Verif.Props.C59_node_partial",
    "Verif.Props.C59_alias_partial",
    "Verif.Props.C59_copy_partial",
    "Verif.Props.C59_copy_under_partial",
    "Verif.Props.C59_labels_false"
   ],
   "note": "C59_node_partial: every labelled node; C59_alias_partial: an alias after any items; C59_copy_partial and C59_copy_under_partial: a node and its copy. C54, C57 and C58 have anchors, aliases and tags anywhere in a text. Not covered, because the claim is false (C59_labels_false): !!int before numbers in hexadecimal or octal notation, tags of the core schema other than !!str on quoted scalars, !<tag:yaml.org,2002:...>; keys of block mappings with labels or aliases are not in the grammar."
  },
  {
   "property": "C60",
   "status": "partial",
   "theorems": [
    "Verif.Props.C60_sound",
    "Verif.Props.C60_own_grammar_exact",
    "Verif.Props.C60_grammar_partial",
    "Verif.Props.C60_grammar_false",
    "Verif.Props.C60_text_exact",
    "Verif.Props.C60_text_partial"
   ],
   "note": "C60_grammar_partial: accepted if and only if in the grammar, for all token sequences without KEY directly before VALUE, FLOW-ENTRY or FLOW-SEQUENCE-END and without %TAG directly before another directive; C60_text_partial: the same from the text. The claim for all token sequences is false (C60_grammar_false). C60_own_grammar_exact, C60_text_exact and C60_sound: without any restriction, the parser accepts exactly the grammar with the three rules marked loose added."
  },
  {
   "property": "C61",
   "status": "partial",
   "theorems": [
    "Verif.Props.C61_explicit_partial",
    "Verif.Props.C61_alone_partial",
    "Verif.Props.C61_explicit_false"
   ],
   "note": "Proved for all keys and values within the limits of C54, with the empty string for what is missing, and without tagged keys; `? key` entries may be mixed with `key: value` entries anywhere in block style (C54). A text that ends directly after a `?` is refused (C61_explicit_false)."
  },
  {
   "property": "C62",
   "status": "partial",
   "theorems": [
    "Verif.Props.C62_typed_block_partial",
    "Verif.Props.C62_typed_block_false"
   ],
   "note": "Proved for the types that the deserialiser handles (C29, C51) and for all texts of the typed block grammar within the limits of C54, with integers in decimal notation, null spelled `null` or missing, no empty string and no string `null` for optional values, and unknown fields without collections inside of sequences. Flow sequences and mappings at any depth, explicit documents, directives and `...` are included. Anchors, aliases and tags, pairs in brackets and `?` in flow style are not part of this grammar. False in general: the quoted string \"null\" as Option<String> is None (C62_typed_block_false)."
  },
  {
   "property": "C63",
   "status": "partial",
   "theorems": [
    "Verif.Props.C63_read_back_partial",
    "Verif.Props.C63_collections_panic",
    "Verif.Props.C63_some_null",
    "Verif.Props.C63_negative_zero",
    "Verif.Props.C63_none_default",
    "Verif.Props.C63_read_back_false",
    "Verif.Props.C63_integers_exact",
    "Verif.Props.C63_nan",
    "Verif.Props.C63_char_partial",
    "Verif.Props.C63_char_false",
    "Verif.Props.C63_char_exact"
   ],
   "note": "Proved for all integers of every width (which they are: C63_integers_exact), booleans, floats that are shown as a number that parses back, strings that C30 covers (no quotes, backslashes, line breaks and tabs; either within the line width or without blanks next to each other or at the ends), null with the pretty formatter, and Some of these except Some(\"\") and Some(\"null\"). A character is written so that it loads as that character if and only if it is not NUL, a line feed or a carriage return (C63_char_exact). Sequences, maps, tuples, structs and enums are not written at all: the serialiser panics (C63_collections_panic). False in general: C63_read_back_false, C63_some_null (Some(\"null\") is read as None), C63_negative_zero (-0.0 is read as 0.0), C63_nan (a NaN is read as a string), C63_none_default (with the default formatter None is written as an empty text, which is an error)."
  },
  {
   "property": "C64",
   "status": "partial",
   "theorems": [
    "Verif.Props.C64_never_ok",
    "Verif.Props.C64_fault_partial",
    "Verif.Props.C64_simple",
    "Verif.Props.C64_fault_false",
    "Verif.Props.C64_reserved_false"
   ],
   "note": "C64_never_ok has no condition but iterations enough for the length of the text: no such text loads as documents or is pulled to its end. C64_fault_partial: it gives an error, unless the text is one of those on which the library loops for ever or panics (C08, C09). The full claim is false (C64_fault_false, C64_reserved_false). The mistakes include flow collections left open, at every place of the text (see C69). Missing: other mistakes in flow collections, mistakes after tags and anchors on the same line and in later documents."
  },
  {
   "property": "C65",
   "status": "partial",
   "theorems": [
    "Verif.Props.C65_directives_partial",
    "Verif.Props.C65_directives_false"
   ],
   "note": "Proved for one directive, or %YAML and another one, before any document of the grammar of C54-C59; with C57 before any document of a stream. With two %TAG directives the claim is false (C65_directives_false). Missing: prefixes that are a part of the prefix of the core schema or have it as a part, and percent escapes."
  },
  {
   "property": "C66",
   "status": "partial",
   "theorems": [
    "Verif.Props.C66_events_partial",
    "Verif.Props.C66_text_partial",
    "Verif.Props.C66_unknown_alias_false",
    "Verif.Props.C66_after_value_false"
   ],
   "note": "Proved for handled types (those of C29) without Option, for every text and every parser run: a value is returned only if the parser delivered all the events of a node that denotes it without an error up to there (C66_events_partial, C66_text_partial). Missing: what comes after the value, and options. There the claim is false: C66_unknown_alias_false ({1: *u} reads as {1: Some(1)}), C66_after_value_false ([1] x reads as [1])."
  },
  {
   "property": "C67",
   "status": "partial",
   "theorems": [
    "Verif.Props.C67_equality_partial",
    "Verif.Props.C67_nan_false"
   ],
   "note": "Proved for every comparison of floats: equal exactly if the trees without their floats are the same and the floats at the same places compare equal; equality of trees if the comparison of floats is exact; symmetric and transitive if that is; the clone is the same tree (C67_equality_partial). Missing: a node with a NaN does not equal its clone (C67_nan_false)."
  },
  {
   "property": "C68",
   "status": "partial",
   "theorems": [
    "Verif.Props.C68_reads",
    "Verif.Props.C68_writes_partial",
    "Verif.Props.C68_place_false"
   ],
   "note": "Proved for all reading accessors and the clone (C68_reads) and for all writing ones, tags, bad values, null, keys and take (C68_writes_partial). Missing: setting the place. There the claim is false: with_start, with_end and with_span leave the span as it was (C68_place_false)."
  },
  {
   "property": "C69",
   "status": "partial",
   "theorems": [
    "Verif.Props.C69_tokens_partial",
    "Verif.Props.C69_usual_partial",
    "Verif.Props.C69_unclosed_partial",
    "Verif.Props.C69_error_partial",
    "Verif.Props.C69_balanced_false"
   ],
   "note": "Proved: whatever the tokens, no `[` stays open and the braces balance if the parser comes to the end of the stream (C69_tokens_partial), and all brackets balance if no `?` stands before `]`, `,` or `:` (C69_usual_partial). For texts: a flow collection with more brackets of one kind opened than closed never loads (C69_unclosed_partial) and gives an error (C69_error_partial); at any place of a text in block style, through C64. Too many closing brackets: false, `[? ] ]` loads (C69_balanced_false). Missing for texts: comments, tags, carriage returns and words beginning with `:` in the open collection."
  },
  {
   "property": "C70",
   "status": "partial",
   "theorems": [
    "Verif.Props.C70_never_partial",
    "Verif.Props.C70_error_partial",
    "Verif.Props.C70_crlf_partial",
    "Verif.Props.C70_cut_false"
   ],
   "note": "C70_never_partial: nothing that is left of a JSON array, object or string loads as documents or is pulled to its end, wherever it is cut off, after any spaces, tabs and line feeds and with any number of iterations. C70_error_partial: it gives an error, unless it is among the texts for which C09 is not proved; C70_crlf_partial: also with CR LF line ends. The full claim is false: with a carriage return alone, loading never comes to an end (C70_cut_false)."
  },
  {
   "property": "C71",
   "status": "partial",
   "theorems": [
    "Verif.Props.C71_unclosed_partial",
    "Verif.Props.C71_cut_partial"
   ],
   "note": "C71_cut_partial: for all types without options, a JSON array, object or string that was cut off has no value. C71_unclosed_partial: the same for all flow collections that are left open, without comments, tags, carriage returns and words that begin with `:`. Missing: types with options (there an error may be taken for a value, see C66), structs that ignore unknown fields, carriage returns."
  },
  {
   "property": "C72",
   "status": "partial",
   "theorems": [
    "Verif.Props.C72_from",
    "Verif.Props.C72_written_partial",
    "Verif.Props.C72_written_false"
   ],
   "note": "C72_from is the whole first half. C72_written_partial is the second half for values whose strings and floats survive the emitter (ScalarBack of C44); C72_written_false shows with `0o17` that the restriction is needed."
  },
  {
   "property": "C73",
   "status": "partial",
   "theorems": [
    "Verif.Props.C73_never",
    "Verif.Props.C73_error_partial",
    "Verif.Props.C73_simple",
    "Verif.Props.C73_error_false"
   ],
   "note": "C73_never: a text with a wrong directive at its head never loads and is never pulled to the end of the stream. C73_error_partial: it gives an error, unless it is among the texts for which C09 is not proved. The full claim is false: a debug build panics on a version number above 255 (C73_error_false). Missing: wrong escapes in the prefix of a tag, and directives of later documents."
  },
  {
   "property": "C74",
   "status": "partial",
   "theorems": [
    "Verif.Props.C74_versions",
    "Verif.Props.C74_only",
    "Verif.Props.C74_never",
    "Verif.Props.C74_error_partial"
   ],
   "note": "C74_versions: two %YAML, whatever follows the second. C74_only: directives alone. Both give an error unconditionally, from every way of loading. C74_never: directives and then, at any indentation by spaces, anything else but `---` or a directive in the first column never load, whatever follows; C74_error_partial: that is an error, on the conditions of C09. Missing: tabs and carriage returns directly after the directives, directives of later documents, and the error without conditions (false where C09 is)."
  },
  {
   "property": "C75",
   "status": "partial",
   "theorems": [
    "Verif.Props.C75_places",
    "Verif.Props.C75_order_partial",
    "Verif.Props.C75_order_false",
    "Verif.Props.C75_errors"
   ],
   "note": "C75_places: all events of all texts. C75_errors: all errors of all texts. C75_order_partial: the order of all events but ends of mappings; C75_order_false: in `[? a : [x]]` the end of the mapping is placed before an event pulled earlier."
  },
  {
   "property": "C76",
   "status": "proved",
   "theorems": [
    "Verif.Props.C76_dump",
    "Verif.Props.C76_room_exact",
    "Verif.Props.C76_again"
   ],
   "note": "C76_dump: the result, the calls and their answers, for every writer and after any earlier calls that succeeded. C76_room_exact: with room for n bytes dump succeeds if and only if the text has at most n bytes. C76_again: the level left by an earlier dump has no influence, whatever was written before."
  },
  {
   "property": "C77",
   "status": "proved",
   "theorems": [
    "Verif.Props.C77_serialize",
    "Verif.Props.C77_panics_exact",
    "Verif.Props.C77_room_exact",
    "Verif.Props.C77_char"
   ],
   "note": "C77_serialize: the result, the calls and their answers, for every writer and after any earlier calls that succeeded. C77_panics_exact: which values panic. C77_room_exact: with room for n bytes it succeeds if and only if the text has at most n bytes. C77_char: characters, which are not in the type of values."
  },
  {
   "property": "C78",
   "status": "proved",
   "theorems": [
    "Verif.Props.C78_emitter",
    "Verif.Props.C78_serialize",
    "Verif.Props.C78_dump",
    "Verif.Props.C78_toPrettyString",
    "Verif.Props.C78_char"
   ],
   "note": "C78_emitter, C78_dump, C78_serialize, C78_toPrettyString, C78_char. Assumed of what is outside the code: Display of floats gives valid UTF-8, a formatted value is passed in pieces that are valid UTF-8, and the word splitter (unicode-segmentation) gives valid UTF-8."
  },
  {
   "property": "C79",
   "status": "proved",
   "theorems": [
    "Verif.Props.C79_events",
    "Verif.Props.C79_load",
    "Verif.Props.C79_load_single",
    "Verif.Props.C79_again"
   ],
   "note": "C79_events, C79_load, C79_load_single, C79_again (the last assumes that Display of floats gives valid UTF-8). Builds on C36_token_text_utf8 (tokens) and C78_dump (emitter)."
  }
 ]
}