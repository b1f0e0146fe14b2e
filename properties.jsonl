{"id": "C01", "title": "Base64 round trip", "statement": "Encoding any byte sequence with the base64 encoder and decoding the result gives back exactly the same bytes; the encoded text has length 4*ceil(n/3) and uses only the 64-letter alphabet and '='. Inserting spaces, CR and LF anywhere does not change what is decoded.", "quantifier": "every byte sequence of every length, and every way of inserting blanks/line breaks", "why_tests_cant": "Tests sample a few lengths and contents; the shift/remainder logic depends on the length mod 3 and on every bit of every byte.", "anchors": ["yam-serde/src/binary.rs: encode, decode"]}
{"id": "C02", "title": "Double-quoted output reads back as the same string", "statement": "The double-quoted form the emitter writes for a string, followed by the end of input or by any text that may follow a scalar, is scanned back into one double-quoted scalar token whose value is exactly the original string.", "quantifier": "every string (every byte sequence), every position in a document where a quoted scalar may start", "why_tests_cant": "The escape writer and the escape reader are two separate tables; agreement must hold for every character and every combination (blank runs, line-folding, escapes).", "anchors": ["yam-core/src/saphyr_emitter/mod.rs: escape_str", "yam-core/src/parsing/scanner.rs: scan_flow_scalar, resolve_flow_scalar_escape_sequence"]}
{"id": "C03", "title": "Quoted scalars are always strings", "statement": "A scalar written with single or double quotes, or as a block scalar, and with no tag, loads as a string equal to its text, whatever the text looks like (true, 12, ~, .inf).", "quantifier": "every text and every non-plain scalar style", "why_tests_cant": "The set of texts is unbounded; tests cover a handful of lookalikes.", "anchors": ["yam-core/src/node/scalar.rs: parse_from_cow_and_metadata", "yam-core/src/node/yaml_data.rs: value_from_cow_and_metadata"]}
{"id": "C04", "title": "Unquoted emitted strings do not change type on reload", "statement": "If the emitter decides a string needs no quotes, loading that text as a plain scalar gives back the same string value and not a null, boolean, integer or float.", "quantifier": "every string, every behaviour of the platform's float parser", "why_tests_cant": "The decision to quote and the decision what a plain scalar means are two separate procedures over an infinite domain.", "anchors": ["yam-core/src/saphyr_emitter/mod.rs: need_quotes", "yam-core/src/node/scalar.rs: parse_from_cow, parse_core_schema_fp"]}
{"id": "C05", "title": "Integers print and read back", "statement": "Every 64-bit integer, emitted as a scalar and loaded as a plain scalar, is the same integer. Decimal, hexadecimal (0x) and octal (0o) plain scalars resolve to the integer they denote when it fits 64 bits, and never to a different integer.", "quantifier": "every 64-bit integer and every digit string", "why_tests_cant": "2^64 values and unbounded digit strings with overflow edges.", "anchors": ["yam-core/src/node/scalar.rs: parse_from_cow", "yam-core/src/saphyr_emitter/mod.rs: emit_node"]}
{"id": "C06", "title": "Core-schema tags fix the scalar's type", "statement": "A scalar tagged !!str loads as a string equal to its text; !!bool, !!int, !!float and !!null load as a value of exactly that type or are reported as a bad value; they never silently become a value of another type.", "quantifier": "every text, every core tag", "why_tests_cant": "Unbounded texts crossed with every tag.", "anchors": ["yam-core/src/node/scalar.rs: parse_from_cow_and_metadata", "yam-core/src/node/yaml_data.rs: value_from_cow_and_metadata"]}
{"id": "C07", "title": "Empty nodes are null", "statement": "A node with no content (`a:` with nothing after it, `[?]`, an empty document) loads as null.", "quantifier": "every position in which an empty node can occur", "why_tests_cant": "Empty nodes are synthesised by many separate parser states.", "anchors": ["yam-core/src/node/scalar.rs: parse_from_cow", "yam-core/src/parsing/parser.rs: Event::empty_scalar"]}
{"id": "C08", "title": "Scanning never panics", "statement": "For every input text, pulling tokens until the end of the stream or an error never panics, indexes out of bounds, or hits an unreachable branch.", "quantifier": "every input byte sequence, every number of tokens pulled", "why_tests_cant": "The inputs are unbounded and the state (indent stack, simple-key stack, token queue) depends on the whole history.", "anchors": ["yam-core/src/parsing/scanner.rs: Scanner::next_token, fetch_more_tokens, insert_token, unroll_indent", "yam-core/src/parsing/source.rs: StrSource::peek_char"]}
{"id": "C09", "title": "Scanning always finishes", "statement": "For every finite input, pulling tokens reaches either StreamEnd or an error after finitely many steps.", "quantifier": "every input byte sequence", "why_tests_cant": "A loop that makes no progress shows only on the inputs that trigger it; fuzzing cannot tell slow from infinite.", "anchors": ["yam-core/src/parsing/scanner.rs: skip_to_next_token, skip_linebreak, scan_flow_scalar, scan_plain_scalar, skip_block_scalar_indent"]}
{"id": "C10", "title": "Positions are exact and inside the input", "statement": "Every token's and error's position lies between 0 and the input length, a token's span starts no later than it ends, and tokens come out in non-decreasing order of start except for tokens inserted retroactively at a simple key.", "quantifier": "every input, every token", "why_tests_cant": "Position counters are updated at dozens of places independently of the input cursor; one wrong increment shows only on specific byte patterns.", "anchors": ["yam-core/src/parsing/scanner.rs: skip_blank, skip_non_blank, skip_linebreak, Marker", "yam-core/src/parsing/source.rs: Source::skip"]}
{"id": "C11", "title": "Block starts and ends balance", "statement": "In the token stream of every input scanned to its end, each block sequence/mapping start has exactly one block end, properly nested, and none is left open at StreamEnd; at no point are there more ends than starts.", "quantifier": "every input scanned to completion and every prefix of its token stream", "why_tests_cant": "Depends on the whole history of indents.", "anchors": ["yam-core/src/parsing/scanner.rs: roll_indent, unroll_indent, unroll_non_block_indents, fetch_stream_end"]}
{"id": "C12", "title": "Stream end is final and errors latch in the token iterator", "statement": "Once the scanner has returned StreamEnd every further pull returns StreamEnd again (the iterator: None); once the iterator has yielded an error it yields nothing more, and the same error stays available.", "quantifier": "every input and every number of further pulls", "why_tests_cant": "Needs every continuation after every reachable end state.", "anchors": ["yam-core/src/parsing/scanner.rs: next_token, Iterator::next, get_error"]}
{"id": "C13", "title": "Parser events are well nested", "statement": "For every token stream, the events produced until StreamEnd form: StreamStart, then documents (DocumentStart, exactly one complete node, DocumentEnd), then StreamEnd, where a node is a scalar, an alias, a sequence of nodes or a mapping of an even number of nodes. Before an error, the events are a prefix of such a stream.", "quantifier": "every sequence of tokens, well formed or not, and every prefix of the event stream", "why_tests_cant": "Event nesting depends on a stack of parser states of unbounded depth.", "anchors": ["yam-core/src/parsing/parser.rs: state_machine, parse_node, block_mapping_key, flow_sequence_entry, ..."]}
{"id": "C14", "title": "The parser never panics on any token stream", "statement": "Whatever tokens the scanner delivers, the parser returns an event or an error; it never unwraps a missing token, pops an empty state stack, or reaches an unreachable branch.", "quantifier": "every sequence of tokens and every number of pulls", "why_tests_cant": "Each state makes assumptions about the state stack and current token established arbitrarily long before.", "anchors": ["yam-core/src/parsing/parser.rs: pop_state, fetch_token, peek_token, load_node, load_document"]}
{"id": "C15", "title": "Peeking does not change what is read", "statement": "Peeking at the next event any number of times returns the same event and does not alter the sequence of events later delivered.", "quantifier": "every parser state and every interleaving of peeks and nexts", "why_tests_cant": "Every interleaving of two operations over every state.", "anchors": ["yam-core/src/parsing/parser.rs: Parser::peek, Parser::next_event"]}
{"id": "C16", "title": "Event stream end is final", "statement": "After StreamEnd has been delivered, pulling further events yields None for ever, and none is delivered after it.", "quantifier": "every input and every number of further pulls", "why_tests_cant": "Every continuation after every end state.", "anchors": ["yam-core/src/parsing/parser.rs: next_event, next_event_impl"]}
{"id": "C17", "title": "Anchors are numbered uniquely and aliases resolve to the most recent anchor", "statement": "Each anchor definition gets a number never used before in the stream (1,2,3,...), and an alias event carries the number of the most recent earlier definition of that name; an alias to an undefined name is an error.", "quantifier": "every token stream, every interleaving of definitions and aliases", "why_tests_cant": "Depends on the full history of definitions, including redefinitions.", "anchors": ["yam-core/src/parsing/parser.rs: register_anchor, parse_node, get_anchor"]}
{"id": "C18", "title": "Anchors do not leak between documents", "statement": "An alias in one document never resolves to an anchor defined in an earlier document.", "quantifier": "every multi-document stream, both the pull and the push API", "why_tests_cant": "Needs every pair of documents.", "anchors": ["yam-core/src/parsing/parser.rs: load, load_document, document_end, next_event", "yam-core/src/prelude/loader.rs: anchor_map"]}
{"id": "C19", "title": "All %TAG directives of a document take effect, duplicates are rejected", "statement": "Every %TAG directive before a document applies to all of that document's tags; two directives for one handle are an error; a second %YAML directive is an error; without keep_tags directives do not carry over to later documents.", "quantifier": "every list of directives, every document", "why_tests_cant": "Order and number of directives are unbounded.", "anchors": ["yam-core/src/parsing/parser.rs: process_directives, resolve_tag, document_end"]}
{"id": "C20", "title": "Percent escapes in tags decode as UTF-8", "statement": "A tag URI's %XX escapes decode to the characters whose UTF-8 bytes they spell.", "quantifier": "every Unicode character", "why_tests_cant": "1.1 million characters across four encoded lengths.", "anchors": ["yam-core/src/parsing/scanner.rs: scan_uri_escapes"]}
{"id": "C21", "title": "The loader builds exactly the tree described by the events", "statement": "Loading yields one document per document in the stream, in order, and each is the tree the events describe: same shape, same order, same keys, same scalars; nothing lost, merged or shifted.", "quantifier": "every well-nested event stream", "why_tests_cant": "Trees are unbounded in depth and width; the loader uses two hand-maintained stacks.", "anchors": ["yam-core/src/prelude/loader.rs: on_event, insert_new_node"]}
{"id": "C22", "title": "An alias loads as a copy of the node it refers to", "statement": "An alias to a completed anchored node loads as a value equal to that node; later redefinition of the anchor does not change earlier copies.", "quantifier": "every event stream, every anchor/alias arrangement", "why_tests_cant": "Every arrangement of anchors and aliases in unbounded trees.", "anchors": ["yam-core/src/prelude/loader.rs: on_event, insert_new_node"]}
{"id": "C23", "title": "Indexing for reading and for writing agree", "statement": "For every node and index, x[i] read and &mut x[i] refer to the same element: writing through the mutable index and reading back gives the written value and leaves the other elements unchanged.", "quantifier": "every node and index for which reading does not panic", "why_tests_cant": "Every node shape and every index.", "anchors": ["yam-core/src/node/yaml.rs: Index, IndexMut, get"]}
{"id": "C24", "title": "The buffered source behaves like the string source", "statement": "Reading through the buffered iterator source observes the same bytes, positions, skips and copies as reading through the in-memory source.", "quantifier": "every input, every sequence of source operations", "why_tests_cant": "Differences show only at buffer-size boundaries after particular operation histories.", "anchors": ["yam-core/src/parsing/buffered_source.rs: BufferedBytesSource", "yam-core/src/parsing/source.rs: StrSource"]}
{"id": "C25", "title": "SIMD byte masks match the per-byte definition", "statement": "The bit mask computed for a 32-byte (and 16-byte) block has bit i set exactly when byte i satisfies the comparison, and the blank/break table classifies every byte value as the scalar predicates do.", "quantifier": "every block of bytes, every compared byte", "why_tests_cant": "256^32 blocks.", "anchors": ["yam-core/src/util/u8x32.rs: comp_to_bitmask, to_bitmask, swizzle", "yam-core/src/util/u8x16.rs: to_bitmask", "yam-core/src/util/mod.rs: LOW_NIBBLE_WS, HIGH_NIBBLE_WS"]}
{"id": "C26", "title": "Display escaping is lossless", "statement": "The escaped form of a byte string is free of raw tab, CR and LF, and different byte strings have different escaped forms (it can be undone).", "quantifier": "every byte string", "why_tests_cant": "Injectivity over an infinite domain.", "anchors": ["yam-core/src/escaper.rs: escape, escape_plain, escape_single_quotes"]}
{"id": "C27", "title": "The expansion limit counts scalar leaves", "statement": "The computed expansion size of a value is the number of its scalar leaves, so a value is expandable under a limit exactly when it has fewer leaves than the limit.", "quantifier": "every value tree", "why_tests_cant": "Unbounded trees.", "anchors": ["yam-core/src/lazy_expander.rs: calculate_limit, can_expand"]}
{"id": "C28", "title": "The event iterator delivers every event", "statement": "Iterating over a source's events with the convenience iterator delivers the parser's events, in order, all of them, until the end of the stream, or an error.", "quantifier": "every event stream", "why_tests_cant": "Every stream; the skipped events occur only in some.", "anchors": ["yam-core/src/parsing/parser_iter.rs: ParserIter::next"]}
{"id": "C29", "title": "Typed deserialisation consumes exactly its node", "statement": "Deserialising a typed value reads exactly the events of the one node it is given and returns the value those events denote, so the values after it are read correctly.", "quantifier": "every type/value built from scalars, options, sequences, fixed-size tuples and maps", "why_tests_cant": "Nesting is unbounded; the peek/last-event protocol is a hidden state machine.", "anchors": ["yam-serde/src/de.rs: next_el, deserialize_seq, deserialize_map, deserialize_option"]}
{"id": "C30", "title": "Serialised strings read back", "statement": "The serialiser's output for a string is a YAML scalar that loads as that same string.", "quantifier": "every string, every line-width setting", "why_tests_cant": "Quote, backslash, line-break and wrapping interactions over all strings.", "anchors": ["yam-serde/src/ser.rs: serialize_str, write_double_quote_multi", "yam-serde/src/escape_str.rs"]}
{"id": "C31", "title": "String escaping never panics", "statement": "Escaping any byte string for double-quoted output returns a result.", "quantifier": "every byte string", "why_tests_cant": "Truncated escapes at the end of the input.", "anchors": ["yam-serde/src/escape_str.rs: escape_double_quotes"]}
{"id": "C32", "title": "Literal block output reads back", "statement": "A multi-line string the emitter chooses to write as a literal block loads as the same string.", "quantifier": "every string accepted for literal-block output", "why_tests_cant": "Trailing breaks, blank lines and indentation interact for every string.", "anchors": ["yam-core/src/saphyr_emitter/mod.rs: emit_literal_block", "yam-core/src/parsing/mod.rs: is_valid_literal_block_scalar", "yam-core/src/parsing/scanner.rs: scan_block_scalar"]}
{"id": "C33", "title": "Tags survive emit and reload", "statement": "A tag printed by the emitter, scanned and resolved again in the same document context, is the same tag.", "quantifier": "every handle and suffix", "why_tests_cant": "Every handle/suffix pair.", "anchors": ["yam-core/src/parsing/mod.rs: Tag Display", "yam-core/src/saphyr_emitter/mod.rs: emit_node", "yam-core/src/parsing/parser.rs: resolve_tag"]}
{"id": "C34", "title": "Emitting keeps indentation balanced", "statement": "After emitting any value the emitter's nesting level is what it was before; every line of a nested value is indented by best_indent times its depth; each value emits in finite time.", "quantifier": "every value tree", "why_tests_cant": "Unbounded trees.", "anchors": ["yam-core/src/saphyr_emitter/mod.rs: emit_node, emit_sequence, emit_mapping, emit_val"]}
{"id": "C35", "title": "Loading one document returns the first of all documents", "statement": "Loading a single document returns the first document of loading all, an error exactly when loading all errors, and the no-document error exactly when there is none.", "quantifier": "every event stream", "why_tests_cant": "Every stream.", "anchors": ["yam-core/src/prelude/loader.rs: load_single, load_from"]}
{"id": "C36", "title": "Token text is valid UTF-8", "statement": "If the input is valid UTF-8, every scalar, anchor, tag and directive text handed out (built without checking) is valid UTF-8.", "quantifier": "every valid UTF-8 input", "why_tests_cant": "Depends on every place where the scanner cuts the input.", "anchors": ["yam-core/src/parsing/scanner.rs: from_utf8_unchecked uses"]}
{"id": "C37", "title": "%YAML version numbers are read exactly", "statement": "A %YAML a.b directive yields exactly the numbers written, or an error if they are out of range.", "quantifier": "every digit string", "why_tests_cant": "Digit strings are unbounded and the counter is 8 bits.", "anchors": ["yam-core/src/parsing/scanner.rs: scan_version_directive_number"]}
{"id": "C38", "title": "Character classes partition as documented", "statement": "The byte classes used for scanning obey: breaks, blanks and other bytes are disjoint; every anchor character is printable non-flow; tag characters are URI characters that are neither flow indicators nor '!'; hex digits convert to their value.", "quantifier": "all 256 byte values", "why_tests_cant": "Finite, but each class is used as a promise for every byte of every input.", "anchors": ["yam-core/src/parsing/char_utils.rs"]}
{"id": "C39", "title": "A finite input gives finitely many events", "statement": "The number of events delivered is bounded by a linear function of the number of tokens, so pulling until an error or the end always stops.", "quantifier": "every sequence of tokens and every number of pulls", "why_tests_cant": "A state machine could emit empty nodes for ever on an input nobody tried.", "anchors": ["yam-core/src/parsing/parser.rs: Parser::next_event, state_machine"]}
{"id": "C40", "title": "Scalars pass through the parser unchanged and in order", "statement": "The scalar events delivered are exactly the scalar tokens consumed, in order and with the same style and text, plus empty plain scalars for omitted nodes. No scalar is lost, duplicated, reordered or altered.", "quantifier": "every sequence of tokens, every prefix of the event stream", "why_tests_cant": "Every state of the parser may drop or repeat a token, in unboundedly many contexts.", "anchors": ["yam-core/src/parsing/parser.rs: Parser::parse_node"]}
{"id": "C41", "title": "Plain booleans, floats and strings resolve exactly as the core schema says", "statement": "A plain untagged scalar loads as a boolean exactly for true/True/TRUE/false/False/FALSE, as a float exactly if it is not an integer and is one of the special spellings or accepted by the decimal reader, and otherwise, if not null or integer, as a string equal to its own text; it never loads as a collection, alias or bad value.", "quantifier": "every byte string", "why_tests_cant": "The set of texts is unbounded and each spelling list can be wrong in one member.", "anchors": ["yam-core/src/prelude/yaml.rs: YamlData parse_from_cow", "yam-core/src/prelude/mod.rs"]}
{"id": "C42", "title": "The parser accepts every token stream of the YAML token grammar and delivers the events it stands for", "statement": "For every token stream derivable in the (libyaml) grammar of YAML token streams - documents with or without directives, block, indentless and flow collections, single-pair mappings, anchors, tags, aliases and omitted nodes at any depth - pulling events succeeds and yields exactly the events the derivation assigns: nothing is rejected, no event is missing, and each omitted node is one empty scalar at the right place.", "quantifier": "every derivation of the token grammar, any nesting and length, any token positions", "why_tests_cant": "Derivations are unboundedly deep and every parser state has its own lookahead test that may miss a case.", "anchors": ["yam-core/src/parsing/parser.rs: Parser::next_event", "yam-core/src/parsing/parser.rs: Parser::state_machine"]}
{"id": "C43", "title": "The buffered source is memory safe", "statement": "Whatever bytes the iterator yields and whatever operations a caller performs on the buffered source, it never reads a buffer cell that has not been written nor indexes outside its buffer; a debug assertion fails only for a peek at or beyond the buffer size.", "quantifier": "every input, every sequence of source operations", "why_tests_cant": "Reading uninitialised memory usually goes unnoticed, and which cells are initialised depends on the whole history of skips and refills.", "anchors": ["yam-core/src/parsing/buffered_source.rs: BufferedBytesSource::fill_buf_to_max, get_max_buf, get_buf, peek_unsafe, skip"]}
{"id": "C44", "title": "A tree that is written and loaded again is the same tree", "statement": "Dumping a tree of sequences, mappings and scalars with the emitter and loading the text (load_from or load_single) gives exactly one document, equal to the tree: same nesting, same order of items and entries, same scalar types and values. Keys may be collections; the compact setting does not matter.", "quantifier": "every tree of any size and depth, every string in it, both compact settings", "why_tests_cant": "The result depends on indentation, quoting and the scanner's context at every nesting level; trees are unbounded, and each combination of parent and child kind at each depth is a separate layout.", "anchors": ["yam-core/src/saphyr_emitter/mod.rs: YamlEmitter::dump", "yam-core/src/prelude/loader.rs: YamlLoader::load_from, load_single", "yam-core/src/parsing/scanner.rs: Scanner::fetch_next_token", "yam-core/src/parsing/parser.rs: Parser::load"]}
{"id": "C45", "title": "Type predicates and accessors of a node agree", "statement": "Exactly one of the predicates is_bad_value, is_null, is_string, is_bool, is_floating_point, is_integer, is_alias, is_mapping, is_sequence holds of a node, is_bad_value only of a bad value; as_*, into_*, sequence() and mapping() succeed exactly on nodes of their kind and return its value; writing through as_*_mut and reading gives the written value; take returns the node and leaves a bad value; a tag does not change the kind.", "quantifier": "every node, every accessor, every written value", "why_tests_cant": "Nodes are unbounded trees with arbitrary values; each accessor is a separate match over all variants.", "anchors": ["yam-core/src/prelude/mod.rs: YamlDocAccess", "yam-core/src/node/yaml.rs: impl YamlDocAccess for Yaml", "yam-core/src/node/yaml_data.rs: get_type"]}
{"id": "C46", "title": "JSON texts load as the values they stand for", "statement": "Every JSON text (RFC 8259: values, white space, escapes, numbers, nested arrays and objects) loads as exactly one document, and its tree is the JSON value: strings with their escapes decoded, integers that fit 64 bits as integers, other numbers as the float their text stands for, arrays as sequences, objects as mappings with the members in order.", "quantifier": "every JSON text of any size and nesting depth", "why_tests_cant": "JSON texts are an unbounded recursive language; a sample of texts says nothing about other white space, escapes, nesting and neighbours of the values.", "anchors": ["yam-core/src/parsing/scanner.rs: fetch_next_token, fetch_flow_scalar, fetch_plain_scalar, fetch_value, fetch_flow_entry, fetch_flow_collection_start", "yam-core/src/parsing/parser.rs: Parser::load", "yam-core/src/prelude/loader.rs: YamlLoader::load_from, load_single"]}
{"id": "C47", "title": "The push interface sends what the pull interface gives", "statement": "Parser::load with multi sends to its receiver exactly the events, with the same spans and in the same order, that next_event returns one after the other on the same input; it succeeds exactly when pulling reaches the end of the stream and otherwise fails with the same error after the same events.", "quantifier": "every token stream (so every text), with every way it can end", "why_tests_cant": "The two interfaces are driven by different code (a recursive descent over nodes against a state machine) and must agree on every stream, including every malformed one.", "anchors": ["yam-core/src/parsing/parser.rs: Parser::load, load_document, load_node, load_mapping, load_sequence, next_event, next_event_impl"]}
{"id": "C48", "title": "Documents written one after the other load again as those documents", "statement": "If several trees are emitted with YamlEmitter::dump, each text on lines of its own, then loading the whole text with YamlLoader yields exactly those trees, as many documents as were written and in the same order.", "quantifier": "all lists of trees, of any number, size and depth, all emitter settings", "why_tests_cant": "The number and shape of documents are unbounded; how each document ends decides how the next `---` is read, so every pair of neighbouring documents is a new case.", "anchors": ["yam-core/src/parsing/scanner.rs: Scanner::fetch_document_indicator", "yam-core/src/parsing/scanner.rs: Scanner::scan_block_scalar", "yam-core/src/parsing/parser.rs: Parser::load", "yam-core/src/prelude/loader.rs: YamlLoader::load_from", "yam-core/src/saphyr_emitter/mod.rs: YamlEmitter::dump"]}
{"id": "C49", "title": "A text loads the same with either kind of line ends", "statement": "If every line feed of a text (that has no carriage returns) is replaced by a carriage return and a line feed, then the scanner produces the same tokens with the same contents on the same lines and columns, and loading produces the same documents, or the same error at the same line and column.", "quantifier": "all texts without carriage returns, of any length", "why_tests_cant": "Line breaks matter in every scalar style, in folding, indentation, comments and simple keys; the combinations of these with the two kinds of line ends are unbounded.", "anchors": ["yam-core/src/parsing/scanner.rs: Scanner::skip_linebreak", "yam-core/src/parsing/scanner.rs: Scanner::scan_block_scalar", "yam-core/src/parsing/scanner.rs: Scanner::scan_plain_scalar", "yam-core/src/parsing/scanner.rs: Scanner::scan_flow_scalar", "yam-core/src/parsing/scanner.rs: Scanner::stale_simple_keys"]}
{"id": "C50", "title": "Where the tokens stand does not matter to the parser", "statement": "The parser uses the positions of tokens only to report them: if the tokens are moved to other positions, in whatever way, the parser produces the same events, moved in the same way, and ends in the same way; the loaded documents are the same.", "quantifier": "all sequences of tokens, all functions moving positions, both interfaces of the parser and both ways of loading", "why_tests_cant": "There are infinitely many sequences of tokens and ways to move them.", "anchors": ["yam-core/src/parsing/parser.rs: Parser::next_event", "yam-core/src/parsing/parser.rs: Parser::load", "yam-core/src/prelude/loader.rs: YamlLoader::load_from_parser", "yam-core/src/prelude/loader.rs: YamlLoader::load_single_from_parser"]}
{"id": "C51", "title": "Enums deserialise", "statement": "Deserialising a document into a type with enums gives, for a scalar with the name of a variant without contents, that variant, and for a mapping with one entry from the name of a variant to its contents, that variant with those contents; nothing else deserialises, and there is no panic.", "quantifier": "all enum types with unit, newtype, tuple and struct variants, wherever they are in the type asked for, all documents", "why_tests_cant": "There are infinitely many types and documents; the tests deserialise one enum as a whole document.", "anchors": ["yam-serde/src/de.rs: YamIterDeserializer::deserialize_enum", "yam-serde/src/de.rs: Enum"]}
{"id": "C52", "title": "Unknown fields are ignored", "statement": "A field that a struct does not declare does not change what a document deserialises to, whatever its value, unless the struct denies unknown fields; in that case no document with such a field deserialises.", "quantifier": "all struct types, all documents, all values and places of the unknown field", "why_tests_cant": "There are infinitely many types and documents; no test has an unknown field.", "anchors": ["yam-serde/src/de.rs: YamIterDeserializer::deserialize_any", "yam-serde/src/de.rs: SeqCollection"]}
{"id": "C53", "title": "JSON texts deserialise", "statement": "from_str on a JSON text that stands for a value of a Rust type (structs as objects, tuples as arrays, None as null, enums by name) gives that value, whatever the white space, escapes, order of the members and unknown members.", "quantifier": "all types built from the integer types, floats, booleans, strings, unit, Option, Vec, maps, tuples, structs and enums; all JSON texts of values of the type", "why_tests_cant": "There are infinitely many types and texts; the tests try a dozen YAML snippets.", "anchors": ["yam-serde/src/lib.rs: from_str", "yam-serde/src/de.rs: YamIterDeserializer", "yam-core/src/parsing/parser_iter.rs: ParserIter::next", "yam-core/src/parsing/scanner.rs: Scanner::next_token"]}
{"id": "C54", "title": "Hand-written block YAML loads as the tree it denotes", "statement": "A text in block style - nested block sequences and mappings with any consistent indentation, comments, blank lines, spaces before the colon, sequences in the column of their key, keys after `?`, plain, single-quoted or double-quoted scalars on one or several lines, block scalars, flow collections, anchors, aliases and tags - loads as exactly one document, which is the tree the text stands for; a missing node is null.", "quantifier": "all texts of the block-style grammar in Verif/Spec/Block.lean, of any size and depth, with any layout", "why_tests_cant": "Layout, nesting and scalars combine in unboundedly many ways, and the scanner decides each token from its indentation stack and the simple keys it remembers; the test suite has a few hundred fixed files.", "anchors": ["yam-core/src/parsing/scanner.rs: Scanner::next_token, fetch_next_token, skip_to_next_token, unroll_indent, roll_indent, fetch_block_entry, fetch_value, scan_plain_scalar", "yam-core/src/parsing/parser.rs: Parser::next_event", "yam-core/src/prelude/loader.rs: YamlLoader::load_from"]}
{"id": "C55", "title": "Scalars over several lines are folded", "statement": "A plain, double-quoted or single-quoted scalar written over several lines loads as the text with its lines joined: one line end (with the spaces around it) stands for a space, a line end and m empty lines for m line feeds, in double quotes a line end after a backslash for nothing; every one-character and numeric escape stands for its character. This holds for a document, an item of a sequence and the value of a key, wherever the continuation lines are indented far enough.", "quantifier": "all plain and quoted scalars of any number of lines, words, empty lines and indentation", "why_tests_cant": "The number and the shape of the lines are unbounded, and the scanner keeps white space, line ends and empty lines in four buffers whose state depends on everything since the last word.", "anchors": ["yam-core/src/parsing/scanner.rs: Scanner::scan_plain_scalar, scan_flow_scalar, consume_flow_scalar_non_whitespace_chars, resolve_flow_scalar_escape_sequence, skip_linebreak"]}
{"id": "C56", "title": "Block scalars load as the text they stand for", "statement": "A literal (|) or folded (>) block scalar loads as its lines without their indentation: each line end of a literal one is kept; in a folded one a line end between two lines that do not begin with white space becomes a space (or, with m empty lines, m line feeds) and all others are kept. The line ends at the end are removed with -, reduced to one without a sign, kept with +. The indentation is that of the first line that is not empty, or given by the digit. This holds for a document, an item and the value of a key, and other items and entries may follow.", "quantifier": "all block scalars: any number and shape of lines, empty lines, indentation, header", "why_tests_cant": "Lines, empty lines and indentations are unbounded; the scanner detects the indentation over a prefix of any length and folds depending on the lines on both sides.", "anchors": ["yam-core/src/parsing/scanner.rs: Scanner::scan_block_scalar, skip_block_scalar_indent, skip_block_scalar_first_line_indent, scan_block_scalar_content_line"]}
{"id": "C57", "title": "A text with several documents loads as their values", "statement": "A text with any number of documents in block style, with flow collections, anchors, aliases and tags, each bare or after ---, with or without directives, with its content on the line of the marker, below it or missing, and perhaps ended by ..., loads as the list of the values of the documents, in order. After ... the next document may be bare and may begin at any column. A text with nothing but comments and empty lines has no documents.", "quantifier": "all streams: any number of documents of any size, with comments and empty lines between them", "why_tests_cant": "The number and the size of the documents are unbounded; a marker ends scalars and collections of any depth, and the state of the scanner and parser has to be as new after every one.", "anchors": ["yam-core/src/parsing/scanner.rs: Scanner::fetch_next_token, fetch_document_indicator, unroll_indent", "yam-core/src/parsing/parser.rs: Parser::document_start, document_content, document_end", "yam-core/src/prelude/loader.rs: load_from"]}
{"id": "C58", "title": "Flow collections load as the values they stand for", "statement": "A sequence in [ ] or a mapping in { }, nested to any depth, on one or several lines, with comments between its tokens, plain and quoted scalars over several lines, keys without values, values directly after the colon of a quoted key or of a collection, anchors, aliases and tags, and perhaps a comma at the end, loads as the value it stands for; in block style and in texts with several documents as well.", "quantifier": "all flow collections: any depth, any number of items, any layout", "why_tests_cant": "The depth and the number of items are unbounded, and so are the spaces, line ends and comments between any two tokens; whether a colon is a value indicator depends on what came before it, and simple keys, the state of implicit mappings and indentation have to be right again after every bracket.", "anchors": ["yam-core/src/parsing/scanner.rs: Scanner::fetch_flow_collection_start, fetch_flow_collection_end, fetch_flow_entry, fetch_flow_value, fetch_value, scan_plain_scalar, skip_to_next_token", "yam-core/src/parsing/parser.rs: Parser::flow_sequence_entry, flow_mapping_key, flow_mapping_value"]}
{"id": "C59", "title": "Anchors, aliases and tags mean what they say", "statement": "In hand-written YAML an alias loads as a copy of the value of the last node before it in the same document that has the anchor of that name. A node with a tag of the core schema is read as that tag says, and any other tag is kept with the value. Anchor and tag may come in either order, before a scalar, a block scalar or a flow collection on the same line, above any node on a later line, before a sequence in the column of its key, inside flow collections, after ---, or before nothing at all.", "quantifier": "all texts of the grammar in Verif/Spec/Block.lean: any names and tags, any number of them at any depth, several documents, anchors defined again", "why_tests_cant": "Names are resolved against everything that came before in the document; anchors may be defined again, nest inside the nodes of other anchors and be used any number of times, at any depth and in any layout.", "anchors": ["yam-core/src/parsing/scanner.rs: Scanner::fetch_anchor, scan_anchor, fetch_tag, scan_tag, scan_verbatim_tag, scan_tag_handle, scan_tag_shorthand_suffix", "yam-core/src/parsing/parser.rs: Parser::parse_node, register_anchor, resolve_tag, load", "yam-core/src/prelude/loader.rs: on_event, insert_new_node", "yam-core/src/node/yaml_data.rs: value_from_cow_and_metadata"]}
{"id": "C60", "title": "The parser refuses every token stream outside the YAML token grammar", "statement": "If events can be pulled from a token stream, or from a text, to the end without an error, then the tokens are a stream of the (libyaml) grammar of YAML token streams, and the events are exactly those that a derivation assigns to them. A stream with an unclosed or wrongly closed collection, a separator too many, an alias to a name without an anchor, an undeclared tag handle, two properties of one kind on a node, a second %YAML directive or directives without --- ends with an error.", "quantifier": "all sequences of tokens, whether or not a scanner could produce them, and all texts", "why_tests_cant": "Malformed inputs cannot be listed: each of the twenty-odd parser states has its own list of tokens it takes, and any one too many lets some malformed document through at some depth.", "anchors": ["yam-core/src/parsing/parser.rs: Parser::next_event, state_machine, parse_node, block_mapping_key, block_mapping_value, block_sequence_entry, indentless_sequence_entry, flow_mapping_key, flow_mapping_value, flow_sequence_entry, flow_sequence_entry_mapping_key, document_start, parser_process_directives, document_end"]}
{"id": "C61", "title": "Keys after a question mark", "statement": "In block style, `?` with a key of any kind - a scalar over several lines, a block scalar, a sequence or a mapping in block or flow style, an alias, nothing - and, on a later line, `:` with a value of any kind load as an entry of a mapping with that key and that value; without the `:`, the value is null. The key or value comes on the same line, further right on a later line, or, if it is a sequence, in the same column on a later line.", "quantifier": "all keys and values of the block grammar, nested to any depth, and all layouts between them", "why_tests_cant": "Keys and values are themselves nodes of any depth, and the scanner decides by columns and simple-key state alone whether a colon belongs to the question mark above it, to a key inside of it, or to nothing.", "anchors": ["yam-core/src/parsing/scanner.rs: Scanner::fetch_key, fetch_value, skip_yaml_whitespace, roll_indent, roll_one_col_indent", "yam-core/src/parsing/parser.rs: Parser::block_mapping_key, block_mapping_value"]}
{"id": "C62", "title": "from_str on YAML in block style", "statement": "`from_str` on a YAML document in block style gives the value of the Rust type that the text stands for: structs from mappings with their fields in any order and unknown fields left out, Vec and tuples from `-` items or from brackets, maps and structs from entries or from braces, Option and () from null or a missing value, enums from the name of a variant or from a mapping with one entry, and integers, booleans, floats and strings from scalars in all styles, including several lines and block scalars. Flow collections nest at any place, and the document may begin with `---`, with directives before it, and end with `...`.", "quantifier": "all Rust types described by the model (integers of every width, booleans, floats, strings, unit, options, sequences, maps, tuples, structs, enums, nested to any depth), all texts in block style, with flow collections inside, that stand for a value of the type, all layouts, comments and indentations", "why_tests_cant": "The types and the texts both nest to any depth, and every layout of one value (indentation, items beside or under a key, flow or block style, comments, styles of scalars, markers) has to give the same value.", "anchors": ["yam-serde/src/lib.rs: from_str", "yam-serde/src/de.rs: YamIterDeserializer, SeqAccess, MapAccess, EnumAccess", "yam-core/src/parsing/scanner.rs: Scanner", "yam-core/src/parsing/parser.rs: Parser::next_event_impl"]}
{"id": "C63", "title": "to_pretty_string and from_str are inverse", "statement": "A value of a Rust type that `to_pretty_string` writes is read back by `from_str` as the same value of that type.", "quantifier": "all Rust types described by the model, all values of them, both formatters", "why_tests_cant": "There are infinitely many strings and nested values, and each depends on the line width at which the serialiser wraps and on how the scanner folds and resolves what was written.", "anchors": ["yam-serde/src/ser.rs: Serializer, Formatter", "yam-serde/src/lib.rs: to_pretty_string, from_str", "yam-serde/src/de.rs: YamIterDeserializer"]}
{"id": "C64", "title": "A mistake in a text is reported, wherever it stands", "statement": "If a text is in block style up to some place and has a mistake there, then loading it gives an error and no documents, and pulling events never reaches the end of the stream, whatever the rest of the text is. Mistakes are: a reserved character where a node ought to be, a quotation mark that is not closed, an escape that does not exist or has too few digits, something after a closed quoted scalar or after the header of a block scalar, an anchor or alias without a name, a block scalar with indentation 0, a block sequence or mapping on the line of its key, and a line without a colon among the entries of a mapping.", "quantifier": "every text with a mistake at any depth of nested block sequences and mappings, after any number of correct items and entries, with any text after the mistake", "why_tests_cant": "The mistake can stand at any depth, after any correct text and before any text at all; a test fixes all three. A silently accepted mistake gives a value that the author of the text did not write.", "anchors": ["yam-core/src/parsing/scanner.rs: fetch_next_token, fetch_more_tokens, stale_simple_keys, fetch_value, fetch_key, fetch_block_entry, scan_flow_scalar, scan_anchor, scan_block_scalar", "yam-core/src/parsing/parser.rs: next_event_impl, load", "yam-core/src/prelude/loader.rs: load_from"]}
{"id": "C65", "title": "Directives do what they say", "statement": "A document with directives before it loads as the value it has with the handles that the directives declare: a tag !h!s is the declared prefix of !h! and s, and ! and !! can be declared anew. A %YAML directive with a version 1.x, directives with other names, comments and empty lines between the directives change nothing. A directive holds for its document only.", "quantifier": "every list of directives with any handles and prefixes, and every document after it", "why_tests_cant": "The number of directives, the names and the prefixes are unbounded, and the tags that use them can stand at any depth of the document.", "anchors": ["yam-core/src/parsing/scanner.rs: fetch_directive, scan_directive, scan_version_directive_value, scan_tag_directive_value, scan_tag_prefix, scan_tag_handle", "yam-core/src/parsing/parser.rs: process_directives, resolve_tag, document_start", "yam-core/src/prelude/loader.rs: load_from"]}
{"id": "C66", "title": "from_str reports the mistakes in a text", "statement": "A text that is not YAML, so that the tree loader refuses it, has no value: from_str returns an error for it, whatever the type.", "quantifier": "every text that is refused, wherever the mistake is, and every Rust type", "why_tests_cant": "The mistake can stand at any place of the text: in a key, in a value, between two elements, at any depth, or after the value. The deserialiser stops reading at a different place for every type.", "anchors": ["yam-serde/src/lib.rs: from_str", "yam-serde/src/de.rs: next_el, peek_null, skip_doc, deserialize_option, SeqCollection", "yam-core/src/parsing/parser_iter.rs: next"]}
{"id": "C67", "title": "Nodes compare equal exactly if they are the same", "statement": "Two nodes compare equal with == exactly if they are the same tree: the same kinds, values, tags, alias ids, elements and entries in the same order. The comparison is symmetric and transitive, a clone is the same tree, and every node equals its clone.", "quantifier": "every pair of nodes of any size and depth, every comparison of floats", "why_tests_cant": "Trees of any depth and width can differ at one place only, and the comparison must see every place.", "anchors": ["yam-core/src/node/yaml_data.rs: PartialEq for YamlData, Clone for YamlData", "yam-core/src/node/scalar.rs: PartialEq for YamlScalar, Clone for YamlScalar", "yam-core/src/node/yaml_owned.rs: YamlOwned", "yam-core/src/prelude/mod.rs: YamlEntry"]}
{"id": "C68", "title": "A SpannedYaml is a Yaml and a place", "statement": "Every accessor of a SpannedYaml reads and writes what the same accessor does on the Yaml without the spans, writing leaves the place of a node alone, a tagged node keeps its place, and with_start, with_end and with_span set the place.", "quantifier": "every spanned node of any depth, every value written, every place", "why_tests_cant": "Two implementations of the same trait with some thirty functions each must agree on every node.", "anchors": ["yam-core/src/node/spanned_yaml.rs: SpannedYaml, YamlDocAccess for SpannedYaml", "yam-core/src/node/yaml.rs: YamlDocAccess for Yaml", "yam-core/src/prelude/mod.rs: YamlDocAccess, with_start, with_end, with_span"]}
{"id": "C69", "title": "Brackets left open are reported", "statement": "In a text that loads, as many flow sequences and flow mappings are closed as were opened: a document that was cut off inside a flow collection, or in which a bracket is closed by the wrong kind, gives an error and never a value.", "quantifier": "every token stream, every text of flow collections nested to any depth, with quoted and plain scalars, anchors and aliases over any number of lines, alone and at every place of a text in block style", "why_tests_cant": "The bracket that is missing may be any of arbitrarily many, and the scanner turns implicit mappings in flow sequences into further pairs of brackets; no sample of cut-off texts shows that none of them is accepted.", "anchors": ["yam-core/src/parsing/scanner.rs: fetch_flow_collection_start, fetch_flow_collection_end, fetch_flow_entry, end_implicit_mapping, fetch_stream_end, decrease_flow_level", "yam-core/src/parsing/parser.rs: flow_sequence_entry, flow_mapping_key, flow_sequence_entry_mapping_end", "yam-core/src/prelude/loader.rs: load_from_parser"]}
{"id": "C70", "title": "JSON that was cut off is reported", "statement": "If a JSON text is cut off inside an array, an object or a string, loading what is left gives an error: it never gives documents with part of the data.", "quantifier": "every JSON array, object and string of any size and depth (RFC 8259), every place at which it can be cut off, any white space before it", "why_tests_cant": "There are as many cut-off texts as there are places in all JSON texts: in a number, behind a backslash, in the middle of an escape, between a name and its colon. In YAML most of the beginnings of a text are texts themselves; that for JSON none is must hold for all of them.", "anchors": ["yam-core/src/parsing/scanner.rs: fetch_flow_collection_start, fetch_flow_collection_end, fetch_flow_scalar, scan_flow_scalar, fetch_stream_end", "yam-core/src/parsing/parser.rs: flow_sequence_entry, flow_mapping_key", "yam-core/src/prelude/loader.rs: load_from_parser"]}
{"id": "C71", "title": "Reading a value from JSON that was cut off fails", "statement": "If a JSON text is cut off inside an array, an object or a string, from_str gives no value for what is left, of whatever type: a list is never returned with only its first elements, a map never with only its first entries. The same holds for every flow collection in which more brackets of one kind are opened than closed.", "quantifier": "every JSON array, object and string of any size and depth, every place at which it can be cut off, any white space before it; every type to read; every text with a flow collection that is left open", "why_tests_cant": "from_str reads only as much of the text as the type asks for and does not look at what comes after, so that it can return without having met the end of the text. That it always gets to a place where the missing bracket matters must hold for all texts, all places and all types.", "anchors": ["yam-serde/src/lib.rs: from_str", "yam-core/src/parsing/parser.rs: flow_sequence_entry, flow_mapping_key, parse_node", "yam-core/src/parsing/scanner.rs: fetch_flow_collection_start, fetch_flow_collection_end, fetch_flow_scalar"]}
{"id": "C72", "title": "A node made of a Rust value holds that value", "statement": "Yaml::from of an i8, i16, i32, i64, f32, f64, bool, &str or a vector of such nodes gives a node in which the accessors (as_i64, as_f64, as_bool, as_str, as_sequence) find exactly that value: integers of every width keep value and sign, vectors keep length, elements and order, and no other accessor succeeds. Written with the emitter and loaded again, the text is one document in which the same value is found.", "quantifier": "every integer of each width, every boolean, string, float and every nesting of vectors of them, of any size and depth", "why_tests_cant": "It is a claim about all integers of four widths, all strings and all nestings of vectors, and, for the written text, about emitter, scanner, parser and loader together on all of them.", "anchors": ["yam-core/src/node/yaml.rs: impl From<...> for Yaml", "yam-core/src/saphyr_emitter/mod.rs: YamlEmitter::dump", "yam-core/src/prelude/loader.rs: load_from"]}
{"id": "C73", "title": "A wrong directive is reported", "statement": "If one of the directives at the head of a text is wrong - it has no name, a name that does not end, a version without both numbers, a handle that is missing or not closed, no prefix, something more on its line, or the text ends in it - then the text never loads as documents and its events never come to the end of the stream: loading gives an error, whatever comes after it.", "quantifier": "every text of any number of comment lines and right directives, then a wrong directive of each kind with names, numbers and prefixes of any length, and then any bytes at all", "why_tests_cant": "The mistake can be at any of the places of a directive line, after any number of right ones, and any text may come after it; a test shows that one of them is refused.", "anchors": ["yam-core/src/parsing/scanner.rs: fetch_directive, scan_directive, scan_directive_name, scan_version_directive_value, scan_version_directive_number, scan_tag_directive_value, scan_tag_handle, scan_tag_prefix", "yam-core/src/parsing/source.rs: skip_ws_to_eol, fetch_while_is_alpha, skip_while_blank", "yam-core/src/prelude/loader.rs: load_from_parser"]}
{"id": "C74", "title": "Directives belong to a document that begins with ---", "statement": "If the directives at the head of a text are not followed by a document that begins with `---`, or `%YAML` is among them twice, then the text never loads, and its events are never pulled to the end. With two `%YAML`, and with nothing but directives, loading it gives an error, and pulling its events gives the start of the stream and then that error.", "quantifier": "every text of any number of comment lines, then any number of right directives with names, prefixes and comments of any length, and then the end of the text, or a second %YAML line and any bytes at all, or, behind any number of spaces, anything but white space or a comment (and in the first column neither a directive nor ---), and any bytes at all", "why_tests_cant": "Any number of directives can come before, any text can follow; a test shows that one such text is refused.", "anchors": ["yam-core/src/parsing/parser.rs: document_start, explicit_document_start, process_directives", "yam-core/src/parsing/scanner.rs: fetch_directive, fetch_stream_end", "yam-core/src/prelude/loader.rs: load_from_parser, load_single"]}
{"id": "C75", "title": "Events stand in the text, one after the other", "statement": "Every event that is pulled from a text has a span that begins no later than it ends; both ends are places in the text with the right line and column; events come in the order in which they stand; and an error that ends the events is at a place in the text.", "quantifier": "every text of any bytes, any number of events pulled", "why_tests_cant": "Each of some thirty places in the parser chooses the token an event is placed at; a test shows the places of one text.", "anchors": ["yam-core/src/parsing/parser.rs: state_machine and everything it calls, flow_sequence_entry_mapping_end", "yam-core/src/parsing/scanner.rs: Marker, next_token"]}
{"id": "C76", "title": "A failing writer stops the emitter", "statement": "Dumping a document into a writer succeeds exactly if no call of the writer fails, and then the writer was given the text of the document. If a call fails, dump reports it, makes no further call, and what was written before is a beginning of the text. A dump after a failed one with the same emitter writes what it would have written otherwise.", "quantifier": "every document, every setting, every writer that fails at any call depending on everything before, every way in which formatted values are cut into pieces", "why_tests_cant": "Every write of the emitter is a place where it may be stopped; there are as many as the text has pieces, and a single result that is dropped instead of passed on loses text silently.", "anchors": ["yam-core/src/saphyr_emitter/mod.rs: YamlEmitter::dump, emit_node, emit_sequence, emit_mapping, emit_val, emit_literal_block, write_indent, escape_str"]}
{"id": "C77", "title": "A failing writer stops the serialiser", "statement": "Serialising a value into a writer succeeds exactly if no call of the writer fails, and then the writer was given the text that serialising to a string gives. If a call fails, that is reported, no further call is made, and what was written before is a beginning of the text. A value that cannot be serialised panics before anything is written.", "quantifier": "every value of the kinds the serialiser is called with (collections and variants are not implemented and panic), every format, every division of strings into words, every writer that fails at any call depending on everything before, after any earlier calls that succeeded", "why_tests_cant": "A writer may fail at any piece, and strings are cut into any number of lines; a result that is dropped at one place loses text only for writers that fail just there.", "anchors": ["yam-serde/src/ser.rs: YamSerializer::write_double_quote_multi, line_split_at, write_indentors, write_double_quote_single, serialize_nums, serialize_bool, serialize_f64, serialize_char, serialize_str, serialize_unit, serialize_some"]}
{"id": "C78", "title": "Text is never cut inside a character", "statement": "For every tree whose strings, tag handles and tag suffixes are valid UTF-8, for every configuration and every writer, whatever it answers, every piece of text that YamlEmitter::dump passes to the writer in one call is valid UTF-8: the byte positions at which it cuts strings at escaped bytes and at line breaks are never inside a character (where Rust would panic). So the text a dump writes to a String is valid UTF-8. The same holds for the pieces the serialiser passes for values it can serialise, also where it breaks lines and drops the blank at the break, and for characters.", "quantifier": "all trees and values over valid UTF-8 strings, all writers, all earlier calls, all configurations and formats", "why_tests_cant": "a cut inside a character shows only for some strings with multi-byte characters at some positions; tests try a few strings", "anchors": ["yam-serde/src/ser.rs: write_double_quote_multi, line_split_at, serialize_char", "yam-core/src/saphyr_emitter/mod.rs: escape_str, emit_literal_block, emit_node"]}
{"id": "C79", "title": "What is loaded from a text is text", "statement": "If the input is valid UTF-8, then the text and the tag (handle or prefix, and suffix) of every event the parser delivers are valid UTF-8, and so are all strings and tags in all documents YamlLoader::load_from returns, and in the one load_single returns: keys, values, tags after %TAG directives, escapes and copies made for aliases included. Hence a document loaded from a text is written by YamlEmitter::dump as valid UTF-8 again.", "quantifier": "all inputs that are valid UTF-8, any number of events, all configurations of the emitter", "why_tests_cant": "the scanner copies bytes between positions it computed; a piece cut inside a character shows only for some characters at some positions of some texts", "anchors": ["yam-core/src/parsing/parser.rs: next_event, parse_node, resolve_tag, parser_process_directives, load", "yam-core/src/prelude/loader.rs: on_event, insert_new_node, load_from, load_single", "yam-core/src/node/yaml_data.rs: value_from_cow_and_metadata"]}
