# Formal model of yam-rs in Lean 4: design

The model lives in `lean/Verif`. It is written by reading `/repo` as text; the code is not built or run here.

## Layout

* `Verif/Model/*.lean`: the model, function by function. Every definition cites the file and lines it models.
* `Verif/Spec/*.lean`: small independent specifications (event grammar, token grammar, UTF-8, radix values, tree shape, layout, what can be
  read back). A property's statement uses these and the model's entry points only.
* `Verif/Lemmas/*.lean`: helper lemmas and invariants. Nothing here has to be read to understand a property.
* `Verif/Props/*.lean`: the property theorems, each with a non-vacuity `example` beside it.
* `seeded/LOG.jsonl`: wrong programs tried against the theorems, see "Testing the theorems".

## Trusted base

* Lean 4.33.0's kernel.
* The axioms `propext`, `Classical.choice`, `Quot.sound`, and no others (checked by `vcheck` for every theorem in `MANIFEST.json`). There is
  no `sorry`, `admit`, `axiom`, `native_decide`, `bv_decide`, `implemented_by` or `unsafe`. Concrete witnesses use `decide +kernel` or `rfl`,
  both checked by the kernel. No Mathlib module is imported.
* The reading of `/repo` that produced the model. Nothing ties the model to the code mechanically; every definition cites its lines so that
  the two can be compared.
* The specifications in `Verif/Spec`.
* External functions are *parameters* of the model, never axioms: the theorems hold for every choice of them. They are Rust's `f64` reader and
  printer with the comparisons used on floats (`FloatOps`), and the division of a string into words (crate `unicode-segmentation`).

## Modelling conventions

* A Rust function taking `&mut self` becomes a function returning the new state. A mutable reference that is returned becomes the function that
  writes through it.
* `Result` stays data, with the message and position where the code makes one.
* A panic (`unwrap`, `assert!`, `unreachable!`, index out of bounds, arithmetic overflow with debug checks, `todo!`) is an explicit result,
  different from an error. `Cfg.debug` says whether overflow checks are on; theorems hold for both settings unless they name one.
* A read of uninitialised memory (`MaybeUninit` in the buffered source) is an explicit result as well.
* A loop becomes structural recursion when the bound is evident and otherwise takes fuel. Running out of fuel is an explicit result
  (`hang`), so divergence is *visible* and never conflated with success or error. "Loops for ever" is proved as `hang` for every fuel; "finishes" as
  a result other than `hang` with an explicit fuel.
* Bytes are natural numbers; byte strings are lists. Positions, columns and counters are unbounded naturals: inputs of 4 GiB and more (`u32` columns)
  are outside the model, except where a property is about overflow (`%YAML` version, base64 shifts, percent escapes, 64-bit integers).
* The optional cargo feature `comment` is off by default and is modelled off.

## What is modelled

| file in /repo | model | extent |
|---|---|---|
| yam-core/src/parsing/scanner.rs | `Model/Scanner.lean` | complete, over the string source |
| yam-core/src/parsing/parser.rs | `Model/Parser.lean`, `Model/ParserLoad.lean` | complete: pull, peek and push interface, over an arbitrary token sequence |
| yam-core/src/parsing/parser_iter.rs | `Model/ParserIter.lean` | complete |
| yam-core/src/parsing/source.rs | `Model/Source.lean`, `Model/SourceMore.lean` | `StrSource`, complete |
| yam-core/src/parsing/buffered_source.rs | `Model/Buffered.lean` | complete |
| yam-core/src/parsing/char_utils.rs | `Model/CharUtils.lean` | complete |
| yam-core/src/parsing/mod.rs | `Model/Tokens.lean`, `Model/Emitter.lean` | tokens; `is_valid_literal_block_scalar` |
| yam-core/src/prelude/mod.rs | `Model/Tokens.lean`, `Model/Types.lean`, `Model/Access.lean` | markers, spans, errors, scalar styles; defaults of `YamlDocAccess` |
| yam-core/src/prelude/loader.rs | `Model/Loader.lean`, `Model/LoadText.lean` | for the node type `Yaml`; spans are dropped by `Yaml` and so here |
| yam-core/src/node/scalar.rs, yaml_data.rs | `Model/Scalar.lean`, `Model/Types.lean` | scalar resolution, `get_type` |
| yam-core/src/node/yaml.rs | `Model/Index.lean`, `Model/Access.lean`, `Model/Equality.lean`, `Model/Convert.lean`, `Model/LoadText.lean` | complete |
| yam-core/src/node/spanned_yaml.rs | `Model/Spanned.lean` | complete (the loader cannot build it: it has no `From<YamlData>`) |
| yam-core/src/node/yaml_owned.rs and `==`, `clone` of nodes | `Model/Equality.lean` | complete |
| yam-core/src/saphyr_emitter/mod.rs | `Model/Emitter.lean`, `Model/EmitterIo.lean` | complete; the second for writers that fail |
| yam-core/src/escaper.rs | `Model/Escaper.lean` | complete |
| yam-core/src/lazy_expander.rs | `Model/LazyExpander.lean` | complete |
| yam-core/src/util/\*.rs | `Model/Simd.lean` | the operations the sources use |
| yam-serde/src/binary.rs | `Model/Base64.lean` | complete |
| yam-serde/src/de.rs | `Model/De.lean` | all `deserialize_*` methods that are not `todo!()`, for the types of `Ty` |
| yam-serde/src/ser.rs, escape_str.rs | `Model/Ser.lean`, `Model/SerValue.lean`, `Model/SerIo.lean` | the methods that are not `todo!()`; the last for writers that fail |

## What is not modelled

* `Debug` and `Display` of errors, tokens and events (yam-test-bench formats events by them).
* Lifetimes and borrowing (`Cow`): values are copied.
* The scanner over `BufferedBytesSource` (only the source itself, against the string source: C24, C43).
* In the error text for an unexpected character the scanner cuts four bytes and calls `from_utf8_unchecked`; the cut may fall inside a
  character, which is undefined behaviour and not modelled.
* serde's own machinery: what `Deserialize` implementations do is modelled for the types of `Ty` only. Structs written
  as sequences, `char`, borrowed strings, bytes and other representations of enums are not.
* Allocation failure. Stack depth: the emitter, `PartialEq` and `Drop` of deep trees recurse in Rust.
* The tokens the parser reads are scanned beforehand in `LoadText`, which is the same because the scanner never looks at the parser.
* yam-test-bench and yam-std (test and re-export crates). As a check of fidelity, outside of the proofs, the model was evaluated on all 283 cases of
  yam-test-bench that state events (217 that parse: the events agree with those stated, without exception; the others are errors except two, which the
  code as read accepts as well) and on the cases of yam-serde/tests/test_de.rs (all agree). The code itself was not run.

## Testing the theorems

`seeded/LOG.jsonl` has one line for each wrong program: a definition of the model was edited in a scratch copy the way a realistic bug would change the
program, and everything rebuilt. The line names the theorems that failed. One edit survived so far: in `end_implicit_mapping`, leaving the state
`Possible` at `Inside`; no listed claim is false of that program.

## Plan per property

| id | modelled | how proved |
|----|----------|-----------|
| C01 | `yam-serde/src/binary.rs` `encode`, `decode` over bytes with 32-bit accumulator | round trip by induction in steps of 3 bytes, blanks-insensitivity by induction |
| C02 | `escape_str`; `scan_flow_scalar` with all callees | induction over the string: the scanner's inner loop consumes the escape of each byte and appends that byte |
| C03 | `value_from_cow_and_metadata`, `parse_from_cow_and_metadata` | direct, for every text and style |
| C04 | `need_quotes`, `parse_from_cow` | false: witnesses `0o17`, `++5`, `+.inf`; `_partial` theorem outside exactly those shapes |
| C05 | Rust `i64::from_str(_radix)` and `Display` | induction on digit strings |
| C06 | tag dispatch | direct case analysis; for every text |
| C07 | `parse_from_cow` on the empty scalar event | false: witness; what it becomes is proved |
| C08 | the complete scanner over `StrSource` | global invariant preserved by every function; false at three places (witnesses), `_partial` otherwise |
| C09 | same | false: lone CR, NUL in quotes, wide block indentation (witnesses for every fuel); `_partial` for inputs without them, by a measure; independence of the limits once a run has stopped, by monotonicity of every loop |
| C10 | same | invariant `mark.pos = cursor ≤ length`, spans ordered |
| C11 | same, token stream history | invariant: open starts = indent stack |
| C12 | same | invariant after StreamEnd; induction over pulls |
| C13 | the complete parser over an arbitrary token stream | invariant: the state stack denotes the expected rest of the event grammar |
| C14 | same | invariant on the state stack |
| C15 | `peek`/`next_event` | refinement to a stream with one-place buffer; false after a failing peek: witness |
| C16 | same | induction |
| C17 | `register_anchor`, alias lookup | refinement to an abstract map over event history |
| C18 | same, both APIs | false for the pull API: witness; `_partial` for the push API |
| C19 | `process_directives`, `resolve_tag` | false: witnesses; `_partial` for at most one directive |
| C20 | `scan_uri_escapes` | false for multi-byte: witness; `_partial` for ASCII |
| C21 | loader `on_event`, `insert_new_node` | induction over event trees; false for keys of `Bad` type: witness |
| C22 | same | as C21 with an environment |
| C23 | `Index`/`IndexMut` | lens laws; false for integer index on a mapping: witness |
| C24 | `BufferedBytesSource` with 32-byte window | refinement; false for `skip(33)`, `skip_ws_to_eol`, `push_non_breakz_chr`: witnesses |
| C25 | `u8x32`, `u8x16` operations over 32-lists / `BitVec 32` | bit-level lemma by induction; table by full enumeration of 256 bytes |
| C26 | `escape` with `Escape` iterator | refinement to a per-byte substitution; injectivity fails: witness |
| C27 | `calculate_limit` | structural induction |
| C28 | `ParserIter::next` | false (aliases dropped): witness; `_partial` |
| C29 | deserialiser protocol over event streams | false for nested tuples: witness; `_partial` for sequences/maps/scalars |
| C30 | `serialize_str` | false: witness `"`; `_partial` for strings needing no escapes |
| C31 | `escape_double_quotes` | false: witness |
| C32 | `emit_literal_block` and `scan_block_scalar` | false: trailing newlines; `_partial` |
| C33 | `Tag` display, `resolve_tag` | false for resolved tags; `_partial` for local tags |
| C34 | emitter | structural induction for the level; the layout through the tree's text as a function |
| C35 | `load_single`, `load_from` | direct |
| C36 | scanner texts | invariant: every text is a concatenation of slices cut at ASCII boundaries |
| C37 | version number scan with `u8` | false for ≥ 256: witness; `_partial` below |
| C38 | char_utils | full enumeration of 256 bytes, lifted |
| C39 | the complete parser over an arbitrary token stream | a potential on the parser state that every event lowers, by induction over the run |
| C40 | same | invariant: scalar events so far = scalar tokens consumed, plus empty scalars |
| C41 | `parse_from_cow` | case analysis and induction over the text against the core schema specification |
| C42 | same as C13, with a token grammar as specification | induction over derivations of the grammar: the state machine follows them |
| C43 | `BufferedBytesSource` with cells that may be uninitialised | invariant: the cells between the read position and the fill mark are initialised |
| C44 | emitter, scanner, parser and loader composed | the text of a tree as a function; the scanner runs over it to exactly the tree's tokens (induction over the tree with an indentation context); then C42 and C21 |
| C45 | defaults of `YamlDocAccess`, accessors of `Yaml` | case analysis over nodes; false for tagged nodes: witness |
| C46 | scanner, parser and loader on the whole text; the grammar of JSON with its values is a separate specification | mutual induction over the grammar: each value is scanned as the tokens of its tree in any flow context, and these parse and load as the tree; false for three constructs: witnesses for every fuel |
| C47 | `load` and its helpers, `next_event`, over an arbitrary token stream | simulation: a parser that knows more anchors takes the same steps unless it meets an unknown anchor (every state function); induction over the recursion of `load`; witness for the difference |
| C48 | the emitter, scanner, parser and loader composed, as in C44, for a list of documents | induction on the documents: after each document the scanner is back at column 1 with no open block, so the next `---` is a document start; then the grammar of C42 and the loader |
| C49 | the scanner (all of it), the parser and the loader, on a text and on the same text with the other line ends | a simulation between the two runs of the scanner: the rest of one text is the rest of the other with the line ends changed, and the states agree but for offsets; every scanner function preserves it; then C50 for the parser |
| C50 | the parser on any tokens, the push and pull interfaces and the loader | every parser function commutes with moving the positions in its state; by induction for the loops |
| C51 | deserialize_enum, the Enum access and the calls serde's derived code makes | the computation reads exactly the events of the value, by composing the exactness of C29 for the contents |
| C52 | serde's IgnoredAny over deserialize_any, and the field loop of derived structs | ignoring reads exactly the events of such a node, by induction on the fuel; then by induction on the fields |
| C53 | from_str: scanner, parser, ParserIter and deserialiser in a row | scanning of JSON (C46) gives the tokens of the events, the parser delivers them (C42), and the events denote the value (induction on the type); then C29 |
| C54 | scanner (layout, indentation stack, simple keys, plain and quoted scalars), parser and loader, from text to tree | induction on the grammar: each construct takes the scanner from a state at its first byte to a state at the next token, with its tokens appended and the indentation stack unrolled; the tokens derive the events (C42) and the events the tree (C21) |
| C55 | the loops of scan_plain_scalar and scan_flow_scalar with their buffers, all escapes | induction on the lines: each round of the loop appends the folded white space and the next words to the string; then as C54 |
| C56 | scan_block_scalar with header, detection of the indentation, lines, folding, chomping | induction on the lines: one round of the loop per line; then as C54 |
| C57 | fetch_document_indicator, the document states of the parser, the loader | induction on the documents: each marker token is followed through unroll_indent, the layout after it and the simple keys; the tokens derive the documents in the token grammar of C42 |
| C58 | the scanner functions for brackets, commas and colons, plain and quoted scalars in flow context, the flow states of the parser | mutual induction on the flow grammar: each node leaves its tokens and a scanner state with the same brackets open; a simple key that stays possible is turned into a key by the colon; the tokens derive the value in the token grammar of C42 |
| C59 | scanning of anchors, aliases and tags, the parser's anchor table and tag resolution, the loader's anchor map | mutual induction on the grammar with the anchors so far as an index: the numbers that the parser gives are positions in that list, and the loader's map has the values of the finished ones; push parser and pull parser are shown to agree when every alias stays in its document |
| C60 | all parser states, as in C42; the grammar of Verif/Spec/TokenGrammar.lean with three extra rules for what the parser does beyond it | for each parser state a predicate says which remaining tokens and events may follow, given what the states on the stack expect; every step of the parser is shown to lead back along a rule, and the steps of a run that ends are put together by induction on the number of events |
| C61 | fetch_key, the complex-key branch of fetch_value, skip_yaml_whitespace and the parser's key and value states | one lemma for `-`, `?` and `:` as the beginning of a part of a collection; mutual induction on the block grammar as in C54; the tokens derive the entry in the token grammar of C42 |
| C62 | from_str as a whole: scanner, parser, ParserIter and the deserialiser; the texts are described by a grammar indexed by the Rust type (Spec/TypedBlock) | structural recursion on the type: each construct of the grammar is read by the scanner lemmas of C54 and C55, its tokens derive its events in the grammar of C42, and these denote the value (`Reads`); Lemmas/TypedDoc adds the markers and directives; C29 gives the rest |
| C63 | Serializer for every value of the model of serde's data (Model/SerValue), with todo!() as a panic; from_str as a whole | integers and floats are JSON numbers, booleans and null JSON words, so C40's scanner lemmas give one plain scalar; strings are folded double quoted scalars (C30); C29 gives the value of the type |
| C64 | The texts are Spec/Faults.lean: a grammar of mistakes (`Fault`), and the places in a text in block style where a mistake can stand (`Faulty`). Model: scanner, parser, loader. | A scanner state from which every further fetch either fails or leads to such a state is `Doomed` (Lemmas/ScanDoom): the scan never delivers the end of the stream. Every mistake makes the fetch fail (Lemmas/ScanRefuse, ScanFaults: `fault_refused`), and every correct part before it leads to the state the mistake is met in (`faulty_place`, by induction on the place, with the lemmas of C54 for the correct parts). Without the end of the stream among the tokens the parser does not succeed (C60). That it ends with an error follows from C09 and C14. |
| C65 | The texts are `Directives` and `Explicit` in Spec/Block.lean: the grammar of C54-C59 with the declared handles (`Handles`) as a parameter. Model: scanner, parser, loader. | Each directive is one token (Lemmas/ScanDirective: `directive_run`, `directives_run`, by induction on the list). The grammar of tokens is monotone in the declared handles (`derives_mono`), and what the tokens declare is what the text declares (`declared_reads`). The rest is C57. |
| C66 | Model: scanner, parser, `ParserIter`, the deserialiser with its one event of look-ahead. Nothing is assumed about the end of the tokens, so the scanner may fail anywhere. | The soundness half of the C29 lemmas (`Exact`, `Visit`, `Top` in Lemmas/De) is proved for event lists that end with the document or at a point where the iterator gives nothing more (`Enough`). Such a list always exists, by induction on the measure of the parser (`items_ahead`), and its items are delivered events (`feeds_delivers`). |
| C67 | Model: `==` and `clone` of scalars and nodes, with `==` on floats as a parameter; `Vec` and entries element by element. | Mutual induction over the trees: equality is equality of the skeletons (all floats replaced by one value) and of the lists of floats, place by place. |
| C68 | Model: all functions of `spanned_yaml.rs` and the defaults of the trait, function by function. | Case analysis on the node against the model of `Yaml` (Access, Index), with `plainOf`, which removes the spans, as the specification. |
| C69 | Scanner, parser and loader as for C64; `Verif.Spec.Faults.unclosed` reads a text of flow collections and counts brackets outside quotation marks. | Tokens: induction over the grammar of C60 counts brackets. Texts: an invariant of the scanner (Lemmas/ScanUnclosed) relates the surplus of brackets among the tokens delivered and queued, with the implicit mappings still open, to the surplus that `unclosed` has counted; at the end of the text the tokens cannot balance, so that no run of the parser gets past them. |
| C70 | The JSON grammar is Spec/Json.lean (as for C46), with `full = true` all of RFC 8259; a text that is cut off is any prefix but the empty one and the whole. | Lemmas/JsonCut: by induction over the JSON grammar, every prefix of an array or object is a flow collection that is left open (`Spec.Faults.unclosed`), and every prefix of a string is a quotation mark that is not closed; then C64 and C69. |
| C71 | The scanner on the text, the parser on its tokens and the reading of values are the models of C55, C60 and C66; types and what they read are Spec/Typed.lean. | Lemmas/ScanBegin with the invariant of C69: in every beginning of the tokens of such a text brackets are open, once one was opened. Lemmas/ParserCount: when the parser has delivered a whole node, the tokens it has taken have no bracket open, by induction over the run with the brackets counted in the stack of states. By C66 a value needs a whole node. |
| C72 | Model/Convert.lean: the From implementations; integers are bit vectors of their width and `as i64` is sign extension. Accessors, emitter, scanner, parser and loader are the models of C44 and C45. | What a value stands for (RustValue.data) and what accessors find (Finds) are stated apart from the conversions; both directions by induction over the value. The written text by C44. |
| C73 | The wrong directives are the eleven rules of `WrongDirective` in Spec/Faults.lean, over bytes; the right ones before them are those of Spec/Block.lean. | Lemmas/ScanWrong: for every rule, reading the directive cannot succeed, by a triple over the rest of the text (`Tri`), for any number of iterations of the loops; the directives before it are read as for C65. Then as for C64. |
| C74 | The right directives are those of Spec/Block.lean; Spec/Head.lean says what is wrong after them. | Lemmas/ScanHead: the first tokens of such a text are known, whatever follows (what has been fetched with no key in view is what the iteration begins with); and the parser, by induction over the directives, fails after the start of the stream on any tokens that begin so. Lemmas/ScanStray: when the queue is empty and neither a directive nor `---` follows, then the first token of the queue stays neither of these in every function of the scanner, also where tokens are inserted before others (BLOCK-MAPPING-START, KEY), so the parser is given such a token, or none. |
| C75 | Places are those of Spec/Positions.lean, as in C10. | Lemmas/ParserOrder: by cases over every function of the parser, an event has the span of a token that was looked at in that step, and the tokens that are left are that token or later ones; the one exception is flow_sequence_entry_mapping_end, whose marker is kept in the state. Then by induction over the pulls, with C10 for the tokens. |
| C76 | The emitter a second time (Model/EmitterIo), with a writer that answers each call of write_str as a function of all calls before; how write! cuts a formatted value into pieces is a parameter. | Refinement to Model/Emitter: every function makes the calls for what its twin appends, up to the first failure; induction over documents. Honest answers by induction over the calls. |
| C77 | Model/SerIo.lean: the functions of ser.rs that write, as functions that make calls and stop at the first one that fails; the writer is any function of the calls before. | Every function writes the text of its twin in Model/Ser.lean (the relation Emits of C76), by induction over the words of a string. |
| C78 | `Model/EmitterIo.lean`, `Model/SerIo.lean` (the calls of the writer); `Spec/TextTree.lean` (trees of texts), `Spec/Utf8.lean` | a predicate on writer actions closed under sequencing; strings are cut only next to an ASCII byte, where the UTF-8 automaton is in its start state; recursion over the tree |
| C79 | `Model/Parser.lean`, `Model/ParserLoad.lean`, `Model/Loader.lean`, `Model/LoadText.lean`; `Spec/TextTree.lean` (events and trees of texts) | an invariant on everything the parser holds (tokens, tag prefixes, a peeked event), kept by every function of the parser; one on everything the loader holds (documents, both stacks, anchored nodes), kept by every event |

## Outcome per property

Every theorem below depends on no axioms other than `propext`, `Classical.choice` and `Quot.sound`. `_false` theorems refute a claim as stated, `_partial`
theorems prove it under the hypotheses they name.

* **C01 Base64 round trip** (proved). Round trip, RFC 4648 agreement, length, alphabet and blank-insensitivity, for all byte strings. Theorems: `C01_base64_roundtrip`, `C01_base64_rfc4648`, `C01_base64_length`, `C01_base64_alphabet`, `C01_base64_blanks_ignored`.
* **C02 Double-quoted output reads back as the same string** (proved). In every scanner state in which a token may start, for every string and every permitted continuation. What is written contains no control characters (C02_printable). Theorems: `C02_double_quoted_reads_back`, `C02_every_string_has_a_form`, `C02_printable`.
* **C03 Quoted scalars are always strings** (proved). All texts, both quoting styles, with and without tags. Theorems: `C03_quoted_is_string`, `C03_quoted_is_string_tagged`.
* **C04 Unquoted emitted strings do not change type on reload** (partial). The property as stated is false: C04_unquoted_strings_false exhibits a string that changes type. C04_unquoted_strings_partial proves it for every string outside the exactly characterised exceptions, C04_unquoted_strings_exact says the exceptions are exactly those. Theorems: `C04_unquoted_strings_false`, `C04_unquoted_strings_partial`, `C04_unquoted_strings_exact`.
* **C05 Integers print and read back** (partial). Round trip and acceptance hold for all integers; "only core-schema integers" is false (C05_only_core_ints_false, doubled sign); C05_int_exact gives the exact set accepted. Theorems: `C05_int_roundtrip`, `C05_core_int_accepted`, `C05_only_core_ints_false`, `C05_int_exact`.
* **C06 Core-schema tags fix the scalar's type** (partial). False as stated (C06_core_tag_false); the partial theorem covers the tags whose handling is correct. Theorems: `C06_str_tag`, `C06_core_tag_false`, `C06_core_tag_partial`, `C06_core_tag_values`.
* **C07 Empty nodes are null** (partial). False as stated: an empty plain scalar is the empty string (C07_empty_is_null_false). The spelled nulls are proved. Theorems: `C07_empty_is_null_false`, `C07_null_spellings_partial`.
* **C08 Scanning never panics** (partial). False in general (`@`, `%YAML 256.0` with overflow checks). Proved for every input without a reserved indicator in its last three bytes and, with overflow checks, without three digits after a percent sign. Token scanning is modelled on the string source. Theorems: `C08_scan_never_panics_false`, `C08_version_overflow_false`, `C08_scan_never_panics_partial`.
* **C09 Scanning always finishes** (partial). False in general: a carriage return alone, a NUL in quotes and a deeply indented block scalar loop for ever (proved for all iteration counts). Proved for all other inputs, with a bound of 6 tokens per byte and length+4 iterations per loop. Theorems: `C09_limits_partial`, `C09_lone_cr_false`, `C09_quoted_nul_false`, `C09_deep_indent_false`, `C09_scan_finishes_false`, `C09_scan_finishes_partial`.
* **C10 Positions are exact and inside the input** (proved). For every input and number of pulls; includes exact line and column numbers, error positions and that all tokens are sorted by start. Theorems: `C10_positions_exact`.
* **C11 Block starts and ends balance** (partial). False in general (`a: [` leaves the mapping open). Proved: no BlockEnd without a start in any prefix for every input, and full balance when the brackets are balanced. Theorems: `C11_blocks_balance_false`, `C11_blocks_balance_partial`.
* **C12 Stream end is final and errors latch in the token iterator** (proved). For every input; both the iterator and next_token. Theorems: `C12_stream_end_final`, `C12_next_token_repeats`, `C12_errors_latch`.
* **C13 Parser events are well nested** (proved). Pull and push API, every token list, every prefix. Tokens are arbitrary, so nothing is assumed about the scanner. Theorems: `C13_prefix`, `C13_complete`, `C13_load`.
* **C14 The parser never panics on any token stream** (proved). Any sequence of next/peek/load calls, including calls after errors. Theorems: `C14_no_panic`.
* **C15 Peeking does not change what is read** (partial). False after a failing peek (C15_peek_false). Proved in full where peeking succeeds, and a failing peek is shown to act exactly as a pull. Theorems: `C15_peek_partial`, `C15_peek_error_partial`, `C15_peek_false`.
* **C16 Event stream end is final** (proved). After any history of calls; and None is returned only after StreamEnd. Theorems: `C16_final`, `C16_only_after_end`.
* **C17 Anchors are numbered uniquely and aliases resolve to the most recent anchor** (proved). Numbering and resolution stated on the tokens consumed. Theorems: `C17_numbering`, `C17_alias`.
* **C18 Anchors do not leak between documents** (partial). False for the pull API (C18_leak_false); proved for load, on success and on error. Theorems: `C18_leak_false`, `C18_load_partial`.
* **C19 All %TAG directives of a document take effect, duplicates are rejected** (partial). False: only the last directive takes effect (C19_all_apply_false) and duplicate handles are accepted (C19_duplicates_false). The partial theorem gives the exact behaviour, the %YAML limit and no carry-over without keep_tags. Theorems: `C19_directives_partial`, `C19_all_apply_false`, `C19_duplicates_false`.
* **C20 Percent escapes in tags decode as UTF-8** (partial). Exact for ASCII characters. False of every other character (C20_other_escapes_always_wrong): bytes are combined with the wrong shift. Theorems: `C20_ascii_escapes_partial`, `C20_other_escapes_always_wrong`, `C20_percent_utf8_false`.
* **C21 The loader builds exactly the tree described by the events** (partial). Loader driven by any complete event stream: the documents are exactly the trees described (C21_trees_partial), when no mapping key is tagged or an alias to an unfinished node. With a tagged key the claim is false (C21_trees_false): the key is taken for an empty slot, so {!t "a": "b"} loads as {}. For all streams: no panic, one document each. Theorems: `C21_trees_partial`, `C21_trees_false`, `C21_every_stream_described`, `C21_loader_never_panics`, `C21_one_document_each`, `C21_load`.
* **C22 An alias loads as a copy of the node it refers to** (proved). For every arrangement: an alias inserts the same value as the anchored node, whatever is between, if the anchor number was given to no other node (the parser numbers anchors uniquely: C17). Theorems: `C22_alias_is_copy`.
* **C23 Indexing for reading and for writing agree** (partial). String indexing proved; integer indexing of mappings for writing is refuted, for reading proved (an index of 2^63 or more asks for a negative key); sequences proved. Theorems: `C23_str_write_read`, `C23_str_write_frame`, `C23_int_index_mapping_false`, `C23_int_index_mapping_never_writes_value`, `C23_int_index_sequence_partial`, `C23_str_reads`, `C23_int_reads`.
* **C24 The buffered source behaves like the string source** (partial). Any text and any program of source operations, each used where the sources are meant to agree (Fine): same observations. The full claim is false: skip(33), last lines without a break and white space before text differ (three witnesses). Theorems: `C24_skip_false`, `C24_last_line_false`, `C24_white_space_false`, `C24_same_observations_partial`, `C24_skip_exact`.
* **C25 SIMD byte masks match the per-byte definition** (partial). All comparison, sign and table masks of 32 lanes and the comparison masks of 16 lanes, for every block; the lane-wise meaning of the other vector operations, with the exact condition under which adding panics (C25_lanes). The 16-lane sign mask panics on every vector and the mask of number signs is always empty, so the full claim is false. Theorems: `C25_compare_32`, `C25_compare_16`, `C25_sign_32`, `C25_spaces`, `C25_blanks`, `C25_breaks`, `C25_comments_false`, `C25_sign_16_false`, `C25_masks_false`, `C25_masks_partial`, `C25_lanes`.
* **C26 Display escaping is lossless** (partial). Single-quoted display proved exact and lossless; plain display is refuted as lossless, with the exact condition in the partial theorem. Theorems: `C26_single_quotes_exact`, `C26_single_quotes_lossless`, `C26_single_quotes_no_raw_control`, `C26_plain_exact`, `C26_plain_lossless_false`, `C26_plain_lossless_partial`, `C26_plain_no_tab_lf`.
* **C27 The expansion limit counts scalar leaves** (proved). The limit counts leaves for every tree and limit. Theorems: `C27_limit_counts_leaves`, `C27_can_expand_iff`.
* **C28 The event iterator delivers every event** (partial). Any tokens. The iterator gives an item for every event of the first document except aliases, then ends (C28_one_document_partial; also with errors, further documents, no document). As stated the claim is false: aliases are dropped (C28_aliases_false) and later documents are not visited (C28_documents_false). Theorems: `C28_one_document_partial`, `C28_more_documents`, `C28_error`, `C28_no_document`, `C28_aliases_false`, `C28_documents_false`.
* **C29 Typed deserialisation consumes exactly its node** (partial). For every type built from integers, booleans, floats, strings, units, options, vectors, maps, tuples and structs that satisfies Handled, and every document: deserialising returns v exactly if the node denotes v. The full claim is false: options, tuples and structs inside sequences, keys and options are misread, tuples that end in a sequence leave an event behind, and nulls and integers are read by text only (seven witnesses). Theorems: `C29_items_partial`, `C29_typed_partial`, `C29_lenient_partial`, `C29_typed_false`, `C29_options_in_sequences_false`, `C29_tuples_in_sequences_false`, `C29_structs_in_sequences_false`, `C29_nested_ends_false`, `C29_quoted_null_false`, `C29_tilde_false`, `C29_hexadecimal_false`, `C29_decimal_agrees`.
* **C30 Serialised strings read back** (partial). For every line width and division into words, a string without quotes, backslashes, line breaks, NULs, adjacent blanks and document markers is serialised to a text that the scanner, parser and loader read as that string; strings that fit on a line may have adjacent blanks and markers. The full claim is false: nothing is escaped, and two spaces at a wrap become a line feed. Theorems: `C30_wrapped_partial`, `C30_unwrapped_partial`, `C30_serialise_false`.
* **C31 String escaping never panics** (partial). For every string: escape_double_quotes returns exactly the text in which each byte is escaped as Spec.Escaped says, and it panics exactly on strings with a truncated escape. The full claim (never panics) is false: concrete witnesses. Theorems: `C31_escaping_false`, `C31_escaping_partial`, `C31_escaping_exact`, `C31_utf8_false`.
* **C32 Literal block output reads back** (partial). Every string that is written as a literal block loads as itself, at any place of a tree except as a key, if its first line does not begin with a space, it does not end in two line feeds and is not only line feeds; as a whole document also no leading tab and no line `...`. False for those: concrete witnesses. Which strings are written so: C32_characters_exact. Theorems: `C32_literal_partial`, `C32_literal_false`, `C32_characters_exact`.
* **C33 Tags survive emit and reload** (partial). Exact: with no declared handles a printed tag is read back as itself if and only if it is a local tag whose suffix is not empty and needs no escapes; with declared handles local tags still are. The full claim is false: `!`, verbatim tags, tags with a declared prefix, escaped bytes. Theorems: `C33_local_partial`, `C33_loads_partial`, `C33_tags_exact`, `C33_tags_false`.
* **C34 Emitting keeps indentation balanced** (partial). The level is restored for every value, setting and state. The layout (every item and entry on a line of its own indented by best_indent times its depth, everything belonging to it deeper) holds for every value whose tags contain no line break; with such a tag it is false. Theorems: `C34_level`, `C34_layout_partial`, `C34_nested_partial`, `C34_layout_false`.
* **C35 Loading one document returns the first of all documents** (partial). Any tokens. Loading one agrees with loading all, except that an error after the first document is not reported (C35_single_false). Theorems: `C35_single_partial`, `C35_single_false`.
* **C36 Token text is valid UTF-8** (proved). For every valid UTF-8 input and every token; the specification of UTF-8 is Lean's own encoder. Theorems: `C36_token_text_utf8`.
* **C37 %YAML version numbers are read exactly** (partial). Exact for numbers below 256. Larger ones wrap in a release build and panic in a debug build; ten or more digits are rejected. Theorems: `C37_version_exact_partial`, `C37_release_wraps`, `C37_long_numbers_rejected`, `C37_debug_panics`, `C37_version_exact_false`.
* **C38 Character classes partition as documented** (proved). All 256 byte values through case analysis on Nat, no bound. Theorems: `C38_blank_break_partition`, `C38_anchor_chars`, `C38_tag_chars`, `C38_as_hex`, `C38_alpha`.
* **C39 A finite input gives finitely many events** (proved). Linear bound on events, for every token list. Theorems: `C39_bounded`.
* **C40 Scalars pass through the parser unchanged and in order** (proved). For every token list and every prefix of the event stream. Theorems: `C40_scalars`.
* **C41 Plain booleans, floats and strings resolve exactly as the core schema says** (proved). Exact characterisation for every text; the float reader is an arbitrary parameter. Theorems: `C41_bool_exact`, `C41_float_exact`, `C41_string_is_text`.
* **C42 The parser accepts every token stream of the YAML token grammar and delivers the events it stands for** (partial). Every stream of the token grammar with at most one %TAG per document. The remaining case, a pair without key node inside [ ], is refuted (C42_flow_pair_false); several %TAG directives are refuted by C19_all_apply_false. Theorems: `C42_complete_partial`, `C42_flow_pair_false`.
* **C43 The buffered source is memory safe** (proved). Any text, any program: no uninitialised cell is read, no index is out of bounds. Theorems: `C43_memory_safe`.
* **C44 A tree that is written and loaded again is the same tree** (partial). Emitter, scanner, parser and loader composed: every printable tree (local tags only, one per node and none on keys; literal blocks as in C32 and not as keys, scalar keys of at most 1024 bytes, strings not beginning with 0o or +, floats that print with digits and resolve back) loads as itself. The full claim is false: 0o17, floats printed as integers, bad values. Theorems: `C44_roundtrip_partial`, `C44_roundtrip_false`.
* **C45 Type predicates and accessors of a node agree** (partial). Everything but the treatment of tagged nodes, which are reported bad and whose values no accessor reaches (C45_tagged_false). Theorems: `C45_access_partial`, `C45_write`, `C45_tagged_false`.
* **C46 JSON texts load as the values they stand for** (partial). All JSON texts but those with a lone carriage return as white space, surrogate pairs, or only tabs between a colon and a number or word; those fail (C46_json_false, for all iteration counts). Theorems: `C46_json_partial`, `C46_json_false`.
* **C47 The push interface sends what the pull interface gives** (partial). Everything but aliases to anchors of earlier documents, which load refuses and pulling delivers (C47_push_pull_false). C47_push_pull_exact: on a stream that can be pulled to its end, load succeeds if and only if every alias refers to an anchor of its own document, and then sends what is pulled. Theorems: `C47_push_pull_partial`, `C47_push_pull_false`, `C47_push_pull_exact`.
* **C48 Documents written one after the other load again as those documents** (partial). Proved for any number of printable documents (see C44) with a line break between them, where only the last may be a lone literal block; the exceptions are proved in C48_documents_false. Theorems: `C48_documents_partial`, `C48_documents_false`.
* **C49 A text loads the same with either kind of line ends** (partial). Proved for all texts without carriage returns on which the scanner does not panic (C08; for the documents: nor loops for ever, C09); for the others the claim is false (C49_line_ends_false). Theorems: `C49_same_tokens_partial`, `C49_same_documents_partial`, `C49_loads_same_partial`, `C49_line_ends_false`.
* **C50 Where the tokens stand does not matter to the parser** (proved).  Theorems: `C50_moved_events`, `C50_moved_load`, `C50_kinds_decide`.
* **C51 Enums deserialise** (partial). Proved, in both directions, for enums (and optional enums, C29) that are the whole document. False elsewhere: after an enum written as a mapping, the end of the mapping is read but not skipped, so the field after it is lost silently, and enums in sequences are errors. A variant without contents written as a mapping panics. Theorems: `C51_enum_partial`, `C51_enum_false`, `C51_fields_after_enums_false`, `C51_unit_in_mapping_false`, `C51_unit_panics`.
* **C52 Unknown fields are ignored** (partial). Proved for values that contain no collection as an element of a sequence or as a key of a mapping, and whose scalars resolve. False otherwise: an unknown field with the value [[1]] is an error. Theorems: `C52_unknown_partial`, `C52_unknown_false`, `C52_denied`.
* **C53 JSON texts deserialise** (partial). Proved from text to value, through scanner, parser, iterator and deserialiser, for the types of C29/C51 and all texts but those of C46, "" and "null" for optional values, -0 for unsigned integers, and unknown members with collections inside of arrays. False there: "null" as Option<String> is None. Theorems: `C53_typed_json_partial`, `C53_strings_are_null`, `C53_typed_json_false`.
* **C54 Hand-written block YAML loads as the tree it denotes** (partial). Proved for all texts of the grammar, anchors, aliases, tags and flow collections included, with the empty string in place of missing nodes (they are null in YAML: the claim is false there, C54_block_false, see C07), without integers with a misplaced sign (C05) and without document markers on indented lines of plain scalars (C55). Texts that begin with a byte order mark are left out: the scanner does not skip it. Theorems: `C54_block_partial`, `C54_block_false`.
* **C55 Scalars over several lines are folded** (partial). Proved for all such scalars, alone, as items and as values (and, with C54, anywhere in block style), without document markers at the beginning of an indented line of a plain scalar: there the claim is false (C55_lines_false). Theorems: `C55_lines_partial`, `C55_item_partial`, `C55_value_partial`, `C55_lines_false`.
* **C56 Block scalars load as the text they stand for** (partial). Proved for all block scalars with content, alone, as items and values with what follows (and, with C54, anywhere in block style); at the end of the text only with content to the left of column 125. For block scalars without content at the end of the text, and for content at column 125 or beyond, the claim is false (C56_scroll_false). Theorems: `C56_scroll_partial`, `C56_item_partial`, `C56_value_partial`, `C56_scroll_false`.
* **C57 A text with several documents loads as their values** (partial). Proved for all documents in block style as in C54-C56 and C58-C59, with the empty string for what is missing, and where no block scalar with its content in the first column comes before ---. For the latter, and with null for missing documents, the claim is false (C57_documents_false). Theorems: `C57_documents_partial`, `C57_documents_false`.
* **C58 Flow collections load as the values they stand for** (partial). Proved for all flow collections of the grammar (and, with C54 and C57, anywhere in block style and in several documents), with the empty string for what is missing, and without: a key and a value between [ and ]; plain scalars that end with a word - or begin with a colon; a line end between a collection and a colon with no white space after it. Apart from scalars that begin with a colon, the claim is false there in general (C58_flow_false). Theorems: `C58_flow_partial`, `C58_flow_false`.
* **C59 Anchors, aliases and tags mean what they say** (partial). C59_node_partial: every labelled node; C59_alias_partial: an alias after any items; C59_copy_partial and C59_copy_under_partial: a node and its copy. C54, C57 and C58 have anchors, aliases and tags anywhere in a text. Not covered, because the claim is false (C59_labels_false): !!int before numbers in hexadecimal or octal notation, tags of the core schema other than !!str on quoted scalars, !<tag:yaml.org,2002:...>; keys of block mappings with labels or aliases are not in the grammar. Theorems: `C59_node_partial`, `C59_alias_partial`, `C59_copy_partial`, `C59_copy_under_partial`, `C59_labels_false`.
* **C60 The parser refuses every token stream outside the YAML token grammar** (partial). C60_grammar_partial: accepted if and only if in the grammar, for all token sequences without KEY directly before VALUE, FLOW-ENTRY or FLOW-SEQUENCE-END and without %TAG directly before another directive; C60_text_partial: the same from the text. The claim for all token sequences is false (C60_grammar_false). C60_own_grammar_exact, C60_text_exact and C60_sound: without any restriction, the parser accepts exactly the grammar with the three rules marked loose added. Theorems: `C60_sound`, `C60_own_grammar_exact`, `C60_grammar_partial`, `C60_grammar_false`, `C60_text_exact`, `C60_text_partial`.
* **C61 Keys after a question mark** (partial). Proved for all keys and values within the limits of C54, with the empty string for what is missing, and without tagged keys; `? key` entries may be mixed with `key: value` entries anywhere in block style (C54). A text that ends directly after a `?` is refused (C61_explicit_false). Theorems: `C61_explicit_partial`, `C61_alone_partial`, `C61_explicit_false`.
* **C62 from_str on YAML in block style** (partial). Proved for the types that the deserialiser handles (C29, C51) and for all texts of the typed block grammar within the limits of C54, with integers in decimal notation, null spelled `null` or missing, no empty string and no string `null` for optional values, and unknown fields without collections inside of sequences. Flow sequences and mappings at any depth, explicit documents, directives and `...` are included. Anchors, aliases and tags, pairs in brackets and `?` in flow style are not part of this grammar. False in general: the quoted string "null" as Option<String> is None (C62_typed_block_false). Theorems: `C62_typed_block_partial`, `C62_typed_block_false`.
* **C63 to_pretty_string and from_str are inverse** (partial). Proved for all integers of every width (which they are: C63_integers_exact), booleans, floats that are shown as a number that parses back, strings that C30 covers (no quotes, backslashes, line breaks and tabs; either within the line width or without blanks next to each other or at the ends), null with the pretty formatter, and Some of these except Some("") and Some("null"). A character is written so that it loads as that character if and only if it is not NUL, a line feed or a carriage return (C63_char_exact). Sequences, maps, tuples, structs and enums are not written at all: the serialiser panics (C63_collections_panic). False in general: C63_read_back_false, C63_some_null (Some("null") is read as None), C63_negative_zero (-0.0 is read as 0.0), C63_nan (a NaN is read as a string), C63_none_default (with the default formatter None is written as an empty text, which is an error). Theorems: `C63_read_back_partial`, `C63_collections_panic`, `C63_some_null`, `C63_negative_zero`, `C63_none_default`, `C63_read_back_false`, `C63_integers_exact`, `C63_nan`, `C63_char_partial`, `C63_char_false`, `C63_char_exact`.
* **C64 A mistake in a text is reported, wherever it stands** (partial). C64_never_ok has no condition but iterations enough for the length of the text: no such text loads as documents or is pulled to its end. C64_fault_partial: it gives an error, unless the text is one of those on which the library loops for ever or panics (C08, C09). The full claim is false (C64_fault_false, C64_reserved_false). The mistakes include flow collections left open, at every place of the text (see C69). Missing: other mistakes in flow collections, mistakes after tags and anchors on the same line and in later documents. Theorems: `C64_never_ok`, `C64_fault_partial`, `C64_simple`, `C64_fault_false`, `C64_reserved_false`.
* **C65 Directives do what they say** (partial). Proved for one directive, or %YAML and another one, before any document of the grammar of C54-C59; with C57 before any document of a stream. With two %TAG directives the claim is false (C65_directives_false). Missing: prefixes that are a part of the prefix of the core schema or have it as a part, and percent escapes. Theorems: `C65_directives_partial`, `C65_directives_false`.
* **C66 from_str reports the mistakes in a text** (partial). Proved for handled types (those of C29) without Option, for every text and every parser run: a value is returned only if the parser delivered all the events of a node that denotes it without an error up to there (C66_events_partial, C66_text_partial). Missing: what comes after the value, and options. There the claim is false: C66_unknown_alias_false ({1: *u} reads as {1: Some(1)}), C66_after_value_false ([1] x reads as [1]). Theorems: `C66_events_partial`, `C66_text_partial`, `C66_unknown_alias_false`, `C66_after_value_false`.
* **C67 Nodes compare equal exactly if they are the same** (partial). Proved for every comparison of floats: equal exactly if the trees without their floats are the same and the floats at the same places compare equal; equality of trees if the comparison of floats is exact; symmetric and transitive if that is; the clone is the same tree (C67_equality_partial). Missing: a node with a NaN does not equal its clone (C67_nan_false). Theorems: `C67_equality_partial`, `C67_nan_false`.
* **C68 A SpannedYaml is a Yaml and a place** (partial). Proved for all reading accessors and the clone (C68_reads) and for all writing ones, tags, bad values, null, keys and take (C68_writes_partial). Missing: setting the place. There the claim is false: with_start, with_end and with_span leave the span as it was (C68_place_false). Theorems: `C68_reads`, `C68_writes_partial`, `C68_place_false`.
* **C69 Brackets left open are reported** (partial). Proved: whatever the tokens, no `[` stays open and the braces balance if the parser comes to the end of the stream (C69_tokens_partial), and all brackets balance if no `?` stands before `]`, `,` or `:` (C69_usual_partial). For texts: a flow collection with more brackets of one kind opened than closed never loads (C69_unclosed_partial) and gives an error (C69_error_partial); at any place of a text in block style, through C64. Too many closing brackets: false, `[? ] ]` loads (C69_balanced_false). Missing for texts: comments, tags, carriage returns and words beginning with `:` in the open collection. Theorems: `C69_tokens_partial`, `C69_usual_partial`, `C69_unclosed_partial`, `C69_error_partial`, `C69_balanced_false`.
* **C70 JSON that was cut off is reported** (partial). C70_never_partial: nothing that is left of a JSON array, object or string loads as documents or is pulled to its end, wherever it is cut off, after any spaces, tabs and line feeds and with any number of iterations. C70_error_partial: it gives an error, unless it is among the texts for which C09 is not proved; C70_crlf_partial: also with CR LF line ends. The full claim is false: with a carriage return alone, loading never comes to an end (C70_cut_false). Theorems: `C70_never_partial`, `C70_error_partial`, `C70_crlf_partial`, `C70_cut_false`.
* **C71 Reading a value from JSON that was cut off fails** (partial). C71_cut_partial: for all types without options, a JSON array, object or string that was cut off has no value. C71_unclosed_partial: the same for all flow collections that are left open, without comments, tags, carriage returns and words that begin with `:`. Missing: types with options (there an error may be taken for a value, see C66), structs that ignore unknown fields, carriage returns. Theorems: `C71_unclosed_partial`, `C71_cut_partial`.
* **C72 A node made of a Rust value holds that value** (partial). C72_from is the whole first half. C72_written_partial is the second half for values whose strings and floats survive the emitter (ScalarBack of C44); C72_written_false shows with `0o17` that the restriction is needed. Theorems: `C72_from`, `C72_written_partial`, `C72_written_false`.
* **C73 A wrong directive is reported** (partial). C73_never: a text with a wrong directive at its head never loads and is never pulled to the end of the stream. C73_error_partial: it gives an error, unless it is among the texts for which C09 is not proved. The full claim is false: a debug build panics on a version number above 255 (C73_error_false). Missing: wrong escapes in the prefix of a tag, and directives of later documents. Theorems: `C73_never`, `C73_error_partial`, `C73_simple`, `C73_error_false`.
* **C74 Directives belong to a document that begins with ---** (partial). C74_versions: two %YAML, whatever follows the second. C74_only: directives alone. Both give an error unconditionally, from every way of loading. C74_never: directives and then, at any indentation by spaces, anything else but `---` or a directive in the first column never load, whatever follows; C74_error_partial: that is an error, on the conditions of C09. Missing: tabs and carriage returns directly after the directives, directives of later documents, and the error without conditions (false where C09 is). Theorems: `C74_versions`, `C74_only`, `C74_never`, `C74_error_partial`.
* **C75 Events stand in the text, one after the other** (partial). C75_places: all events of all texts. C75_errors: all errors of all texts. C75_order_partial: the order of all events but ends of mappings; C75_order_false: in `[? a : [x]]` the end of the mapping is placed before an event pulled earlier. Theorems: `C75_places`, `C75_order_partial`, `C75_order_false`, `C75_errors`.
* **C76 A failing writer stops the emitter** (proved). C76_dump: the result, the calls and their answers, for every writer and after any earlier calls that succeeded. C76_room_exact: with room for n bytes dump succeeds if and only if the text has at most n bytes. C76_again: the level left by an earlier dump has no influence, whatever was written before. Theorems: `C76_dump`, `C76_room_exact`, `C76_again`.
* **C77 A failing writer stops the serialiser** (proved). C77_serialize: the result, the calls and their answers, for every writer and after any earlier calls that succeeded. C77_panics_exact: which values panic. C77_room_exact: with room for n bytes it succeeds if and only if the text has at most n bytes. C77_char: characters, which are not in the type of values. Theorems: `C77_serialize`, `C77_panics_exact`, `C77_room_exact`, `C77_char`.
* **C78 Text is never cut inside a character** (proved). C78_emitter, C78_dump, C78_serialize, C78_toPrettyString, C78_char. Assumed of what is outside the code: Display of floats gives valid UTF-8, a formatted value is passed in pieces that are valid UTF-8, and the word splitter (unicode-segmentation) gives valid UTF-8. Theorems: `C78_emitter`, `C78_serialize`, `C78_dump`, `C78_toPrettyString`, `C78_char`.
* **C79 What is loaded from a text is text** (proved). C79_events, C79_load, C79_load_single, C79_again (the last assumes that Display of floats gives valid UTF-8). Builds on C36_token_text_utf8 (tokens) and C78_dump (emitter). Theorems: `C79_events`, `C79_load`, `C79_load_single`, `C79_again`.

## Defects of the code that the proofs exposed

Each is a theorem with a concrete witness, or for all inputs of a family.

* Scanner panics: a reserved indicator (`@`, `` ` ``) less than four bytes before the end of the input (C08); `%YAML 256.0` with overflow checks (C08, C37).
* Scanner loops for ever: a carriage return without line feed, a NUL byte inside quotes, a literal block whose first line is indented by 125 or more
  spaces at the end of the input (C09).
* `a: [` leaves a block mapping without its end token (C11).
* `%YAML 1.256` is accepted as 1.0 without overflow checks (C37). Percent escapes of non-ASCII characters decode to wrong characters (C20).
* Only the last `%TAG` directive of a document counts; duplicate handles are accepted (C19). Anchors of earlier documents can be referred to through the
  pull interface (C18). After a failing `peek`, the next event is lost (C15). A pair without key inside `[ ]` is rejected (C42).
* The loader takes a tagged key for an empty slot: `{!t a: b}` loads as an empty mapping (C21). `load_single` hides errors after the first document (C35).
* The event iterator drops aliases and stops after the first document (C28).
* `0o17`, `++5`, `+.inf` are emitted without quotes as strings and load as other types (C04, C05, C44). An empty plain scalar is a string (C07). Core tags are
  ignored for quoted scalars and misapplied otherwise (C06). Floats with integral value and bad values do not survive a round trip (C44).
* Literal blocks lose leading spaces of the first line and trailing line feeds; a multi-line key breaks the mapping (C32). Tags are printed in a form that
  reads as another tag unless they are local ones (C33); a tag with a line break breaks the layout (C34).
* `node[0] = x` on a mapping never changes the value (C23).
* The buffered source disagrees with the string source on `skip(33)`, last lines without line break and white space before text (C24). Two SIMD masks are wrong, one
  panics always (C25). Plain display escaping is not injective (C26).
* Typed deserialisation misreads options, tuples and structs inside sequences, quoted nulls, `~` as string and hexadecimal integers (C29).
* The serialiser escapes nothing and changes two spaces at a wrap into a line break (C30); `escape_double_quotes` panics on truncated escapes and can produce
  invalid UTF-8 (C31).
* JSON that does not load: white space with a carriage return alone loops for ever, `"\ud83d\ude00"` is refused, and so is a tab alone between a colon and a
  number, `true`, `false` or `null` (C46).
* `load` refuses aliases to anchors of earlier documents, `next_event` delivers them (C47).
* A document that is a lone multi-line string written as a literal block swallows the following documents, since the block scalar scanner only stops at `...` (scanner.rs, scan_block_scalar) and the emitter writes the content at column 1; two `dump`s on one writer without a line break between them load as one document (`---\n1---\n2` is the string `1--- 2`) (C48).
* With line feeds some texts that end in `@`, a backtick or `%` and up to two more bytes panic (C08); with carriage returns and line feeds the same texts are longer and give an error (C49).
* **Enums inside of other values** (C51): `deserialize_enum` (de.rs 300–328) reads the `MapEnd` of `{N: 1}` but does not skip it. `{a: {N: 1}, b: 2}` as `struct { a: Enum, b: Option<i64> }` deserialises to `b: None` without an error; with `b: i64` it is an error; `[{N: 1}]` as `Vec<Enum>` is an error. `{U: null}` for a unit variant panics (`todo!()`, de.rs 502–504).
* **Unknown fields** (C52): ignoring a sequence that contains a collection fails, since `deserialize_any` looks for the start of the collection twice. `{x: [[1]], b: 2}` as `struct { b: i64 }` is an error.
* C54: a missing value or item in block style loads as the empty string, not as null; a byte order mark at the start of a text is not skipped but becomes part of the first scalar.
* C55: `a` followed by the line `  --- b` is one plain scalar, `a --- b`; the scanner ends plain scalars at `---` and `...` in every column, not only in the first, and then refuses the text: "unexpected end of plain scalar".
* C56: `>` followed by a line end is an empty block scalar, the empty string; it loads as a line feed. A block scalar at the end of the text whose content begins at column 125 or beyond makes the scanner loop for ever (see C09). A block scalar with its content in the first column does not end at `---`: `|`, `a`, `---`, `b` on four lines load as one document, the string "a\n---\nb\n".
* C57: `|`, `a`, `---`, `b` on four lines are two documents; they load as one, the string "a\n---\nb\n": a block scalar with its content in the first column does not end at `---` (it does at `...`).
* C58: `[a: {b: c, d: e}]` loads as `[{a: {b: c}, {d: e}: ''}]`: the first comma inside of the braces ends the mapping that `a:` began. `[a -]` is refused ("plain scalar cannot start with '-' followed by ,[]{}"), and so is `{[a]` with `:b}` on the next line.
* C59: `!!int 0x1F` loads as a bad value, `!!int "5"` as the string `5`, and `!<tag:yaml.org,2002:str> 12` as the integer 12 with the tag kept: core tags are recognised by their handle only, and are ignored on quoted scalars.
* C60: directly inside `[ ]`, the token after `?` is swallowed if it is `]`, `,` or `:`. `[ ? ] ]` is accepted, with one `]` too many, and so is `[ ? , , a]`; `[ ? ]` and `[ ? : b]` are refused.
* C61: a text that ends directly after a `?` is refused ("expected whitespace"), although it is a mapping of null to null.
* `to_pretty_string` panics (`todo!()`) on every sequence, map, tuple, struct and enum (C63_collections_panic); `None` with the default formatter is written as nothing, which `from_str` refuses (C63_none_default).
* **C64** (`C64_reserved_false`, `C64_fault_false`): a reserved character at the end of the text panics instead of giving an error, and an open quotation mark with a NUL after it makes the scanner loop for ever.
* **C65** (`C65_directives_false`): of several `%TAG` directives only the last one has an effect; a tag with a handle of another one is refused.
* **C66** `from_str` passes over mistakes. An `Option` re-reads the previous event when the iterator has failed: `{1: *u}` with an unknown anchor is `{1: Some(1)}` as `HashMap<i64, Option<i64>>`. The text after the value is not read: `[1] x` is `[1]`.
* **C67** A node that contains `.nan` anywhere does not equal its own clone, because floats are compared with `==` of `f64`.
* **C68** `SpannedYaml` does not override `with_start`, `with_end` and `with_span`, whose defaults ignore the place: the node keeps its old span.
* **C69** Too many closing brackets are accepted after `?` in a flow sequence: `[? ] ]` loads as `[{null: null}]` (the parser takes the first `]` for the end of the single pair).
* C72: a string like `0o17` that is turned into a node, written and loaded comes back as an integer (the emitter's bug of C04 and C44).
* C75: the end of a one-pair mapping in a flow sequence (`[? a : [x]]`) is placed at the end of the first token of its value (parser.rs 1550–1591), so inside of the value: its span goes back before events already delivered.
