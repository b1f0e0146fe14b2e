import Verif.Spec.Anchors
import Verif.Spec.ParserRuns
/-!
# Specification: the grammar of token streams and the events they stand for

This is the grammar in the header comment of libyaml's `parser.c`, from which the parser descends, with the events written
beside each rule:

    stream              ::= STREAM-START implicit_document? explicit_document* STREAM-END
    implicit_document   ::= block_node DOCUMENT-END*
    explicit_document   ::= DIRECTIVE* DOCUMENT-START block_node? DOCUMENT-END*
    node                ::= ALIAS | properties content? | content
    properties          ::= TAG ANCHOR? | ANCHOR TAG?
    block_content       ::= block_sequence | block_mapping | flow_content
    flow_content        ::= flow_sequence | flow_mapping | SCALAR
    block_sequence      ::= BLOCK-SEQUENCE-START (BLOCK-ENTRY block_node?)* BLOCK-END
    indentless_sequence ::= (BLOCK-ENTRY block_node?)+
    block_mapping       ::= BLOCK-MAPPING-START ((KEY node?)? (VALUE node?)?)* BLOCK-END
    flow_sequence       ::= FLOW-SEQUENCE-START (flow_sequence_entry FLOW-ENTRY)* flow_sequence_entry? FLOW-SEQUENCE-END
    flow_sequence_entry ::= flow_node | KEY flow_node (VALUE flow_node?)?
    flow_mapping        ::= FLOW-MAPPING-START (flow_mapping_entry FLOW-ENTRY)* flow_mapping_entry? FLOW-MAPPING-END
    flow_mapping_entry  ::= flow_node | (KEY flow_node?)? (VALUE flow_node?)?

A missing node is an empty plain scalar. The names of the anchors seen so far are threaded through: an anchor gets the
number of its occurrence, an alias the number of the last anchor of that name.

The one rule of libyaml's grammar left out is `KEY` without a node in a `flow_sequence_entry`; the parser gets that case
wrong (`C42_flow_pair_false`).
-/
namespace Verif.Spec
open Verif

/-- where a node stands: in a block collection or a document, as key or value of a block mapping (where an indentless
sequence may stand), or in a flow collection -/
inductive Place
  | block | pair | flow
deriving DecidableEq

/-- the nonterminals -/
inductive NT
  /-- one node -/
  | node (p : Place)
  /-- a node or nothing -/
  | node? (p : Place)
  /-- the part of a node after anchor and tag -/
  | content (p : Place) (anchor : Nat) (tag : Option Tag)
  /-- `(BLOCK-ENTRY block_node?)*`, of an ordinary or an indentless sequence -/
  | items (indentless : Bool)
  /-- `((KEY node?)? (VALUE node?)?)*` -/
  | entries
  /-- what stands between `[` and `]` -/
  | flowItems
  /-- what stands between `{` and `}` -/
  | flowEntries

/-- `properties`: the tokens, the anchor number, the tag, and the anchor names before and after. `lookup` gives the prefixes
declared by `%TAG`. -/
inductive Properties (lookup : List Byte → Option (List Byte)) :
    List (List Byte) → List TokenType → Nat → Option Tag → List (List Byte) → Prop
  | anchor {ns n} : Properties lookup ns [.anchor n] (ns.length + 1) none (ns ++ [n])
  | tag {ns h sf t} : ReadsAs lookup h sf t → Properties lookup ns [.tag h sf] 0 (some t) ns
  | anchorTag {ns n h sf t} : ReadsAs lookup h sf t →
      Properties lookup ns [.anchor n, .tag h sf] (ns.length + 1) (some t) (ns ++ [n])
  | tagAnchor {ns n h sf t} : ReadsAs lookup h sf t →
      Properties lookup ns [.tag h sf, .anchor n] (ns.length + 1) (some t) (ns ++ [n])

/-- `DerivesL loose lookup nt ns toks evs ns'`: the tokens `toks` are an `nt`, standing for the events `evs`, after anchors named
`ns`; `ns'` adds the anchors in `toks`. With `loose` there are two more rules, which YAML does not have but the parser follows: directly
between `[` and `]`, the token after `KEY` is taken for a missing key if it is `VALUE`, `FLOW-ENTRY` or `FLOW-SEQUENCE-END`. -/
inductive DerivesL (loose : Bool) (lookup : List Byte → Option (List Byte)) :
    NT → List (List Byte) → List TokenType → List Event → List (List Byte) → Prop
  -- node ::= ALIAS | properties content? | content
  | alias {p ns n id} : lastDef ns n = some id → DerivesL loose lookup (.node p) ns [.alias n] [.alias id] ns
  | bare {p ns c evs ns'} : DerivesL loose lookup (.content p 0 none) ns c evs ns' → DerivesL loose lookup (.node p) ns c evs ns'
  | props {p ns q a t ns1 c evs ns'} : Properties lookup ns q a t ns1 →
      DerivesL loose lookup (.content p a t) ns1 c evs ns' → DerivesL loose lookup (.node p) ns (q ++ c) evs ns'
  | propsOnly {p ns q a t ns1} : Properties lookup ns q a t ns1 →
      DerivesL loose lookup (.node p) ns q [.scalar ⟨[], .plain, a, t⟩] ns1
  -- node?
  | absent {p ns} : DerivesL loose lookup (.node? p) ns [] [.scalar ⟨[], .plain, 0, none⟩] ns
  | present {p ns c evs ns'} : DerivesL loose lookup (.node p) ns c evs ns' → DerivesL loose lookup (.node? p) ns c evs ns'
  -- content
  | scalar {p a t ns st v} : DerivesL loose lookup (.content p a t) ns [.scalar st v] [.scalar ⟨v, st, a, t⟩] ns
  | blockSeq {p a t ns c evs ns'} : p ≠ .flow → DerivesL loose lookup (.items false) ns c evs ns' →
      DerivesL loose lookup (.content p a t) ns (.blockSequenceStart :: (c ++ [.blockEnd]))
        (.sequenceStart a t :: (evs ++ [.sequenceEnd])) ns'
  | indentless {a t ns c evs ns'} : c ≠ [] → DerivesL loose lookup (.items true) ns c evs ns' →
      DerivesL loose lookup (.content .pair a t) ns c (.sequenceStart a t :: (evs ++ [.sequenceEnd])) ns'
  | blockMap {p a t ns c evs ns'} : p ≠ .flow → DerivesL loose lookup .entries ns c evs ns' →
      DerivesL loose lookup (.content p a t) ns (.blockMappingStart :: (c ++ [.blockEnd]))
        (.mappingStart a t :: (evs ++ [.mappingEnd])) ns'
  | flowSeq {p a t ns c evs ns'} : DerivesL loose lookup .flowItems ns c evs ns' →
      DerivesL loose lookup (.content p a t) ns (.flowSequenceStart :: (c ++ [.flowSequenceEnd]))
        (.sequenceStart a t :: (evs ++ [.sequenceEnd])) ns'
  | flowMap {p a t ns c evs ns'} : DerivesL loose lookup .flowEntries ns c evs ns' →
      DerivesL loose lookup (.content p a t) ns (.flowMappingStart :: (c ++ [.flowMappingEnd]))
        (.mappingStart a t :: (evs ++ [.mappingEnd])) ns'
  -- (BLOCK-ENTRY block_node?)*
  | noItems {i ns} : DerivesL loose lookup (.items i) ns [] [] ns
  | item {i ns x ex ns1 c evs ns'} : DerivesL loose lookup (.node? .block) ns x ex ns1 →
      DerivesL loose lookup (.items i) ns1 c evs ns' →
      DerivesL loose lookup (.items i) ns (.blockEntry :: (x ++ c)) (ex ++ evs) ns'
  -- ((KEY node?)? (VALUE node?)?)*
  | noEntries {ns} : DerivesL loose lookup .entries ns [] [] ns
  | keyValue {ns k ek ns1 v ev ns2 c evs ns'} : DerivesL loose lookup (.node? .pair) ns k ek ns1 →
      DerivesL loose lookup (.node? .pair) ns1 v ev ns2 → DerivesL loose lookup .entries ns2 c evs ns' →
      DerivesL loose lookup .entries ns (.key :: (k ++ (.value :: (v ++ c)))) (ek ++ (ev ++ evs)) ns'
  | keyOnly {ns k ek ns1 c evs ns'} : DerivesL loose lookup (.node? .pair) ns k ek ns1 →
      DerivesL loose lookup .entries ns1 c evs ns' → c.head? ≠ some .value →
      DerivesL loose lookup .entries ns (.key :: (k ++ c)) (ek ++ (.scalar ⟨[], .plain, 0, none⟩ :: evs)) ns'
  | valueOnly {ns v ev ns2 c evs ns'} : DerivesL loose lookup (.node? .pair) ns v ev ns2 →
      DerivesL loose lookup .entries ns2 c evs ns' →
      DerivesL loose lookup .entries ns (.value :: (v ++ c)) (.scalar ⟨[], .plain, 0, none⟩ :: (ev ++ evs)) ns'
  -- (flow_sequence_entry FLOW-ENTRY)* flow_sequence_entry?
  | noFlowItems {ns} : DerivesL loose lookup .flowItems ns [] [] ns
  | flowItem {ns x ex ns1 sep c evs ns'} : DerivesL loose lookup (.node .flow) ns x ex ns1 →
      DerivesL loose lookup .flowItems ns1 c evs ns' → (sep = [.flowEntry] ∨ sep = [] ∧ c = []) →
      DerivesL loose lookup .flowItems ns (x ++ (sep ++ c)) (ex ++ evs) ns'
  | flowPair {ns k ek ns1 v ev ns2 sep c evs ns'} : DerivesL loose lookup (.node .flow) ns k ek ns1 →
      DerivesL loose lookup (.node? .flow) ns1 v ev ns2 → DerivesL loose lookup .flowItems ns2 c evs ns' →
      (sep = [.flowEntry] ∨ sep = [] ∧ c = []) →
      DerivesL loose lookup .flowItems ns (.key :: (k ++ (.value :: (v ++ (sep ++ c)))))
        (.mappingStart 0 none :: (ek ++ (ev ++ (.mappingEnd :: evs)))) ns'
  | flowPairKey {ns k ek ns1 sep c evs ns'} : DerivesL loose lookup (.node .flow) ns k ek ns1 →
      DerivesL loose lookup .flowItems ns1 c evs ns' → (sep = [.flowEntry] ∨ sep = [] ∧ c = []) →
      DerivesL loose lookup .flowItems ns (.key :: (k ++ (sep ++ c)))
        (.mappingStart 0 none :: (ek ++ (.scalar ⟨[], .plain, 0, none⟩ :: .mappingEnd :: evs))) ns'
  | oddPair {ns x v ev ns1 sep c evs ns'} : loose = true → (x = .value ∨ x = .flowEntry ∨ x = .flowSequenceEnd) →
      DerivesL loose lookup (.node? .flow) ns v ev ns1 → DerivesL loose lookup .flowItems ns1 c evs ns' →
      (sep = [.flowEntry] ∨ sep = [] ∧ c = []) →
      DerivesL loose lookup .flowItems ns (.key :: x :: .value :: (v ++ (sep ++ c)))
        (.mappingStart 0 none :: .scalar ⟨[], .plain, 0, none⟩ :: (ev ++ (.mappingEnd :: evs))) ns'
  | oddPairKey {ns x sep c evs ns'} : loose = true → (x = .value ∨ x = .flowEntry ∨ x = .flowSequenceEnd) →
      DerivesL loose lookup .flowItems ns c evs ns' → (sep = [.flowEntry] ∨ sep = [] ∧ c = []) →
      DerivesL loose lookup .flowItems ns (.key :: x :: (sep ++ c))
        (.mappingStart 0 none :: .scalar ⟨[], .plain, 0, none⟩ :: .scalar ⟨[], .plain, 0, none⟩ :: .mappingEnd :: evs) ns'
  -- (flow_mapping_entry FLOW-ENTRY)* flow_mapping_entry?
  | noFlowEntries {ns} : DerivesL loose lookup .flowEntries ns [] [] ns
  | flowSingle {ns x ex ns1 sep c evs ns'} : DerivesL loose lookup (.node .flow) ns x ex ns1 →
      DerivesL loose lookup .flowEntries ns1 c evs ns' → (sep = [.flowEntry] ∨ sep = [] ∧ c = []) →
      DerivesL loose lookup .flowEntries ns (x ++ (sep ++ c)) (ex ++ (.scalar ⟨[], .plain, 0, none⟩ :: evs)) ns'
  | flowKeyValue {ns k ek ns1 v ev ns2 sep c evs ns'} : DerivesL loose lookup (.node? .flow) ns k ek ns1 →
      DerivesL loose lookup (.node? .flow) ns1 v ev ns2 → DerivesL loose lookup .flowEntries ns2 c evs ns' →
      (sep = [.flowEntry] ∨ sep = [] ∧ c = []) →
      DerivesL loose lookup .flowEntries ns (.key :: (k ++ (.value :: (v ++ (sep ++ c))))) (ek ++ (ev ++ evs)) ns'
  | flowKeyOnly {ns k ek ns1 sep c evs ns'} : DerivesL loose lookup (.node? .flow) ns k ek ns1 →
      DerivesL loose lookup .flowEntries ns1 c evs ns' → (sep = [.flowEntry] ∨ sep = [] ∧ c = []) →
      DerivesL loose lookup .flowEntries ns (.key :: (k ++ (sep ++ c))) (ek ++ (.scalar ⟨[], .plain, 0, none⟩ :: evs)) ns'
  | flowValueOnly {ns v ev ns1 sep c evs ns'} : DerivesL loose lookup (.node? .flow) ns v ev ns1 →
      DerivesL loose lookup .flowEntries ns1 c evs ns' → (sep = [.flowEntry] ∨ sep = [] ∧ c = []) →
      DerivesL loose lookup .flowEntries ns (.value :: (v ++ (sep ++ c))) (.scalar ⟨[], .plain, 0, none⟩ :: (ev ++ evs)) ns'

/-- the grammar of YAML -/
abbrev Derives := DerivesL false

/-- the prefix some `%TAG` directive declares for a handle -/
def declaredBy : List TokenType → List Byte → Option (List Byte)
  | [], _ => none
  | .tagDirective h' p :: ds, h => if h' = h then some p else declaredBy ds h
  | _ :: ds, h => declaredBy ds h

/-- a `%YAML` directive -/
def isVersion : TokenType → Bool
  | .versionDirective _ _ => true
  | _ => false

/-- a `%YAML` or `%TAG` directive -/
def isDirectiveTok : TokenType → Bool
  | .versionDirective _ _ => true
  | .tagDirective _ _ => true
  | _ => false

/-- `DerivesDocsL loose free ns toks evs`: the tokens `toks`, up to and with `STREAM-END`, stand for the events `evs`. `free`: no
document is open, so that a document may begin without `---` or with directives.

Only the last directive of a document is allowed to be a `%TAG`, since the parser forgets the others
(`C19_all_apply_false`). With `loose` there may be any, with at most one `%YAML` among them, and only the last of them counts. -/
inductive DerivesDocsL (loose : Bool) : Bool → List (List Byte) → List TokenType → List Event → Prop
  | stop {free ns} : DerivesDocsL loose free ns [.streamEnd] [.streamEnd]
  | strayEnd {ns toks evs} : DerivesDocsL loose true ns toks evs → DerivesDocsL loose true ns (.documentEnd :: toks) evs
  | implicit {ns c ec ns1 closed toks evs} : DerivesL loose (fun _ => none) (.node .block) ns c ec ns1 →
      DerivesDocsL loose closed ns1 toks evs →
      DerivesDocsL loose true ns (c ++ ((if closed then [.documentEnd] else []) ++ toks))
        (.documentStart false :: (ec ++ (.documentEnd :: evs)))
  | explicit {free ns v d c ec ns1 closed toks evs} :
      (v = [] ∨ ∃ a b, v = [.versionDirective a b]) → (d = [] ∨ ∃ h p, d = [.tagDirective h p]) →
      (free = true ∨ v ++ d = []) → DerivesL loose (declaredBy (v ++ d)) (.node? .block) ns c ec ns1 →
      DerivesDocsL loose closed ns1 toks evs →
      DerivesDocsL loose free ns (v ++ (d ++ (.documentStart :: (c ++ ((if closed then [.documentEnd] else []) ++ toks)))))
        (.documentStart true :: (ec ++ (.documentEnd :: evs)))
  | directives {free ns ds c ec ns1 closed toks evs} : loose = true → (∀ d ∈ ds, isDirectiveTok d = true) → ds.countP isVersion ≤ 1 →
      (free = true ∨ ds = []) → DerivesL loose (declaredBy ds.getLast?.toList) (.node? .block) ns c ec ns1 →
      DerivesDocsL loose closed ns1 toks evs →
      DerivesDocsL loose free ns (ds ++ (.documentStart :: (c ++ ((if closed then [.documentEnd] else []) ++ toks))))
        (.documentStart true :: (ec ++ (.documentEnd :: evs)))

/-- the grammar of YAML -/
abbrev DerivesDocs := DerivesDocsL false

end Verif.Spec
