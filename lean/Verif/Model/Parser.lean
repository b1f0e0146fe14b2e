import Verif.Model.Tokens
/-!
# The event parser: `yam-core/src/parsing/parser.rs`

The parser is modelled over an arbitrary sequence of tokens (`toks`) followed by what happens when the scanner stops
delivering tokens (`tail`). The scanner itself is modelled separately; the parser sees it only through
`Scanner::next`, so nothing is lost. The cargo feature `comment` is off.
-/
namespace Verif.Parser
open Verif

/-- `State`: parser.rs 101–127 -/
inductive PState
  | streamStart
  | implicitDocumentStart
  | documentStart
  | documentContent
  | documentEnd
  | blockNode
  | blockSequenceFirstEntry
  | blockSequenceEntry
  | indentlessSequenceEntry
  | blockMappingFirstKey
  | blockMappingKey
  | blockMappingValue
  | flowSequenceFirstEntry
  | flowSequenceEntry
  | flowSequenceEntryMappingKey
  | flowSequenceEntryMappingValue
  | flowSequenceEntryMappingEnd (m : Marker)
  | flowMappingFirstKey
  | flowMappingKey
  | flowMappingValue
  | flowMappingEmptyValue
  | endState
  | flowMappingFirstKeyCont
  | blockMappingValueCont
deriving DecidableEq, Repr

/-- What the scanner does once it has no more tokens: it stopped with an error (`Scanner::error`), it stopped at the end of
the stream, it panicked, or it never returns. -/
inductive Tail
  | error (e : YErr)
  | ended
  | panic
  | hang
deriving DecidableEq, Repr

/-- `Parser`: parser.rs 256–287, with the scanner replaced by the tokens it will deliver.
Maps (`BTreeMap`) are association lists with at most one entry per key; their iteration order is not observable here. -/
structure PSt where
  /-- tokens `Scanner::next` will still return -/
  toks : List Token
  /-- behaviour of `Scanner::next` after them -/
  tail : Tail
  /-- `scanner.mark` when the scanner has stopped -/
  endMark : Marker
  /-- `scanner.stream_start_produced`: a token has been delivered -/
  started : Bool
  /-- `scanner.stream_end_produced`: the `StreamEnd` token has been delivered -/
  ended : Bool
  /-- the state stack, top first -/
  states : List PState
  state : PState
  token : Option Token
  current : Option (Event × Span)
  anchors : List (List Byte × Nat)
  anchorIdCount : Nat
  tags : List (List Byte × List Byte)
  streamEndEmitted : Bool
  keepTags : Bool
deriving DecidableEq, Repr

/-- `Parser::new`: parser.rs 407–424 together with `keep_tags` 447–450 -/
def new (toks : List Token) (tail : Tail) (endMark : Marker) (keepTags : Bool) : PSt where
  toks := toks
  tail := tail
  endMark := endMark
  started := false
  ended := false
  states := []
  state := .streamStart
  token := none
  current := none
  anchors := []
  anchorIdCount := 1
  tags := []
  streamEndEmitted := false
  keepTags := keepTags

/-- Code working on `&mut self` that may fail or panic. The state survives an error, as it does in Rust. -/
def PM (α : Type) : Type := PSt → Res α × PSt

instance : Monad PM where
  pure a := fun s => (.ok a, s)
  bind m f := fun s =>
    match m s with
    | (.ok a, s') => f a s'
    | (.err e, s') => (.err e, s')
    | (.panic, s') => (.panic, s')
    | (.hang, s') => (.hang, s')

/-- `return Err(..)` -/
def throw {α} (e : YErr) : PM α := fun s => (.err e, s)

/-- a panicking branch (`unwrap` on `None`, `expect`, `unreachable!`, failed `assert!`) -/
def panic {α} : PM α := fun s => (.panic, s)

/-- `YamlError::new_str(span.start, msg)` as an error: prelude/mod.rs 165–170 -/
def throwAt {α} (sp : Span) (msg : String) : PM α := throw (.scanner sp.start msg)

/-- read a field -/
def gets {α} (f : PSt → α) : PM α := fun s => (.ok (f s), s)

/-- assignment to fields -/
def modify (f : PSt → PSt) : PM Unit := fun s => (.ok (), f s)

/-- `scan_next_token`: parser.rs 568–577, with `Scanner::next` (scanner.rs 2227–2238) inlined -/
def scanNextToken : PM Token := fun s =>
  match s.toks with
  | t :: ts => (.ok t, { s with toks := ts, started := true, ended := s.ended || t.tt == .streamEnd })
  | [] =>
    match s.tail with
    | .error e => (.err e, s)
    | .ended => (.err (.scanner s.endMark "unexpected eof"), s)
    | .panic => (.panic, s)
    | .hang => (.hang, s)

/-- `peek_token`: parser.rs 544–552 -/
def peekToken : PM Token := fun s =>
  match s.token with
  | some t => (.ok t, s)
  | none =>
    match scanNextToken s with
    | (.ok t, s') => (.ok t, { s' with token := some t })
    | r => r

/-- `fetch_token`: parser.rs 579–586; panics when no token was peeked -/
def fetchToken : PM Token := fun s =>
  match s.token with
  | some t => (.ok t, { s with token := none })
  | none => (.panic, s)

/-- `skip`: parser.rs 589–591 -/
def skip : PM Unit := modify fun s => { s with token := none }

/-- `pop_state`: parser.rs 593–595; panics on the empty stack -/
def popState : PM Unit := fun s =>
  match s.states with
  | st :: sts => (.ok (), { s with state := st, states := sts })
  | [] => (.panic, s)

/-- `push_state`: parser.rs 597–599 -/
def pushState (st : PState) : PM Unit := modify fun s => { s with states := st :: s.states }

/-- `self.state = st` -/
def setState (st : PState) : PM Unit := modify fun s => { s with state := st }

/-- `BTreeMap::get` -/
def mapGet {β} (m : List (List Byte × β)) (k : List Byte) : Option β := (m.find? (fun p => p.1 == k)).map (·.2)

/-- `BTreeMap::insert` -/
def mapInsert {β} (m : List (List Byte × β)) (k : List Byte) (v : β) : List (List Byte × β) :=
  (k, v) :: m.filter (fun p => p.1 != k)

/-- `register_anchor`: parser.rs 1001–1011 -/
def registerAnchor (name : List Byte) : PM Nat := fun s =>
  (.ok s.anchorIdCount,
    { s with anchorIdCount := s.anchorIdCount + 1, anchors := mapInsert s.anchors name s.anchorIdCount })

/-- `resolve_tag`: parser.rs 1593–1644 -/
def resolveTag (tags : List (List Byte × List Byte)) (span : Span) (handle suffix : List Byte) : Res Tag :=
  if handle == bs!"!!" then
    .ok ⟨(mapGet tags bs!"!!").getD bs!"tag:yaml.org,2002:", suffix⟩
  else if handle.isEmpty && suffix == bs!"!" then
    match mapGet tags [] with
    | some pref => .ok ⟨pref, suffix⟩
    | none => .ok ⟨[], suffix⟩
  else
    match mapGet tags handle with
    | some pref => .ok ⟨pref, suffix⟩
    | none =>
      if handle.length ≥ 2 ∧ handle.head? = some b%'!' ∧ handle.getLast? = some b%'!' then
        .err (.scanner span.start "the handle wasn't declared")
      else .ok ⟨handle, suffix⟩

/-- `self.resolve_tag(..)?` -/
def resolveTagM (span : Span) (handle suffix : List Byte) : PM Tag := fun s =>
  (resolveTag s.tags span handle suffix, s)

/-- `stream_start`: parser.rs 795–813 -/
def streamStart : PM (Event × Span) := do
  let t ← peekToken
  match t.tt with
  | .streamStart => do
    setState .implicitDocumentStart
    skip
    pure (.streamStart, t.span)
  | _ => throwAt t.span "did not find expected <stream-start>"

/-- the loop of `parser_process_directives`: parser.rs 876–916. One iteration per directive token; `fuel` bounds the number
of tokens left, see `processDirectives`. -/
def processDirectivesLoop : Nat → Bool → PM Unit
  | 0, _ => fun s => (.hang, s)
  | fuel + 1, versionReceived => do
    let t ← peekToken
    match t.tt with
    | .versionDirective _ _ =>
      if versionReceived then throwAt t.span "duplicate version directive"
      else do
        -- `tags` is a fresh empty map in every iteration
        modify fun s => { s with tags := [] }
        skip
        processDirectivesLoop fuel true
    | .tagDirective handle pref => do
      -- `tags.contains_key(handle)` is asked of the fresh empty map
      modify fun s => { s with tags := mapInsert [] handle pref }
      skip
      processDirectivesLoop fuel versionReceived
    | _ => pure ()

/-- `parser_process_directives`: parser.rs 876–916. Every iteration that continues consumes a token, so this fuel is never
used up (proved: `processDirectives_ne_hang`). -/
def processDirectives : PM Unit := fun s => processDirectivesLoop (s.toks.length + 2) false s

/-- `explicit_document_start`: parser.rs 918–938 -/
def explicitDocumentStart : PM (Event × Span) := do
  processDirectives
  let t ← peekToken
  match t.tt with
  | .documentStart => do
    pushState .documentEnd
    setState .documentContent
    skip
    pure (.documentStart true, t.span)
  | _ => throwAt t.span "did not find expected <document start>"

/-- `while let DocumentEnd = peek_token()?.token_type { self.skip() }`: parser.rs 819–821 -/
def skipDocumentEnds : Nat → PM Unit
  | 0 => fun s => (.hang, s)
  | fuel + 1 => do
    let t ← peekToken
    match t.tt with
    | .documentEnd => do
      skip
      skipDocumentEnds fuel
    | _ => pure ()

/-- `document_start`: parser.rs 815–858 -/
def documentStart (implicit : Bool) : PM (Event × Span) := do
  let n ← gets fun s => s.toks.length
  skipDocumentEnds (n + 2)
  let t ← peekToken
  match t.tt with
  | .streamEnd => do
    setState .endState
    skip
    pure (.streamEnd, t.span)
  | .versionDirective _ _ => explicitDocumentStart
  | .tagDirective _ _ => explicitDocumentStart
  | .documentStart => explicitDocumentStart
  | _ =>
    if implicit then do
      processDirectives
      pushState .documentEnd
      setState .blockNode
      pure (.documentStart false, t.span)
    else explicitDocumentStart

/-- what `parse_node` does once anchor and tag have been read: parser.rs 1080–1161 -/
def parseNodeContent (block indentless : Bool) (anchorId : Nat) (tag : Option Tag) : PM (Event × Span) := do
  let t ← peekToken
  let other : PM (Event × Span) :=
    if tag.isSome || anchorId > 0 then do
      popState
      pure (.scalar (.emptyWithAnchor anchorId tag), t.span)
    else throwAt t.span "while parsing a node, did not find expected node content"
  match t.tt with
  | .blockEntry =>
    if indentless then do
      setState .indentlessSequenceEntry
      pure (.sequenceStart anchorId tag, t.span)
    else other
  | .scalar style value => do
    popState
    let _ ← fetchToken
    pure (.scalar ⟨value, style, anchorId, tag⟩, t.span)
  | .flowSequenceStart => do
    setState .flowSequenceFirstEntry
    pure (.sequenceStart anchorId tag, t.span)
  | .flowMappingStart => do
    setState .flowMappingFirstKey
    pure (.mappingStart anchorId tag, t.span)
  | .blockSequenceStart =>
    if block then do
      setState .blockSequenceFirstEntry
      pure (.sequenceStart anchorId tag, t.span)
    else other
  | .blockMappingStart =>
    if block then do
      setState .blockMappingFirstKey
      pure (.mappingStart anchorId tag, t.span)
    else other
  | _ => other

/-- `parse_node`: parser.rs 1014–1162 -/
def parseNode (block indentless : Bool) : PM (Event × Span) := do
  let t ← peekToken
  match t.tt with
  | .alias name => do
    popState
    let _ ← fetchToken
    let anchors ← gets (·.anchors)
    match mapGet anchors name with
    | none => throwAt t.span "while parsing node, found unknown anchor"
    | some id => pure (.alias id, t.span)
  | .anchor name => do
    let _ ← fetchToken
    let id ← registerAnchor name
    let t2 ← peekToken
    match t2.tt with
    | .tag handle suffix => do
      let _ ← fetchToken
      let tag ← resolveTagM t.span handle suffix
      parseNodeContent block indentless id (some tag)
    | _ => parseNodeContent block indentless id none
  | .tag handle suffix => do
    let _ ← fetchToken
    let tag ← resolveTagM t.span handle suffix
    let t2 ← peekToken
    match t2.tt with
    | .anchor name => do
      let _ ← fetchToken
      let id ← registerAnchor name
      parseNodeContent block indentless id (some tag)
    | _ => parseNodeContent block indentless 0 (some tag)
  | _ => parseNodeContent block indentless 0 none

/-- `document_content`: parser.rs 940–960 -/
def documentContent : PM (Event × Span) := do
  let t ← peekToken
  let empty : PM (Event × Span) := do
    popState
    pure (.emptyScalar, t.span)
  match t.tt with
  | .versionDirective _ _ => empty
  | .tagDirective _ _ => empty
  | .documentStart => empty
  | .documentEnd => empty
  | .streamEnd => empty
  | _ => parseNode true false

/-- `document_end`: parser.rs 962–999 -/
def documentEnd : PM (Event × Span) := do
  let t ← peekToken
  let explicitEnd := t.tt == .documentEnd
  if explicitEnd then skip
  modify fun s => { s with tags := if s.keepTags then s.tags else [] }
  if explicitEnd then do
    setState .implicitDocumentStart
    pure (.documentEnd, t.span)
  else do
    let t2 ← peekToken
    match t2.tt with
    | .versionDirective _ _ => throwAt t2.span "missing explicit document end marker before directive"
    | .tagDirective _ _ => throwAt t2.span "missing explicit document end marker before directive"
    | _ => do
      setState .documentStart
      pure (.documentEnd, t.span)

/-- `block_mapping_key`: parser.rs 1164–1230 -/
def blockMappingKey (first : Bool) : PM (Event × Span) := do
  if first then
    let _ ← peekToken
    skip
  let t ← peekToken
  match t.tt with
  | .key => do
    skip
    let t2 ← peekToken
    let empty : PM (Event × Span) := do
      setState .blockMappingValue
      pure (.emptyScalar, t2.span)
    match t2.tt with
    | .key => empty
    | .value => empty
    | .blockEnd => empty
    | _ => do
      pushState .blockMappingValue
      parseNode true true
  | .value => do
    setState .blockMappingValue
    pure (.emptyScalar, t.span)
  | .blockEnd => do
    popState
    skip
    pure (.mappingEnd, t.span)
  | _ => throwAt t.span "while parsing a block mapping, did not find expected key"

/-- `block_mapping_value`: parser.rs 1232–1271 -/
def blockMappingValue (first : Bool) : PM (Event × Span) := do
  let t ← peekToken
  let isValue := t.tt == .value
  if isValue then skip
  if isValue || !first then do
    let t2 ← peekToken
    let empty : PM (Event × Span) := do
      setState .blockMappingKey
      pure (.emptyScalar, t2.span)
    match t2.tt with
    | .key => empty
    | .value => empty
    | .blockEnd => empty
    | _ => do
      pushState .blockMappingKey
      parseNode true true
  else do
    setState .blockMappingKey
    let t2 ← peekToken
    pure (.emptyScalar, t2.span)

/-- `KeyFlow`: parser.rs 1647–1652 -/
inductive KeyFlow
  | firstKey | firstKeyContinue | nonFirstKey
deriving DecidableEq, Repr

/-- `flow_mapping_key`: parser.rs 1273–1355 -/
def flowMappingKey (kf : KeyFlow) : PM (Event × Span) := do
  if kf == .firstKey then
    let _ ← peekToken
    skip
  let t ← peekToken
  let finish : PM (Event × Span) := do
    popState
    skip
    pure (.mappingEnd, t.span)
  match t.tt with
  | .flowMappingEnd => finish
  | _ => do
    if kf == .nonFirstKey then
      let t2 ← peekToken
      match t2.tt with
      | .flowEntry => skip
      | _ => throwAt t2.span "while parsing a flow mapping, did not find expected ',' or '}'"
    -- `||` does not peek when the left side holds
    let isKey ← if kf == .firstKeyContinue then pure true
      else do
        let t3 ← peekToken
        pure (t3.tt == .key)
    if isKey then do
      if kf != .firstKeyContinue then skip
      let t4 ← peekToken
      let empty : PM (Event × Span) := do
        setState .flowMappingValue
        pure (.emptyScalar, t4.span)
      match t4.tt with
      | .value => empty
      | .flowEntry => empty
      | .flowMappingEnd => empty
      | _ => do
        pushState .flowMappingValue
        parseNode false false
    else do
      let t5 ← peekToken
      match t5.tt with
      | .value => do
        setState .flowMappingValue
        pure (.emptyScalar, t5.span)
      | .flowMappingEnd => finish
      | _ => do
        pushState .flowMappingEmptyValue
        parseNode false false

/-- `flow_mapping_value`: parser.rs 1357–1388 -/
def flowMappingValue (empty : Bool) : PM (Event × Span) := do
  let t ← peekToken
  let finish : PM (Event × Span) := do
    setState .flowMappingKey
    pure (.emptyScalar, t.span)
  if empty then finish
  else
    match t.tt with
    | .value => do
      skip
      let t2 ← peekToken
      match t2.tt with
      | .flowEntry => finish
      | .flowMappingEnd => finish
      | _ => do
        pushState .flowMappingKey
        parseNode false false
    | _ => finish

/-- second half of `flow_sequence_entry`: parser.rs 1422–1444 -/
def flowSequenceEntryRest : PM (Event × Span) := do
  let t ← peekToken
  match t.tt with
  | .flowSequenceEnd => do
    popState
    skip
    pure (.sequenceEnd, t.span)
  | .key => do
    setState .flowSequenceEntryMappingKey
    skip
    pure (.mappingStart 0 none, t.span)
  | _ => do
    pushState .flowSequenceEntry
    parseNode false false

/-- `flow_sequence_entry`: parser.rs 1390–1445 -/
def flowSequenceEntry (first : Bool) : PM (Event × Span) := do
  if first then
    let _ ← peekToken
    skip
  let t ← peekToken
  match t.tt with
  | .flowSequenceEnd => do
    popState
    skip
    pure (.sequenceEnd, t.span)
  | .flowEntry => do
    if !first then skip
    flowSequenceEntryRest
  | _ =>
    if !first then throwAt t.span "while parsing a flow sequence, expected ',' or ']'"
    else flowSequenceEntryRest

/-- `indentless_sequence_entry`: parser.rs 1447–1475 -/
def indentlessSequenceEntry : PM (Event × Span) := do
  let t ← peekToken
  match t.tt with
  | .blockEntry => do
    skip
    let t2 ← peekToken
    let empty : PM (Event × Span) := do
      setState .indentlessSequenceEntry
      pure (.emptyScalar, t.span)
    match t2.tt with
    | .blockEntry => empty
    | .key => empty
    | .value => empty
    | .blockEnd => empty
    | _ => do
      pushState .indentlessSequenceEntry
      parseNode true false
  | _ => do
    popState
    pure (.sequenceEnd, t.span)

/-- `block_sequence_entry`: parser.rs 1477–1530 -/
def blockSequenceEntry (first : Bool) : PM (Event × Span) := do
  if first then
    let _ ← peekToken
    skip
  let t ← peekToken
  match t.tt with
  | .blockEnd => do
    popState
    skip
    pure (.sequenceEnd, t.span)
  | .blockEntry => do
    skip
    let t2 ← peekToken
    let empty : PM (Event × Span) := do
      setState .blockSequenceEntry
      pure (.emptyScalar, t2.span)
    match t2.tt with
    | .blockEntry => empty
    | .blockEnd => empty
    | _ => do
      pushState .blockSequenceEntry
      parseNode true false
  | _ => throwAt t.span "while parsing a block collection, did not find expected '-' indicator"

/-- `flow_sequence_entry_mapping_key`: parser.rs 1532–1548 -/
def flowSequenceEntryMappingKey : PM (Event × Span) := do
  let t ← peekToken
  let empty : PM (Event × Span) := do
    skip
    setState .flowSequenceEntryMappingValue
    pure (.emptyScalar, t.span)
  match t.tt with
  | .value => empty
  | .flowEntry => empty
  | .flowSequenceEnd => empty
  | _ => do
    pushState .flowSequenceEntryMappingValue
    parseNode false false

/-- `flow_sequence_entry_mapping_value`: parser.rs 1550–1582 -/
def flowSequenceEntryMappingValue : PM (Event × Span) := do
  let t ← peekToken
  match t.tt with
  | .value => do
    skip
    setState .flowSequenceEntryMappingValue
    let t2 ← peekToken
    let empty : PM (Event × Span) := do
      setState (.flowSequenceEntryMappingEnd t2.span.stop)
      pure (.emptyScalar, t2.span)
    match t2.tt with
    | .flowEntry => empty
    | .flowSequenceEnd => empty
    | _ => do
      pushState (.flowSequenceEntryMappingEnd t2.span.stop)
      parseNode false false
  | _ => do
    setState (.flowSequenceEntryMappingEnd t.span.stop)
    pure (.emptyScalar, t.span)

/-- `flow_sequence_entry_mapping_end`: parser.rs 1584–1591 -/
def flowSequenceEntryMappingEnd (m : Marker) : PM (Event × Span) := do
  setState .flowSequenceEntry
  pure (.mappingEnd, .empty m)

/-- the `match self.state` of `state_machine`: parser.rs 750–793 -/
def dispatch : PState → PM (Event × Span)
  | .streamStart => streamStart
  | .implicitDocumentStart => documentStart true
  | .documentStart => documentStart false
  | .documentContent => documentContent
  | .documentEnd => documentEnd
  | .blockNode => parseNode true false
  | .blockMappingFirstKey => blockMappingKey true
  | .blockMappingKey => blockMappingKey false
  | .blockMappingValue => blockMappingValue true
  | .blockMappingValueCont => blockMappingValue false
  | .blockSequenceFirstEntry => blockSequenceEntry true
  | .blockSequenceEntry => blockSequenceEntry false
  | .flowSequenceFirstEntry => flowSequenceEntry true
  | .flowSequenceEntry => flowSequenceEntry false
  | .flowMappingFirstKey => flowMappingKey .firstKey
  | .flowMappingFirstKeyCont => flowMappingKey .firstKeyContinue
  | .flowMappingKey => flowMappingKey .nonFirstKey
  | .flowMappingValue => flowMappingValue false
  | .indentlessSequenceEntry => indentlessSequenceEntry
  | .flowSequenceEntryMappingKey => flowSequenceEntryMappingKey
  | .flowSequenceEntryMappingValue => flowSequenceEntryMappingValue
  | .flowSequenceEntryMappingEnd m => flowSequenceEntryMappingEnd m
  | .flowMappingEmptyValue => flowMappingValue true
  | .endState => panic

/-- `state_machine`: parser.rs 750–793 -/
def stateMachine : PM (Event × Span) := fun s => dispatch s.state s

/-- `parse`: parser.rs 601–610 -/
def parse : PM (Event × Span) := fun s =>
  if s.state == .endState then (.ok (.streamEnd, .empty s.endMark), s)
  else stateMachine s

/-- `next_event_impl`: parser.rs 519–527 -/
def nextEventImpl : PM (Event × Span) := fun s =>
  match s.current with
  | none => parse s
  | some v => (.ok v, { s with current := none })

/-- `next_event` (and `Iterator::next`): parser.rs 481–491, 1668–1674. `ok none` is the iterator's `None`. -/
def nextEvent : PM (Option (Event × Span)) := fun s =>
  if s.streamEndEmitted then (.ok none, s)
  else
    match nextEventImpl s with
    | (.ok (ev, sp), s') =>
      (.ok (some (ev, sp)), if ev = .streamEnd then { s' with streamEndEmitted := true } else s')
    | (.err e, s') => (.err e, s')
    | (.panic, s') => (.panic, s')
    | (.hang, s') => (.hang, s')

/-- `peek`: parser.rs 462–475. `ok none` is `None`. -/
def peek : PM (Option (Event × Span)) := fun s =>
  match s.current with
  | some x => (.ok (some x), s)
  | none =>
    if s.streamEndEmitted then (.ok none, s)
    else
      match nextEventImpl s with
      | (.ok x, s') => (.ok (some x), { s' with current := some x })
      | (.err e, s') => (.err e, s')
      | (.panic, s') => (.panic, s')
      | (.hang, s') => (.hang, s')

/-- `get_anchor`: parser.rs 507–509 -/
def getAnchor (s : PSt) (id : Nat) : Option (List Byte) := (s.anchors.find? (fun p => p.2 == id)).map (·.1)

end Verif.Parser
