import Verif.Model.Parser
/-!
# The event iterator: `yam-core/src/parsing/parser_iter.rs`
-/
namespace Verif.ParserIter
open Verif Verif.Parser

/-- `YamEvent`: parser_iter.rs 14–25 -/
inductive YamEvent
  | docStart
  | docEnd
  | streamEnd
  | alias (id : Nat)
  | scalar (v : ScalarValue)
  | seqStart (anchorId : Nat) (tag : Option Tag)
  | seqEnd
  | mapStart (anchorId : Nat) (tag : Option Tag)
  | mapEnd
deriving DecidableEq, Repr

/-- `State`: parser_iter.rs 6–12 -/
inductive ItState
  | streamStart | inDocument | endDocument
deriving DecidableEq, Repr

/-- `ParserIter`: parser_iter.rs 51–55 -/
structure ItSt where
  p : PSt
  state : ItState
  error : Option YErr

/-- `ParserIter::new`: parser_iter.rs 67–73 -/
def start (p : PSt) : ItSt := ⟨p, .streamStart, none⟩

/-- `Event::as_simple_str`: parser.rs 237–252 -/
def simpleStr : Event → String
  | .streamStart => "StreamStart"
  | .streamEnd => "StreamEnd"
  | .documentStart _ => "DocumentStart"
  | .documentEnd => "DocumentEnd"
  | .alias _ => "Alias"
  | .comment _ => "Comment"
  | .scalar _ => "Scalar"
  | .sequenceStart _ _ => "SequenceStart"
  | .sequenceEnd => "SequenceEnd"
  | .mappingStart _ _ => "MappingStart"
  | .mappingEnd => "MappingEnd"

/-- `self.parser.next_event_impl()?.0`, then the rest -/
def withEvent {α} (it : ItSt) (f : Event → PSt → Res α × ItSt) : Res α × ItSt :=
  match nextEventImpl it.p with
  | (.ok (ev, _), p) => f ev p
  | (.err e, p) => (.err e, { it with p := p })
  | (.panic, p) => (.panic, { it with p := p })
  | (.hang, p) => (.hang, { it with p := p })

/-- `process_start`: parser_iter.rs 105–124 -/
def processStart (it : ItSt) : Res YamEvent × ItSt :=
  withEvent it fun ev p =>
    if ev ≠ .streamStart then (.err (.unexpectedEvent "StreamStart" (simpleStr ev)), { it with p := p })
    else withEvent { it with p := p } fun ev p =>
      match ev with
      | .documentStart _ => (.ok .docStart, { it with p := p, state := .inDocument })
      | _ => (.err (.unexpectedEvent "DocStart" (simpleStr ev)), { it with p := p })

/-- `process_doc` (parser_iter.rs 126–163) within the loop of `next` (81–90). The fuel is an artefact of the model; `next` supplies
enough (part of `C28`). -/
def processDoc : Nat → ItSt → Res YamEvent × ItSt
  | 0, it => (.hang, it)
  | fuel + 1, it => withEvent it fun ev p =>
    match ev with
    | .alias _ | .comment _ => processDoc fuel { it with p := p }
    | .streamStart => (.err (.unexpectedEvent "StreamStart" (simpleStr ev)), { it with p := p })
    | .streamEnd => (.err (.unexpectedEvent "StreamEnd" (simpleStr ev)), { it with p := p })
    | .documentStart _ => (.err (.unexpectedEvent "DocumentStart" (simpleStr ev)), { it with p := p })
    | .documentEnd => (.ok .docEnd, { it with p := p, state := .endDocument })
    | .scalar v => (.ok (.scalar v), { it with p := p })
    | .sequenceStart a t => (.ok (.seqStart a t), { it with p := p })
    | .sequenceEnd => (.ok .seqEnd, { it with p := p })
    | .mappingStart a t => (.ok (.mapStart a t), { it with p := p })
    | .mappingEnd => (.ok .mapEnd, { it with p := p })

/-- `finish_document`: parser_iter.rs 165–176 -/
def finishDocument (it : ItSt) : Res YamEvent × ItSt :=
  withEvent it fun ev p =>
    if ev ≠ .streamEnd then (.err (.unexpectedEvent "StreamStart" (simpleStr ev)), { it with p := p })
    else (.ok .streamEnd, { it with p := p })

/-- `Iterator::next`: parser_iter.rs 80–101. The result is never `err`: errors are stored and end the iteration. -/
def next (it : ItSt) : Res (Option YamEvent) × ItSt :=
  let res := match it.state with
    | .streamStart => processStart it
    | .inDocument => processDoc (it.p.toks.length + 3) it
    | .endDocument => finishDocument it
  match res with
  | (.err e, it) => (.ok none, { it with error := some e })
  | (.ok .streamEnd, it) => (.ok none, it)
  | (.ok r, it) => (.ok (some r), it)
  | (.panic, it) => (.panic, it)
  | (.hang, it) => (.hang, it)

end Verif.ParserIter
