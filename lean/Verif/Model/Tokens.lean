import Verif.Model.Types
/-!
# Positions, errors, tokens and events
-/
namespace Verif

/-- `Marker`: yam-core/src/prelude/mod.rs 31–40. `usize`/`u32` fields are unbounded naturals. -/
structure Marker where
  pos : Nat
  col : Nat
  line : Nat
deriving DecidableEq, Repr

/-- `Marker::default()` (derived): all fields zero. prelude/mod.rs 30 -/
def Marker.default : Marker := ⟨0, 0, 0⟩

/-- `Span`: prelude/mod.rs 44–49 -/
structure Span where
  start : Marker
  stop : Marker
deriving DecidableEq, Repr

/-- `Span::empty`: prelude/mod.rs 58–63 -/
def Span.empty (m : Marker) : Span := ⟨m, m⟩

/-- `YamlError`: prelude/mod.rs 93–125. Variants that the modelled code never builds are left out. -/
inductive YErr
  | unexpectedEof
  | scanner (mark : Marker) (info : String)
  | noDocument
  | unexpectedEvent (expected found : String)
deriving DecidableEq, Repr

/-- Outcome of a piece of code. `panic` stands for every Rust panic and for undefined behaviour of an `unsafe` block whose
precondition is violated; `hang` is the outcome of a loop that used up the fuel it was given. -/
inductive Res (α : Type) : Type
  | ok (a : α)
  | err (e : YErr)
  | panic
  | hang
deriving DecidableEq, Repr

/-- `TokenType`: yam-core/src/parsing/mod.rs 36–71 -/
inductive TokenType
  | streamStart
  | streamEnd
  | documentStart
  | documentEnd
  | blockSequenceStart
  | blockMappingStart
  | blockEnd
  | blockEntry
  | flowEntry
  | key
  | value
  | comment (text : List Byte)
  | flowSequenceStart
  | flowSequenceEnd
  | flowMappingStart
  | flowMappingEnd
  | alias (name : List Byte)
  | anchor (name : List Byte)
  | versionDirective (major minor : Nat)
  | tagDirective (handle pref : List Byte)
  | tag (handle suffix : List Byte)
  | scalar (style : ScalarType) (value : List Byte)
deriving DecidableEq, Repr

/-- `Token`: yam-core/src/parsing/scanner.rs 43–47 -/
structure Token where
  span : Span
  tt : TokenType
deriving DecidableEq, Repr

/-- `ScalarValue`: yam-core/src/parsing/parser.rs 34–46 -/
structure ScalarValue where
  value : List Byte
  style : ScalarType
  anchorId : Nat
  tag : Option Tag
deriving DecidableEq, Repr

/-- `ScalarValue::empty_scalar`: parser.rs 56–64 -/
def ScalarValue.empty : ScalarValue := ⟨[], .plain, 0, none⟩

/-- `ScalarValue::empty_scalar_with_anchor`: parser.rs 67–77 -/
def ScalarValue.emptyWithAnchor (anchorId : Nat) (tag : Option Tag) : ScalarValue := ⟨[], .plain, anchorId, tag⟩

/-- `Event`: parser.rs 134–173. `Nothing` is never built by the parser and is left out. -/
inductive Event
  | streamStart
  | streamEnd
  | documentStart (explicit : Bool)
  | documentEnd
  | alias (id : Nat)
  | comment (text : List Byte)
  | scalar (v : ScalarValue)
  | sequenceStart (anchorId : Nat) (tag : Option Tag)
  | sequenceEnd
  | mappingStart (anchorId : Nat) (tag : Option Tag)
  | mappingEnd
deriving DecidableEq, Repr

/-- `Event::empty_scalar`: parser.rs 176–178 -/
def Event.emptyScalar : Event := .scalar .empty

end Verif
