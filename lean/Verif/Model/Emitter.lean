import Verif.Model.Scalar
/-!
# The emitter: `yam-core/src/saphyr_emitter/mod.rs`

Strings are their UTF-8 bytes. Every `char` pattern used on strings is ASCII except in
`is_valid_literal_block_scalar`, for which `chars` decodes. The writer is a growing byte list; for a failing
`fmt::Write` see `Model/EmitterIo.lean` (`String` never fails).
-/
namespace Verif.Emitter
open Verif

/-- The bytes `escape_str` escapes: mod.rs 32 -/
def needsEscape (b : Byte) : Bool := b == b%'"' || b == b%'\\' || b ≤ 0x1f || b == 0x7f

/-- Lower-case hexadecimal digit of `n < 16` -/
def hexDigit (n : Nat) : Byte := if n < 10 then b%'0' + n else b%'a' + (n - 10)

/-- The table of `escape_str`: mod.rs 44–81. The `\u00XX` rows of the table all spell the byte in lower-case hexadecimal
and are written here as one row. `none` is `unreachable!()`. -/
def escapeOf (b : Byte) : Option (List Byte) :=
  if b = b%'"' then some [b%'\\', b%'"']
  else if b = b%'\\' then some [b%'\\', b%'\\']
  else if b = 0x08 then some [b%'\\', b%'b']
  else if b = b%'\t' then some [b%'\\', b%'t']
  else if b = b%'\n' then some [b%'\\', b%'n']
  else if b = 0x0c then some [b%'\\', b%'f']
  else if b = b%'\r' then some [b%'\\', b%'r']
  else if b ≤ 0x1f ∨ b = 0x7f then some [b%'\\', b%'u', b%'0', b%'0', hexDigit (b / 16), hexDigit (b % 16)]
  else none

/-- The loop of `escape_str`: mod.rs 29–85. Copying the run up to the next byte to escape and then the escape is the same
as going byte by byte; the table is only consulted where `needsEscape` holds. -/
def escapeLoop : List Byte → Option (List Byte)
  | [] => some []
  | b :: rest =>
    if needsEscape b then
      match escapeOf b, escapeLoop rest with
      | some e, some r => some (e ++ r)
      | _, _ => none
    else (escapeLoop rest).map (b :: ·)

/-- `escape_str`: mod.rs 23–89. `none` would be the `unreachable!()` panic. -/
def escapeStr (v : List Byte) : Option (List Byte) :=
  (escapeLoop v).map fun m => b%'"' :: m ++ [b%'"']

/-- First-character class of `need_quotes`: mod.rs 378–383 -/
def badFirst (c : Byte) : Bool := (bs!"&*?|-<>=!%@").contains c

/-- Any-position class of `need_quotes`: mod.rs 384–402 -/
def badAnywhere (c : Byte) : Bool :=
  (bs!":{}[],#`\"'\\").contains c || c ≤ 0x06 || c == b%'\t' || c == b%'\n' || c == b%'\r'
    || (0x0e ≤ c && c ≤ 0x1a) || (0x1c ≤ c && c ≤ 0x1f)

/-- The word list of `need_quotes`: mod.rs 403–413 -/
def reservedWords : List (List Byte) :=
  [bs!"yes", bs!"Yes", bs!"YES", bs!"no", bs!"No", bs!"NO", bs!"True", bs!"TRUE", bs!"true", bs!"False", bs!"FALSE",
   bs!"false", bs!"on", bs!"On", bs!"ON", bs!"off", bs!"Off", bs!"OFF", bs!"null", bs!"Null", bs!"NULL", bs!"~"]

/-- `need_quotes`: mod.rs 371–418 -/
def needQuotes {F} (fo : FloatOps F) (s : List Byte) : Bool :=
  s.isEmpty
    || (s.head? == some b%' ' || s.getLast? == some b%' ')
    || (match s.head? with | some c => badFirst c | none => false)
    || s.any badAnywhere
    || reservedWords.contains s
    || s.head? == some b%'.'
    || (bs!"0x").isPrefixOf s
    || (Scalar.parseI64 s).isSome
    || (fo.parse s).isSome

/-- Rust core `str::chars` on valid UTF-8: the list of code points. -/
def chars : List Byte → List Nat
  | [] => []
  | a :: t =>
    if a < 0x80 then a :: chars t
    else match t with
      | [] => []
      | b :: t =>
        if a < 0xE0 then ((a % 32) * 64 + b % 64) :: chars t
        else match t with
          | [] => []
          | c :: t =>
            if a < 0xF0 then ((a % 16) * 4096 + (b % 64) * 64 + c % 64) :: chars t
            else match t with
              | [] => []
              | d :: t => ((a % 8) * 262144 + (b % 64) * 4096 + (c % 64) * 64 + d % 64) :: chars t

/-- The `char` pattern of `is_valid_literal_block_scalar`: yam-core/src/parsing/mod.rs 158–159 (with its `\u{d7fff}`) -/
def isLiteralChar (c : Nat) : Bool :=
  c == 0x9 || c == 0xA || (0x20 ≤ c && c ≤ 0x7e) || c == 0x85 || (0xa0 ≤ c && c ≤ 0xd7fff)

/-- `is_valid_literal_block_scalar`: yam-core/src/parsing/mod.rs 157–160 -/
def isValidLiteralBlockScalar (s : List Byte) : Bool := (chars s).all isLiteralChar

/-- Fields of `YamlEmitter` that never change while emitting: mod.rs 10–17 -/
structure Config where
  bestIndent : Nat := 2
  compact : Bool := true
  multilineStrings : Bool := false

/-- Output so far and the field `level`: mod.rs 11, 14 -/
structure ESt where
  out : List Byte
  level : Int
deriving DecidableEq, Repr

/-- `write!(self.writer, …)` -/
def ESt.put (s : ESt) (bs : List Byte) : ESt := { s with out := s.out ++ bs }

/-- `write_indent`: mod.rs 161–171 -/
def writeIndent (cfg : Config) (s : ESt) : ESt :=
  if s.level ≤ 0 then s else s.put (List.replicate (s.level.toNat * cfg.bestIndent) b%' ')

/-- Strip one trailing `\r`, as Rust core `str::lines` does for a line that ended in `\n`. -/
def stripCr (l : List Byte) : List Byte := if l.getLast? = some b%'\r' then l.dropLast else l

/-- Rust core `str::lines`: split at `\n`, a final empty piece is dropped, `\r\n` counts as one line end.
`cur` is the current line so far. -/
def linesAux (cur : List Byte) : List Byte → List (List Byte)
  | [] => if cur = [] then [] else [cur]
  | b :: rest => if b = b%'\n' then stripCr cur :: linesAux [] rest else linesAux (cur ++ [b]) rest

/-- Rust core `str::lines` -/
def lines (s : List Byte) : List (List Byte) := linesAux [] s

/-- The loop of `emit_literal_block`: mod.rs 249–254 -/
def emitLines (cfg : Config) : ESt → List (List Byte) → ESt
  | s, [] => s
  | s, l :: ls => emitLines cfg ((writeIndent cfg (s.put bs!"\n")).put l) ls

/-- `emit_literal_block`: mod.rs 239–257 -/
def emitLiteralBlock (cfg : Config) (s : ESt) (v : List Byte) : ESt :=
  let s := if v.getLast? = some b%'\n' then s.put bs!"|" else s.put bs!"|-"
  let s := { s with level := s.level + 1 }
  let s := emitLines cfg s (lines v)
  { s with level := s.level - 1 }

/-- `should_emit_string_as_block`: mod.rs 348–350 -/
def shouldEmitStringAsBlock (cfg : Config) (v : List Byte) : Bool :=
  cfg.multilineStrings && v.contains b%'\n' && isValidLiteralBlockScalar v

/-- `Display for Tag`: yam-core/src/parsing/mod.rs 240–248 -/
def displayTag (t : Tag) : List Byte :=
  if t.handle = bs!"!" then b%'!' :: t.suffix else t.handle ++ b%'!' :: t.suffix

/-- The scalar arms of `emit_node`: mod.rs 177–203. `escapeStr` never fails (`escapeStr_total`); its `none` is mapped to
no output. -/
def emitScalar {F} (fo : FloatOps F) (cfg : Config) (s : ESt) : Scalar F → ESt
  | .str v =>
    if shouldEmitStringAsBlock cfg v then emitLiteralBlock cfg s v
    else if needQuotes fo v then s.put ((escapeStr v).getD [])
    else s.put v
  | .bool b => s.put (if b then bs!"true" else bs!"false")
  | .int i => s.put (Scalar.displayI64 i)
  | .float f => s.put (fo.display f)
  | .null => s.put bs!"~"

/-- `is_non_empty_collection`, used at mod.rs 226 -/
def isNonEmptyCollection {F} : Yaml F → Bool
  | .seq (_ :: _) => true
  | .map (_ :: _) => true
  | _ => false

/-- `matches!(entry.key.0, Mapping(_) | Sequence(_))`: mod.rs 283–284 -/
def isComplexKey {F} : Yaml F → Bool
  | .seq _ => true
  | .map _ => true
  | _ => false

/-- The macro `write_collection!`: mod.rs 312–323 -/
def writeCollection (cfg : Config) (inline isEmpty : Bool) (s : ESt) : ESt :=
  if (inline && cfg.compact) || isEmpty then s.put bs!" "
  else
    let s := s.put bs!"\n"
    let s := { s with level := s.level + 1 }
    let s := writeIndent cfg s
    { s with level := s.level - 1 }

mutual
/-- `emit_node`: mod.rs 173–237 -/
def emitNode {F} (fo : FloatOps F) (cfg : Config) (s : ESt) : Yaml F → ESt
  | .seq v => emitSequence fo cfg s v
  | .map h => emitMapping fo cfg s h
  | .scalar x => emitScalar fo cfg s x
  | .bad => s.put bs!"~"
  | .tagged tag node =>
    let s := s.put (displayTag tag ++ bs!" ")
    let s := if isNonEmptyCollection node then
        let s := { s with level := s.level + 1 }
        let s := writeIndent cfg (s.put bs!"\n")
        { s with level := s.level - 1 }
      else s
    emitNode fo cfg s node
  | .alias _ => s

/-- `emit_sequence`: mod.rs 259–275 -/
def emitSequence {F} (fo : FloatOps F) (cfg : Config) (s : ESt) : List (Yaml F) → ESt
  | [] => s.put bs!"[]"
  | x :: xs =>
    let s := { s with level := s.level + 1 }
    let s := emitVal fo cfg true (s.put bs!"-") x
    let s := emitItems fo cfg s xs
    { s with level := s.level - 1 }

/-- The turns `cnt > 0` of the loop of `emit_sequence`: mod.rs 264–271 -/
def emitItems {F} (fo : FloatOps F) (cfg : Config) (s : ESt) : List (Yaml F) → ESt
  | [] => s
  | x :: xs =>
    let s := writeIndent cfg (s.put bs!"\n")
    let s := emitVal fo cfg true (s.put bs!"-") x
    emitItems fo cfg s xs

/-- `emit_mapping`: mod.rs 277–305 -/
def emitMapping {F} (fo : FloatOps F) (cfg : Config) (s : ESt) : List (Yaml F × Yaml F) → ESt
  | [] => s.put bs!"{}"
  | e :: es =>
    let s := { s with level := s.level + 1 }
    let s := emitEntry fo cfg s e
    let s := emitEntries fo cfg s es
    { s with level := s.level - 1 }

/-- The turns `cnt > 0` of the loop of `emit_mapping`: mod.rs 282–301 -/
def emitEntries {F} (fo : FloatOps F) (cfg : Config) (s : ESt) : List (Yaml F × Yaml F) → ESt
  | [] => s
  | e :: es =>
    let s := writeIndent cfg (s.put bs!"\n")
    let s := emitEntry fo cfg s e
    emitEntries fo cfg s es

/-- One entry: mod.rs 283–284, 289–300 -/
def emitEntry {F} (fo : FloatOps F) (cfg : Config) (s : ESt) : Yaml F × Yaml F → ESt
  | (key, value) =>
    if isComplexKey key then
      let s := emitVal fo cfg true (s.put bs!"?") key
      let s := writeIndent cfg (s.put bs!"\n")
      emitVal fo cfg true (s.put bs!":") value
    else
      let s := emitNode fo cfg s key
      emitVal fo cfg false (s.put bs!":") value

/-- `emit_val`: mod.rs 311–339 -/
def emitVal {F} (fo : FloatOps F) (cfg : Config) (inline : Bool) (s : ESt) : Yaml F → ESt
  | .seq v => emitSequence fo cfg (writeCollection cfg inline v.isEmpty s) v
  | .map v => emitMapping fo cfg (writeCollection cfg inline v.isEmpty s) v
  | .scalar x => emitScalar fo cfg (s.put bs!" ") x
  | .bad => (s.put bs!" ").put bs!"~"
  | .tagged tag node =>
    let s := (s.put bs!" ").put (displayTag tag ++ bs!" ")
    let s := if isNonEmptyCollection node then
        let s := { s with level := s.level + 1 }
        let s := writeIndent cfg (s.put bs!"\n")
        { s with level := s.level - 1 }
      else s
    emitNode fo cfg s node
  | .alias _ => s.put bs!" "
end

/-- `dump`: mod.rs 154–159 -/
def dump {F} (fo : FloatOps F) (cfg : Config) (doc : Yaml F) : List Byte :=
  (emitNode fo cfg { out := bs!"---\n", level := -1 } doc).out

end Verif.Emitter
