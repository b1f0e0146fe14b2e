import Verif.Model.SerValue
import Verif.Model.EmitterIo
/-!
# The serialiser on a writer that may fail: `yam-serde/src/ser.rs`

`Model/Ser.lean` and `Model/SerValue.lean` are about `to_pretty_string`, which writes to a `String`. `YamSerializer` takes any `fmt::Write`
(`new_pretty`: ser.rs 43–54, `new_simple`: 211–221). The writer and the way in which `write!` cuts values are those of `Model/EmitterIo.lean`; `level` there
belongs to the emitter and is never touched here. The field `pos` is counted but never read in ser.rs, and is left out. `write_char` of a writer passes the UTF-8
bytes of the character to `write_str`, as the default method of `fmt::Write` does.
-/
namespace Verif.SerIo
open Verif Verif.Ser Verif.De Verif.EmitterIo
variable {F : Type}

/-- `write_indentors`: ser.rs 95–101 -/
def writeIndentorsIo (W : Writer) (fm : Formatter) : Nat → WM
  | 0 => done
  | n + 1 => write W fm.indentor ?; writeIndentorsIo W fm n

/-- `line_split_at`: ser.rs 103–108 -/
def lineSplitAtIo (W : Writer) (fm : Formatter) (depth : Nat) (line split : List Byte) : WM :=
  write W line ?; write W (if split = bs!" " then bs!"\n" else bs!"\n\n") ?; writeIndentorsIo W fm depth

/-- The loop of `write_double_quote_multi`: ser.rs 120–151, and the write after it: 152 -/
def multiLoopIo (W : Writer) (fm : Formatter) (depth : Nat) : List (List Byte × Nat) → List Byte → Nat → WM
  | [], buff, _ => write W buff
  | (word, n) :: ws, buff, len =>
    if len + n > fm.prefStringLength then
      if isLastCharSplittableWs buff then
        lineSplitAtIo W fm depth buff.dropLast (buff.drop (buff.length - 1)) ?; multiLoopIo W fm depth ws word n
      else if isSplittableWs word then lineSplitAtIo W fm depth buff word ?; multiLoopIo W fm depth ws [] 0
      else multiLoopIo W fm depth ws (buff ++ word) (len + n)
    else multiLoopIo W fm depth ws (buff ++ word) (len + n)

/-- `write_double_quote_multi`: ser.rs 110–155 -/
def writeDoubleQuoteMultiIo (W : Writer) (fm : Formatter) (depth : Nat) (words : List (List Byte × Nat)) : WM :=
  write W bs!"\"" ?; multiLoopIo W fm depth words [] 0 ?; write W bs!"\""

/-- `write_double_quote_single`: ser.rs 80–89. The escaped text is made in a `String` first; `none` is a panic there, before any call. -/
def writeDoubleQuoteSingleIo (W : Writer) (value : List Byte) : Option WM :=
  (escapeDoubleQuotes value).map fun e => write W bs!"\"" ?; write W e ?; write W bs!"\""

/-- `serialize_str`: ser.rs 398–405 -/
def serializeStrIo (W : Writer) (fm : Formatter) (depth : Nat) (value : List Byte) (words : List (List Byte × Nat)) : Option WM :=
  if useComplexForm fm depth then some (writeDoubleQuoteMultiIo W fm depth words) else writeDoubleQuoteSingleIo W value

/-- `serialize_char`: ser.rs 389–396 -/
def serializeCharIo (W : Writer) (c : Nat) : WM :=
  let q := if c = b%'\'' then b%'"' else b%'\''
  write W [q] ?; write W (Utf8.encode c) ?; write W [q]

/-- `serialize_f64`: ser.rs 379–387 -/
def serializeFloatIo (W : Writer) (cut : Cut) (fo : FloatOps F) (ext : Extern F) (x : F) : WM :=
  (if ext.negativeNan x then write W bs!"-" else done) ?; writeAll W (cut (fo.display x))

/-- `value.serialize(&mut serializer)` at depth 0: ser.rs 309–511. `none` is the panic of `todo!()`, before any call. -/
def serializeIo (W : Writer) (cut : Cut) (fo : FloatOps F) (ext : Extern F) (fm : Formatter) : Val F → Option WM
  | .int i => some (writeAll W (cut (Scalar.displayI64 i)))
  | .bool b => some (write W (if b then bs!"true" else bs!"false"))
  | .float x => some (serializeFloatIo W cut fo ext x)
  | .str s => serializeStrIo W fm 0 s (ext.words s)
  | .unit => some (write W fm.nullFormat)
  | .none => some (write W fm.nullFormat)
  | .some v => serializeIo W cut fo ext fm v
  | .vec _ | .map _ | .tuple _ | .record _ | .variant _ _ => none

end Verif.SerIo
