import Verif.Model.Utf8
/-!
# The serialiser: `yam-serde/src/ser.rs` and `yam-serde/src/escape_str.rs`

Strings are their UTF-8 bytes and the writer is a growing byte list (`String`, which never fails). Most methods of the
serialiser are `todo!()`; only scalars are written.
-/
namespace Verif.Ser
open Verif

/-! ## `escape_str.rs` -/

/-- `peekz_byte`: escape_str.rs 3–5 -/
def peekzByte (a : List Byte) (pos : Nat) : Byte := a.getD pos 0

/-- `u8::is_ascii_hexdigit` -/
def isHex (b : Byte) : Bool := (48 ≤ b && b ≤ 57) || (65 ≤ b && b ≤ 70) || (97 ≤ b && b ≤ 102)

/-- value of a digit: escape_str.rs 14–19 -/
def hexVal (b : Byte) : Nat :=
  if 48 ≤ b ∧ b ≤ 57 then b - 48 else if 97 ≤ b ∧ b ≤ 102 then b - 97 + 10 else if 65 ≤ b ∧ b ≤ 70 then b - 65 + 10 else 0

/-- `decode_hex`: escape_str.rs 6–49; the bytes written. At most six digits are passed, so the `u32` does not overflow. -/
def decodeHex (ds : List Byte) : List Byte :=
  if !ds.all isHex then Utf8.encode 0xFFFD
  else
    let cp := ds.foldl (fun acc d => acc * 16 + hexVal d) 0
    if cp = 0 then Utf8.encode 0xFFFD
    else if cp = 0x07 then bs!"\\a"
    else if cp = 0x08 then bs!"\\b"
    else if cp = 0x09 then bs!"\\t"
    else if cp = 0x0A then bs!"\\n"
    else if cp = 0x0B then bs!"\\v"
    else if cp = 0x0C then bs!"\\f"
    else if cp = 0x0D then bs!"\\r"
    else if cp = 0x1B then bs!"\\e"
    else if cp = 0x22 then bs!"\\\""
    else if cp = 0x2F then bs!"\\/"
    else if cp = 0x5C then bs!"\\\\"
    else if cp = 0x85 then bs!"\\N"
    else if cp = 0xA0 then bs!"\\_"
    else if cp = 0x2028 then bs!"\\L"
    else if cp = 0x2029 then bs!"\\P"
    else match Utf8.charFromU32 cp with
      | some c => Utf8.encode c
      | none => []

/-- `&bytes[a..b]`; `none` is the panic of a slice out of bounds -/
def slice (bytes : List Byte) (a b : Nat) : Option (List Byte) :=
  if a ≤ b ∧ b ≤ bytes.length then some ((bytes.take b).drop a) else none

/-- One turn of the loop of `escape_double_quotes`: escape_str.rs 56–109. State: `old_pos`, `pos` and what was written.
`none` is a panic. Writing `from_utf8_unchecked` of a slice is modelled as writing its bytes, whatever they are. -/
def escapeStep (bytes : List Byte) (old pos : Nat) (out : List Byte) : Option (Nat × Nat × List Byte) :=
  let c := peekzByte bytes pos
  let n := peekzByte bytes (pos + 1)
  let flush (step : Nat) (w : List Byte) : Option (Nat × Nat × List Byte) :=
    (slice bytes old pos).map fun p => (pos + step, pos + step, out ++ p ++ w)
  if c = b%'\\' ∧ (n = b%'t' ∨ n = b%'r' ∨ n = b%'n') then some (old, pos + 2, out)
  else if c = b%'\t' then flush 1 bs!"\\t"
  else if c = b%'\r' ∧ n = b%'\n' then flush 2 bs!"\\n"
  else if c = b%'\n' then flush 1 bs!"\\n"
  else if c = b%'\\' ∧ n = b%'x' then (slice bytes (pos + 2) (pos + 4)).bind fun d => flush 4 (decodeHex d)
  else if c = b%'\\' ∧ n = b%'u' then (slice bytes (pos + 2) (pos + 6)).bind fun d => flush 6 (decodeHex d)
  else if c = b%'\\' ∧ n = b%'U' then (slice bytes (pos + 2) (pos + 8)).bind fun d => flush 8 (decodeHex d)
  else some (old, pos + 1, out)

/-- The `while` loop of `escape_double_quotes`: escape_str.rs 55–110, at most `fuel` turns, and the last write: 111–113.
`none` is a panic. (`fuel` is never used up: every turn advances `pos`.) -/
def escapeLoop (bytes : List Byte) : Nat → Nat → Nat → List Byte → Option (List Byte)
  | fuel, old, pos, out =>
    if pos < bytes.length then
      match fuel with
      | 0 => none
      | fuel + 1 => match escapeStep bytes old pos out with
        | none => none
        | some (old', pos', out') => escapeLoop bytes fuel old' pos' out'
    else (slice bytes old pos).map (out ++ ·)

/-- `escape_double_quotes`: escape_str.rs 51–114. `none` is a panic. -/
def escapeDoubleQuotes (value : List Byte) : Option (List Byte) := escapeLoop value value.length 0 0 []

/-! ## `ser.rs` -/

/-- `PrettyFormatter`: ser.rs 249–268, the fields that are used -/
structure Formatter where
  depthLimit : Nat
  prefStringLength : Nat
  indentor : List Byte
  nullFormat : List Byte

/-- `PrettyFormatter::default`: ser.rs 270–281 -/
def Formatter.default : Formatter := ⟨0, 80, [], []⟩

/-- `PrettyFormatter::pretty`: ser.rs 284–293 -/
def Formatter.pretty : Formatter := ⟨10, 80, bs!"  ", bs!"null"⟩

/-- `is_splittable_ws`: ser.rs 17–19 -/
def isSplittableWs (w : List Byte) : Bool := w.all fun c => c == b%' ' || c == b%'\n'

/-- `is_last_char_splittable_ws`: ser.rs 21–26 -/
def isLastCharSplittableWs (w : List Byte) : Bool :=
  match w.getLast? with
  | some c => c == b%' ' || c == b%'\n'
  | none => false

/-- `line_split_at`: ser.rs 103–108, the bytes written at depth `depth` -/
def lineSplitAt (fm : Formatter) (depth : Nat) (line split : List Byte) : List Byte :=
  line ++ (if split = bs!" " then bs!"\n" else bs!"\n\n") ++ (List.replicate depth fm.indentor).flatten

/-- The loop of `write_double_quote_multi`: ser.rs 120–152. `line_buff` is `buff`, `line_buff_len` is `len`. The words and their
numbers of grapheme clusters come from the crate `unicode_segmentation` and are a parameter. -/
def multiLoop (fm : Formatter) (depth : Nat) : List (List Byte × Nat) → List Byte → Nat → List Byte
  | [], buff, _ => buff
  | (word, n) :: ws, buff, len =>
    if len + n > fm.prefStringLength then
      if isLastCharSplittableWs buff then
        lineSplitAt fm depth buff.dropLast (buff.drop (buff.length - 1)) ++ multiLoop fm depth ws word n
      else if isSplittableWs word then lineSplitAt fm depth buff word ++ multiLoop fm depth ws [] 0
      else multiLoop fm depth ws (buff ++ word) (len + n)
    else multiLoop fm depth ws (buff ++ word) (len + n)

/-- `write_double_quote_multi`: ser.rs 110–155 -/
def writeDoubleQuoteMulti (fm : Formatter) (depth : Nat) (words : List (List Byte × Nat)) : List Byte :=
  b%'"' :: multiLoop fm depth words [] 0 ++ [b%'"']

/-- `write_double_quote_single`: ser.rs 80–89 -/
def writeDoubleQuoteSingle (value : List Byte) : Option (List Byte) :=
  (escapeDoubleQuotes value).map fun e => b%'"' :: e ++ [b%'"']

/-- `use_complex_form`: ser.rs 158–160 -/
def useComplexForm (fm : Formatter) (depth : Nat) : Bool := depth ≤ fm.depthLimit

/-- `serialize_str`: ser.rs 398–405, with `words` the segmentation of `value`. `none` is a panic. -/
def serializeStr (fm : Formatter) (depth : Nat) (value : List Byte) (words : List (List Byte × Nat)) : Option (List Byte) :=
  if useComplexForm fm depth then some (writeDoubleQuoteMulti fm depth words) else writeDoubleQuoteSingle value

/-- `to_pretty_string` of a string: lib.rs 74–81. The depth is 0: nothing changes `current_depth`. -/
def toPrettyStringStr (fm : Formatter) (value : List Byte) (words : List (List Byte × Nat)) : Option (List Byte) :=
  serializeStr fm 0 value words

/-- `serialize_bool`: ser.rs 330–335 -/
def serializeBool (v : Bool) : List Byte := if v then bs!"true" else bs!"false"

/-- `serialize_char`: ser.rs 389–396; a character is its code point -/
def serializeChar (c : Nat) : List Byte :=
  let q := if c = b%'\'' then b%'"' else b%'\''
  q :: Utf8.encode c ++ [q]

end Verif.Ser
