import Verif.Model.Bytes
/-!
# UTF-8 in Rust's standard library

Only what the scanner uses: `char::from_u32`, `char::to_string().as_bytes()` and `String::from_utf8`.
-/
namespace Verif.Utf8
open Verif

/-- `char::from_u32`: the code points that are Unicode scalar values. A `char` is represented by its code point. -/
def charFromU32 (v : Nat) : Option Nat :=
  if v < 0xD800 ∨ (0xE000 ≤ v ∧ v < 0x110000) then some v else none

/-- `ch.to_string().as_bytes()` (`char::encode_utf8`) -/
def encode (c : Nat) : List Byte :=
  if c < 0x80 then [c]
  else if c < 0x800 then [0xC0 + c / 64, 0x80 + c % 64]
  else if c < 0x10000 then [0xE0 + c / 4096, 0x80 + c / 64 % 64, 0x80 + c % 64]
  else [0xF0 + c / 262144, 0x80 + c / 4096 % 64, 0x80 + c / 64 % 64, 0x80 + c % 64]

/-- State of a UTF-8 validator: between characters, or `more + 1` continuation bytes are missing, the next of which must lie in
`lo..=hi`. -/
inductive St
  | start
  | need (more lo hi : Nat)
deriving DecidableEq, Repr

/-- One byte of `core::str::from_utf8`'s validation (Unicode standard, table 3-7). -/
def step : St → Byte → Option St
  | .start, b =>
    if b < 0x80 then some .start
    else if b < 0xC2 then none
    else if b < 0xE0 then some (.need 0 0x80 0xBF)
    else if b = 0xE0 then some (.need 1 0xA0 0xBF)
    else if b = 0xED then some (.need 1 0x80 0x9F)
    else if b < 0xF0 then some (.need 1 0x80 0xBF)
    else if b = 0xF0 then some (.need 2 0x90 0xBF)
    else if b < 0xF4 then some (.need 2 0x80 0xBF)
    else if b = 0xF4 then some (.need 2 0x80 0x8F)
    else none
  | .need n lo hi, b =>
    if lo ≤ b ∧ b ≤ hi then
      match n with
      | 0 => some .start
      | n + 1 => some (.need n 0x80 0xBF)
    else none

/-- Validation of a byte string from a state. -/
def run : St → List Byte → Option St
  | st, [] => some st
  | st, b :: bs => (step st b).bind (run · bs)

/-- `String::from_utf8(bs).is_ok()` -/
def valid (bs : List Byte) : Bool := run .start bs == some .start

end Verif.Utf8
