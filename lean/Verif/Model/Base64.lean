import Verif.Model.Bytes
/-!
# Base64: `yam-serde/src/binary.rs`

The 32-bit accumulator is modelled exactly: shifting left drops the bits above 2^32.
-/
namespace Verif.Base64
open Verif

/-- binary.rs 4–5 -/
def charset : List Byte := bs!"ABCDEFGHIJKLMNOPQRSTUVWXYZabcdefghijklmnopqrstuvwxyz0123456789+/"

/-- Rust `u32 << k`, for `k < 32` -/
def shl32 (x k : Nat) : Nat := (x <<< k) % 2 ^ 32

/-- Local variables of both loops: `buffer`, `bits_collected`, `output`. binary.rs 9–11, 33–35 -/
structure St where
  buffer : Nat
  bits : Nat
  output : List Byte
deriving DecidableEq, Repr

/-- One turn of the loop of `decode_as_base64`, after the `=` test: binary.rs 16–26 -/
def decStep (s : St) (byte : Byte) : St :=
  if byte = b%' ' ∨ byte = b%'\n' ∨ byte = b%'\r' then s
  else match charset.findIdx? (· == byte) with
    | none => s
    | some position =>
      let buffer := shl32 s.buffer 6 ||| position
      let bits := s.bits + 6
      if bits ≥ 8 then
        { buffer, bits := bits - 8, output := s.output ++ [(buffer >>> (bits - 8)) % 256] }
      else { s with buffer, bits }

/-- The loop of `decode_as_base64`: binary.rs 13–27 (`=` stops it) -/
def decLoop (s : St) : List Byte → St
  | [] => s
  | byte :: rest => if byte = b%'=' then s else decLoop (decStep s byte) rest

/-- `decode_as_base64`: binary.rs 7–30 -/
def decode (input : List Byte) : List Byte := (decLoop ⟨0, 0, []⟩ input).output

/-- `BASE64_CHARSET[index]` with `index = x as usize & 0x3F`: binary.rs 42–43, 48–49 (never out of bounds) -/
def letter (x : Nat) : Byte := charset.getD (x &&& 0x3F) 0

/-- The inner `while bits_collected >= 6`: binary.rs 40–44. It runs at most `bits/6` times; `fuel` bounds it and
`encStep` supplies `bits`, which is always enough. -/
def encInner : Nat → St → St
  | 0, s => s
  | fuel + 1, s =>
    if s.bits ≥ 6 then
      encInner fuel { s with bits := s.bits - 6, output := s.output ++ [letter (s.buffer >>> (s.bits - 6))] }
    else s

/-- One turn of the loop of `encode_as_base64`: binary.rs 37–45 -/
def encStep (s : St) (byte : Byte) : St :=
  encInner (s.bits + 8) { s with buffer := shl32 s.buffer 8 ||| byte, bits := s.bits + 8 }

/-- `while !output.len().is_multiple_of(4) { output.push('=') }`: binary.rs 50–52. At most three turns. -/
def pad : Nat → List Byte → List Byte
  | 0, out => out
  | fuel + 1, out => if out.length % 4 ≠ 0 then pad fuel (out ++ [b%'=']) else out

/-- `encode_as_base64`: binary.rs 32–56 -/
def encode (input : List Byte) : List Byte :=
  let s := input.foldl encStep ⟨0, 0, []⟩
  if s.bits > 0 then pad 4 (s.output ++ [letter (shl32 s.buffer (6 - s.bits))]) else s.output

end Verif.Base64
