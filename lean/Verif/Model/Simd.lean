import Verif.Model.Bytes
/-!
# Byte vectors: `yam-core/src/util/{mod,u8x16,u8x32}.rs`

A vector is the list of its lanes. The Rust code writes one line per lane; here the lanes are enumerated by `List.range`. Bytes are
natural numbers below 256 and the bit operations on them are those of `Nat`. A `u32` mask is a `BitVec 32`.
-/
namespace Verif.Simd
open Verif

/-- lane `n` of a vector (`Index::index`, u8x16.rs 8–14 and u8x32.rs 35–41). The indices in the code are constants within the vector,
except in `U8X16::to_bitmask`. -/
def lane (v : List Byte) (n : Nat) : Byte := v[n]?.getD 0

/-- `U8X16::splat`: u8x16.rs 17–19 -/
def splat16 (b : Byte) : List Byte := List.replicate 16 b

/-- `gen_u8_cmp!`: util/mod.rs 43–47 -/
def cmpBit (v : List Byte) (n : Nat) (c : Byte) : BitVec 32 := if lane v n = c then 1#32 <<< n else 0#32

/-- `comp_to_bitmask`: u8x16.rs 29–46 (16 lanes), u8x32.rs 47–80 (32 lanes) -/
def compToBitmask (lanes : Nat) (v : List Byte) (c : Byte) : BitVec 32 :=
  (List.range lanes).foldl (fun acc n => acc ||| cmpBit v n c) 0#32

/-- `comp`, with the macro `gen_u8_cmp_all!`: u8x16.rs 64–83, u8x32.rs 82–117, util/mod.rs 49–53 -/
def comp (lanes : Nat) (v : List Byte) (c : Byte) : List Byte :=
  (List.range lanes).map fun n => if lane v n = c then 0xFF else 0

/-- `bitmask!`: util/mod.rs 65–69 -/
def topBit (v : List Byte) (n : Nat) : BitVec 32 := if lane v n &&& 0x80 ≠ 0 then 1#32 <<< n else 0#32

/-- `U8X32::to_bitmask`: u8x32.rs 119–152 -/
def toBitmask32 (v : List Byte) : BitVec 32 := (List.range 32).foldl (fun acc n => acc ||| topBit v n) 0#32

/-- `U8X16::to_bitmask`: u8x16.rs 85–118. It reads lanes 0 to 31 of a vector of 16, in this order; `none` is the panic of an index
out of bounds. -/
def toBitmask16 (v : List Byte) : Option (BitVec 32) :=
  (List.range 32).foldlM (fun acc n => if n < v.length then some (acc ||| topBit v n) else none) 0#32

/-- `swizzle`, with the macro: u8x16.rs 120–139, u8x32.rs 154–189, util/mod.rs 55–63. `v` is the table. -/
def swizzle (lanes : Nat) (v other : List Byte) : List Byte :=
  (List.range lanes).map fun n => if lane other n > 0x0f then 0 else lane v (lane other n &&& 0x0f)

/-- `and`: u8x16.rs 141–160, u8x32.rs 191–226 -/
def and (lanes : Nat) (v other : List Byte) : List Byte := (List.range lanes).map fun n => lane v n &&& lane other n

/-- `and_byte`: u8x16.rs 203–205, u8x32.rs 228–230 -/
def andByte (v : List Byte) (b : Byte) : List Byte := v.map (· &&& b)

/-- `shift_right`: u8x16.rs 162–181, u8x32.rs 232–267. Not modelled: the overflow panic for a shift of 8 or more (the only shift
is by 4). -/
def shiftRight (lanes : Nat) (v : List Byte) (k : Nat) : List Byte := (List.range lanes).map fun n => lane v n >>> k

/-- `add_other`: u8x16.rs 183–202, u8x32.rs 269–304. Lanes are added in order; `none` is the overflow panic of a debug build. -/
def addOther (lanes : Nat) (v other : List Byte) : Option (List Byte) :=
  (List.range lanes).mapM fun n => if lane v n + lane other n < 256 then some (lane v n + lane other n) else none

/-- `U8X32::split`: u8x32.rs 18–23 -/
def split (v : List Byte) : List Byte × List Byte := (v.take 16, v.drop 16)

/-- `U8X32::merge`: u8x32.rs 25–32 -/
def merge (low high : List Byte) : List Byte := (List.range 16).map (lane low) ++ (List.range 16).map (lane high)

/-- `LOW_NIBBLE_WS`: util/mod.rs 8–9 -/
def lowNibbleWs : List Byte := [4, 0, 0, 0, 0, 0, 0, 0, 0, 1, 2, 0, 0, 2, 0, 0]

/-- `HIGH_NIBBLE_WS`: util/mod.rs 11–12 -/
def highNibbleWs : List Byte := [3, 0, 12, 0, 0, 0, 0, 0, 0, 0, 0, 0, 0, 0, 0, 0]

/-- The classification of sixteen bytes in `skip_ws_to_eol`: buffered_source.rs 168–169 and 176–179 -/
def classify (v : List Byte) : List Byte :=
  and 16 (swizzle 16 lowNibbleWs (and 16 v (splat16 0xF)))
    (swizzle 16 highNibbleWs (and 16 (shiftRight 16 v 4) (splat16 0x7F)))

/-- The mask of the bytes of a block whose class has one of the bits `flag`: buffered_source.rs 181–185 -/
def flagMask (block : List Byte) (flag : Byte) : BitVec 32 :=
  let v := split block
  ~~~ (toBitmask32 (comp 32 (merge (andByte (classify v.1) flag) (andByte (classify v.2) flag)) 0))

/-- `u32::trailing_zeros` -/
def trailingZeros (m : BitVec 32) : Nat := (List.range 32).findIdx (m.getLsbD ·)

end Verif.Simd
