import Verif.Model.Types
/-!
# Making a node of a Rust value: the `From` implementations of `Yaml`, `yam-core/src/node/yaml.rs` 247–257 and 433–489

Rust's `i8`, `i16`, `i32` and `i64` are bit vectors of that width in two's complement. `as i64` from a narrower signed type repeats the sign bit. An `f32` and its
widening to `f64` are parameters, like `f64` itself.
-/
namespace Verif.Convert
open Verif
variable {F G : Type}

/-- `value as i64` from a signed type of `w ≤ 64` bits; the integer in a node is the number the 64 bits stand for -/
def asI64 {w : Nat} (value : BitVec w) : Int := (value.signExtend 64).toInt

/-- `From<YamlScalar>`: yaml.rs 253–257 -/
def fromScalar (value : Scalar F) : Yaml F := .scalar value
/-- `From<&str>`: yaml.rs 433–437 -/
def fromStr (value : List Byte) : Yaml F := .scalar (.str value)
/-- `From<bool>`: yaml.rs 439–443 -/
def fromBool (value : Bool) : Yaml F := .scalar (.bool value)
/-- `From<f64>`: yaml.rs 445–449 -/
def fromF64 (value : F) : Yaml F := .scalar (.float value)
/-- `From<f32>`: yaml.rs 451–456 -/
def fromF32 (widen : G → F) (value : G) : Yaml F := .scalar (.float (widen value))
/-- `From<i8>`: yaml.rs 458–463 -/
def fromI8 (value : BitVec 8) : Yaml F := .scalar (.int (asI64 value))
/-- `From<i16>`: yaml.rs 465–470 -/
def fromI16 (value : BitVec 16) : Yaml F := .scalar (.int (asI64 value))
/-- `From<i32>`: yaml.rs 472–477 -/
def fromI32 (value : BitVec 32) : Yaml F := .scalar (.int (asI64 value))
/-- `From<i64>`: yaml.rs 479–483 -/
def fromI64 (value : BitVec 64) : Yaml F := .scalar (.int value.toInt)
/-- `From<Vec<Yaml>>`: yaml.rs 485–489 -/
def fromVec (value : List (Yaml F)) : Yaml F := .seq value

end Verif.Convert
