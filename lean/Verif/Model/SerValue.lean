import Verif.Model.Ser
import Verif.Model.Scalar
import Verif.Model.De
/-!
# Serialising a value: `to_pretty_string` (yam-serde/src/lib.rs 74–81)

serde's `Serialize` implementations are outside the repository. What is modelled of them: which `serialize_*` method each kind of value
calls.
-/
namespace Verif.Ser
open Verif Verif.De
variable {F : Type}

/-- What comes from other crates: whether a float is a NaN with the sign bit, and the division of a string into words with their numbers of
grapheme clusters (`unicode_segmentation`). -/
structure Extern (F : Type) where
  negativeNan : F → Bool
  words : List Byte → List (List Byte × Nat)

/-- `serialize_f64`: ser.rs 379–387 -/
def serializeFloat (fo : FloatOps F) (ext : Extern F) (x : F) : List Byte :=
  (if ext.negativeNan x then bs!"-" else []) ++ fo.display x

/-- `value.serialize(&mut serializer)` at depth 0: ser.rs 330–511. The integer types use `Display` (337–367). `none` is the panic of `todo!()`
for everything but scalars and options: `serialize_seq`, `serialize_map`, `serialize_tuple`, `serialize_struct` and the four methods for
variants (ser.rs 436–511). Writing to a `String` does not fail. -/
def serialize (fo : FloatOps F) (ext : Extern F) (fm : Formatter) : Val F → Option (List Byte)
  | .int i => some (Scalar.displayI64 i)
  | .bool b => some (serializeBool b)
  | .float x => some (serializeFloat fo ext x)
  | .str s => serializeStr fm 0 s (ext.words s)
  | .unit => some fm.nullFormat
  | .none => some fm.nullFormat
  | .some v => serialize fo ext fm v
  | .vec _ | .map _ | .tuple _ | .record _ | .variant _ _ => none

/-- `to_pretty_string`: lib.rs 74–81 -/
def toPrettyString (fo : FloatOps F) (ext : Extern F) (fm : Formatter) (v : Val F) : Option (List Byte) := serialize fo ext fm v

end Verif.Ser
