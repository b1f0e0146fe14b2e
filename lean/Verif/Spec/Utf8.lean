import Verif.Model.Bytes
/-!
# UTF-8 texts

Written with Lean's characters and its UTF-8 encoder, without reference to the model.
-/
namespace Verif.Spec
open Verif

/-- the UTF-8 bytes of a sequence of characters -/
def utf8 (cs : List Char) : List Byte := (cs.flatMap String.utf8EncodeChar).map UInt8.toNat

/-- the bytes are valid UTF-8: they encode some characters -/
def Utf8Text (bs : List Byte) : Prop := ∃ cs, bs = utf8 cs

example : utf8 ['a', 'é', '→', '😀'] = [0x61, 0xC3, 0xA9, 0xE2, 0x86, 0x92, 0xF0, 0x9F, 0x98, 0x80] := by decide

end Verif.Spec
