import Verif.Spec.CoreSchema
import Verif.Spec.Utf8
/-!
# Specification: the serialiser's strings

`Escaped v o`: the text `v`, read from left to right in units, is written as `o`. A unit is `\t`, `\r` or `\n` (two characters, kept), a
tab or line break (written as an escape), `\x` with two, `\u` with four or `\U` with six more bytes (decoded), or any other byte
(kept).
-/
namespace Verif.Spec
open Verif

/-- the number of bytes after `\x`, `\u` and `\U` -/
def digitsAfter (c : Byte) : Option Nat :=
  if c = b%'x' then some 2 else if c = b%'u' then some 4 else if c = b%'U' then some 6 else none

/-- characters with an escape of one letter -/
def shortForms : List (Char × Byte) :=
  [('\x07', b%'a'), ('\x08', b%'b'), ('\t', b%'t'), ('\n', b%'n'), ('\x0b', b%'v'), ('\x0c', b%'f'), ('\r', b%'r'), ('\x1b', b%'e'),
    ('"', b%'"'), ('/', b%'/'), ('\\', b%'\\'), ('\u0085', b%'N'), ('\u00a0', b%'_'), ('\u2028', b%'L'), ('\u2029', b%'P')]

/-- `HexText ds o`: `o` is written for the character whose number is given by the digits `ds` -/
inductive HexText (ds : List Byte) : List Byte → Prop
  /-- no digits, or the number 0: the replacement character -/
  | invalid : (∀ v, Core.IsNumeral 16 ds v → v = 0) → HexText ds (utf8 ['\ufffd'])
  | short {c e} : Core.IsNumeral 16 ds c.toNat → (c, e) ∈ shortForms → HexText ds [b%'\\', e]
  | char {c} : Core.IsNumeral 16 ds c.toNat → c ≠ '\x00' → (∀ e, (c, e) ∉ shortForms) → HexText ds (utf8 [c])
  /-- a number that is not the number of a character: nothing -/
  | nothing {v} : Core.IsNumeral 16 ds v → (∀ c : Char, c.toNat ≠ v) → HexText ds []

/-- a text and what is written for it -/
inductive Escaped : List Byte → List Byte → Prop
  | nil : Escaped [] []
  | kept {c v o} : c = b%'t' ∨ c = b%'r' ∨ c = b%'n' → Escaped v o → Escaped (b%'\\' :: c :: v) (b%'\\' :: c :: o)
  | tab {v o} : Escaped v o → Escaped (b%'\t' :: v) (bs!"\\t" ++ o)
  | crlf {v o} : Escaped v o → Escaped (b%'\r' :: b%'\n' :: v) (bs!"\\n" ++ o)
  | lf {v o} : Escaped v o → Escaped (b%'\n' :: v) (bs!"\\n" ++ o)
  | hex {c n ds d v o} : digitsAfter c = some n → ds.length = n → HexText ds d → Escaped v o →
      Escaped (b%'\\' :: c :: (ds ++ v)) (d ++ o)
  | other {c v o} : c ≠ b%'\t' → c ≠ b%'\n' → (c = b%'\r' → v.head? ≠ some b%'\n') →
      (c = b%'\\' → ∀ d, v.head? = some d → d ≠ b%'t' ∧ d ≠ b%'r' ∧ d ≠ b%'n' ∧ digitsAfter d = none) →
      Escaped v o → Escaped (c :: v) (c :: o)

/-- somewhere the text has `\x`, `\u` or `\U` with too few bytes after it -/
def TruncatedEscape (v : List Byte) : Prop :=
  ∃ a c n b, v = a ++ b%'\\' :: c :: b ∧ digitsAfter c = some n ∧ b.length < n

end Verif.Spec
