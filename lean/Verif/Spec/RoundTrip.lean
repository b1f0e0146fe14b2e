import Verif.Model.Emitter
import Verif.Spec.CoreSchema
import Verif.Spec.Tags
/-!
# Specification: trees that survive being written and read again
-/
namespace Verif.Spec
open Verif Verif.Spec.Core
variable {F : Type}

/-- a decimal digit -/
def IsDigit (b : Byte) : Prop := b%'0' ≤ b ∧ b ≤ b%'9'

/-- A float that is printed as decimal digits, with a `-` in front or not and points in between, and whose text resolves to
the same float. Rust prints a finite float like this; one with an integral value is printed without a point, and infinities
and NaN are printed as words. -/
structure FloatBack (fo : FloatOps F) (f : F) : Prop where
  shape : ∃ (neg : Bool) (d : Byte) (t : List Byte), fo.display f = (if neg then [b%'-'] else []) ++ d :: t ∧ IsDigit d ∧ ∀ b ∈ t, IsDigit b ∨ b = b%'.'
  back : Scalar.valueFromCowAndMetadata fo (fo.display f) .plain none = .scalar (.float f)

/-- The bytes `...` followed by a blank, a line break, NUL or nothing: what the scanner takes for the end of a document. -/
def DocumentEndAt (b : List Byte) : Prop :=
  bs!"..." <+: b ∧ ∀ c, (b.drop 3).head? = some c → c = b%' ' ∨ c = b%'\t' ∨ c = b%'\n' ∨ c = b%'\r' ∨ c = 0

/-- A string that can be read back from a literal block: not only line feeds, no space at the start of the first line that is not empty, at
most one line feed at the end, no carriage return (the emitter writes no block for a text with one). In a block that is the
whole document (`doc`), which is not indented, the string must not begin with a tab, and no line of it may look like the end of the document. -/
structure LiteralBack (doc : Bool) (v : List Byte) : Prop where
  ink : ∃ b ∈ v, b ≠ b%'\n'
  start : (v.dropWhile (· == b%'\n')).head? ≠ some b%' '
  stop : ¬ bs!"\n\n" <:+ v
  noCr : b%'\r' ∉ v
  tab : doc = true → v.head? ≠ some b%'\t'
  dots : doc = true → ∀ a b, v = a ++ b → (a = [] ∨ a.getLast? = some b%'\n') → ¬ DocumentEndAt b

/-- A scalar whose text is not mistaken for something else: an integer of 64 bits, a float that can be read back, a string
that begins neither with `0o` nor with `+`, or a string that is written as a literal block and can be read back from one. -/
def ScalarBack (fo : FloatOps F) (ec : Emitter.Config) (doc : Bool) : Scalar F → Prop
  | .str v => if Emitter.shouldEmitStringAsBlock ec v then LiteralBack doc v else ¬ bs!"0o" <+: v ∧ ¬ bs!"+" <+: v
  | .int i => Fits64 i
  | .float f => FloatBack fo f
  | .bool _ => True
  | .null => True

/-- A tree of sequences, mappings and scalars (no aliases, no bad values) whose scalars can be read back, and whose
scalar keys are not written as blocks and take at most 1024 bytes when written (as a document of their own, after the four bytes of `---` and
a line break). Keys may be collections themselves. A node that is not a key may have a local tag `!suffix`, but not two of them. With `doc` the tree
is a whole document, not a part of one. -/
inductive Printable (fo : FloatOps F) (ec : Emitter.Config) : Bool → Yaml F → Prop
  | scalar {doc x} : ScalarBack fo ec doc x → Printable fo ec doc (.scalar x)
  | seq {doc xs} : (∀ x ∈ xs, Printable fo ec false x) → Printable fo ec doc (.seq xs)
  | map {doc es} : (∀ e ∈ es, Printable fo ec false e.1) → (∀ e ∈ es, Printable fo ec false e.2) →
      (∀ e ∈ es, ∀ k, e.1 = .scalar k → (Emitter.dump fo ec (.scalar k)).length ≤ 4 + 1024) →
      (∀ e ∈ es, ∀ t y, e.1 ≠ .tagged t y) →
      (∀ e ∈ es, ∀ v, e.1 = .scalar (.str v) → Emitter.shouldEmitStringAsBlock ec v = false) → Printable fo ec doc (.map es)
  | tagged {doc suffix x} : suffix ≠ [] → (∀ b ∈ suffix, TagByte b) → (∀ t y, x ≠ .tagged t y) → Printable fo ec doc x →
      Printable fo ec doc (.tagged ⟨bs!"!", suffix⟩ x)

/-- the document is nothing but a string, possibly with a tag, that is written as a literal block -/
def LoneBlock (ec : Emitter.Config) (x : Yaml F) : Prop :=
  ∃ v, (x = .scalar (.str v) ∨ ∃ t, x = .tagged t (.scalar (.str v))) ∧ Emitter.shouldEmitStringAsBlock ec v = true

/-- the emitter's texts of several documents, each on a line of its own -/
def dumpLines (fo : FloatOps F) (ec : Emitter.Config) : List (Yaml F) → List Byte
  | [] => []
  | [x] => Emitter.dump fo ec x
  | x :: xs => Emitter.dump fo ec x ++ bs!"\n" ++ dumpLines fo ec xs

end Verif.Spec
