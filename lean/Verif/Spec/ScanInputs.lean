import Verif.Model.Bytes
/-!
# Texts on which the scanner misbehaves

Conditions on the input text, written without reference to the scanner.
-/
namespace Verif.Spec
open Verif

/-- a carriage return that is not followed by a line feed -/
def LoneCR (l : List Byte) : Prop := ∃ pre post, l = pre ++ 13 :: post ∧ post.head? ≠ some 10

/-- one of the reserved indicators `%`, `@` and the backtick with fewer than three bytes after it -/
def LateIndicator (l : List Byte) : Prop := ∃ pre c post, l = pre ++ c :: post ∧ (c = 37 ∨ c = 64 ∨ c = 96) ∧ post.length < 3

/-- a NUL after a quotation mark or an apostrophe -/
def QuotedNul (l : List Byte) : Prop := ∃ pre post, l = pre ++ 0 :: post ∧ (34 ∈ pre ∨ 39 ∈ pre)

/-- at least 110 bytes without a line feed between them -/
def LongLine (l : List Byte) : Prop := ∃ pre w post, l = pre ++ w ++ post ∧ 10 ∉ w ∧ 110 ≤ w.length

/-- a character that can introduce a block scalar -/
def HasBlockIndicator (l : List Byte) : Prop := 124 ∈ l ∨ 62 ∈ l

/-- three decimal digits in a row, somewhere after a percent sign -/
def LongVersion (l : List Byte) : Prop :=
  ∃ pre ds post, l = pre ++ ds ++ post ∧ 37 ∈ pre ∧ 3 ≤ ds.length ∧ ∀ d ∈ ds, 48 ≤ d ∧ d ≤ 57

/-- What may follow a quoted scalar: spaces, and then the end of the text, a line break, a colon, a comment (if there were spaces) or,
between brackets, a comma or a closing bracket. -/
def MayFollow (inFlow : Bool) (post : List Byte) : Prop :=
  ∃ n q, post = List.replicate n 32 ++ q ∧
    (q = [] ∨ ∃ c r, q = c :: r ∧
      (c = 10 ∨ c = 13 ∨ c = 58 ∨ (inFlow = true ∧ (c = 44 ∨ c = 93 ∨ c = 125)) ∨ (c = 35 ∧ 1 ≤ n)))

end Verif.Spec
