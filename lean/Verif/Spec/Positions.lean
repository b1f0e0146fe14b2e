import Verif.Model.Bytes
import Verif.Model.Tokens
/-!
# Positions in a text

Written without reference to the scanner.
-/
namespace Verif.Spec
open Verif

/-- The position right after the text `pre`: the number of bytes read, the column (counted in bytes, the first is 1) and the line
(the first is 1). Lines end with a line feed. -/
def locate (pre : List Byte) : Marker :=
  ⟨pre.length, (pre.reverse.takeWhile fun c => c != 10).length + 1, pre.count 10 + 1⟩

/-- `m` is the position of some point of `input`. -/
def Located (input : List Byte) (m : Marker) : Prop := ∃ pre post, input = pre ++ post ∧ m = locate pre

/-- where the end of the stream is reported: past the last byte, at the start of a line after the last one -/
def streamEndMark (input : List Byte) : Marker := ⟨input.length, 1, input.count 10 + 2⟩

/-- line 2, column 3 of a text -/
example : locate [97, 10, 98, 99] = ⟨4, 3, 2⟩ := by decide

end Verif.Spec
