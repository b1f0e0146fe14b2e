import Verif.Model.Bytes
/-!
# Decimal numbers and percent escapes

Written without reference to the model.
-/
namespace Verif.Spec
open Verif

/-- a sequence of decimal digits -/
def Digits (l : List Byte) : Prop := ∀ d ∈ l, 48 ≤ d ∧ d ≤ 57

/-- the number spelled by decimal digits -/
def decimal (l : List Byte) : Nat := l.foldl (fun v d => v * 10 + (d - 48)) 0

/-- the hexadecimal digit of `n < 16`, in upper or lower case -/
def hexChar (upper : Bool) (n : Nat) : Byte := if n < 10 then 48 + n else (if upper then 65 else 97) + (n - 10)

/-- `%XX` for every byte -/
def percent (upper : Bool) (bytes : List Byte) : List Byte :=
  bytes.flatMap fun b => [37, hexChar upper (b / 16), hexChar upper (b % 16)]

example : decimal bs!"0307" = 307 ∧ percent true [0xC3, 0xA9] = bs!"%C3%A9" ∧ percent false [0xC3, 0xA9] = bs!"%c3%a9" := by decide

end Verif.Spec
