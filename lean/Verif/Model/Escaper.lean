import Verif.Model.Bytes
/-!
# Display escaping: `yam-core/src/escaper.rs`
-/
namespace Verif.Escaper
open Verif

/-- `EscapeControl`: escaper.rs 22–26. `Append([step, len, b0..b5])` is `append step (b0..b5 cut to len)`. -/
inductive Ctl
  | skip (n : Nat)
  | append (step : Nat) (bytes : List Byte)
  | brk

/-- The `for` loop of `escape` (escaper.rs 114–127) together with the `while let` loop of the iterator feeding it
(escaper.rs 41–64): `pos` is the iterator's position, `old` is `old_pos`, `out` is `escaped` (empty while `None`).
Result `none`: a slice out of bounds (panic) or `fuel` used up; `escape_eq` shows neither happens.
At the end the rest from `old_pos` is copied (129–136); the borrowed/owned distinction of `Cow` is dropped. -/
def loop (find : Byte → Bool) (mtch : List Byte → Ctl) (raw : List Byte) :
    Nat → Nat → Nat → List Byte → Option (List Byte)
  | 0, _, _, _ => none
  | fuel + 1, pos, old, out =>
    if pos > raw.length then none
    else match (raw.drop pos).findIdx? find with
      | none => some (out ++ raw.drop old)
      | some k =>
        match mtch (raw.drop (pos + k)) with
        | .brk => some (out ++ raw.drop old)
        | .skip n => loop find mtch raw fuel (pos + n + k) old out
        | .append step bytes =>
          if old > pos + k then none
          else loop find mtch raw fuel (pos + k + step) (pos + k + step)
            (out ++ (raw.take (pos + k)).drop old ++ bytes)

/-- `escape`: escaper.rs 103–137 -/
def escape (find : Byte → Bool) (mtch : List Byte → Ctl) (raw : List Byte) : Option (List Byte) :=
  loop find mtch raw (raw.length + 1) 0 0 []

/-- the `find_fn` of `escape_plain`: escaper.rs 72 -/
def plainFind (c : Byte) : Bool := c == b%'\t' || c == b%'\\' || c == b%'\n'

/-- the `match_fn` of `escape_plain`: escaper.rs 73–80 -/
def plainMatch : List Byte → Ctl
  | [] => .brk
  | c :: r =>
    if c = b%'\\' ∧ (r.head? = some b%'t' ∨ r.head? = some b%'r') then .skip 2
    else if c = b%'\r' then .append 1 bs!"\\r"
    else if c = b%'\t' then .append 1 bs!"\\t"
    else if c = b%'\n' then .append 1 bs!"\\n"
    else if c = b%'\\' then .append 1 bs!"\\\\"
    else .brk

/-- `escape_plain`: escaper.rs 69–82 -/
def escapePlain (raw : List Byte) : Option (List Byte) := escape plainFind plainMatch raw

/-- the `find_fn` of `escape_single_quotes`: escaper.rs 88 -/
def singleFind (c : Byte) : Bool := c == b%'\t' || c == b%'\\' || c == b%'\n' || c == b%'\r'

/-- the `match_fn` of `escape_single_quotes`: escaper.rs 89–96 -/
def singleMatch : List Byte → Ctl
  | [] => .brk
  | c :: _ =>
    if c = b%'\r' then .append 1 bs!"\\r"
    else if c = b%'\t' then .append 1 bs!"\\t"
    else if c = b%'\n' then .append 1 bs!"\\n"
    else if c = b%'\\' then .append 1 bs!"\\\\"
    else if c = b%'\'' then .append 1 bs!"\\'"
    else .brk

/-- `escape_single_quotes`: escaper.rs 84–98 -/
def escapeSingleQuotes (raw : List Byte) : Option (List Byte) := escape singleFind singleMatch raw

end Verif.Escaper
