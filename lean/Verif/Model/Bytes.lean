/-!
# Bytes

Bytes are natural numbers (a real byte is `< 256`); byte strings are lists of them.
Simplification: `u8`, `u32`, `usize` values are unbounded naturals unless a definition says otherwise.
-/
namespace Verif

/-- A byte. The Rust type is `u8`; where the bound matters a hypothesis `b < 256` (`IsBytes`) appears.
(A macro and not a definition, so that `omega` sees `Nat`.) -/
macro "Byte" : term => `(Nat)

/-- Every element is a real byte. -/
def IsBytes (bs : List Byte) : Prop := ∀ b ∈ bs, b < 256

instance (bs : List Byte) : Decidable (IsBytes bs) := by unfold IsBytes; infer_instance

/-- `b%'x'` is Rust's `b'x'`: the code of an ASCII character as a numeral. -/
syntax:max "b%" char : term
macro_rules
  | `(b% $c:char) => return Lean.Syntax.mkNumLit (toString c.getChar.toNat)

/-- `bs!"text"` is Rust's `b"text"`: the list of UTF-8 bytes of a literal, as numerals. -/
syntax:max "bs!" str : term
macro_rules
  | `(bs! $s:str) => do
    let xs := s.getString.toUTF8.toList.map fun (b : UInt8) => Lean.Syntax.mkNumLit (toString b.toNat)
    `([$[($(xs.toArray) : Nat)],*])

example : bs!"aé" = [97, 195, 169] := rfl
example : b%'#' = 35 := rfl

end Verif
