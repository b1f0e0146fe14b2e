/-!
# Specification of integer notation (YAML 1.2 core schema, section 10.3.2), independent of the code

Text is a list of ASCII codes.
-/
namespace Verif.Spec.Core

/-- The value of a digit character in bases up to 16, `none` for anything else. -/
def digit (base : Nat) (c : Nat) : Option Nat :=
  let v := if '0'.toNat ≤ c ∧ c ≤ '9'.toNat then some (c - '0'.toNat)
    else if 'a'.toNat ≤ c ∧ c ≤ 'f'.toNat then some (c - 'a'.toNat + 10)
    else if 'A'.toNat ≤ c ∧ c ≤ 'F'.toNat then some (c - 'A'.toNat + 10)
    else none
  v.filter (· < base)

/-- Positional value of a digit string, `none` if some character is no digit; the empty string has value 0. -/
def value (base : Nat) (s : List Nat) : Option Nat :=
  s.foldl (fun acc c => do return (← acc) * base + (← digit base c)) (some 0)

/-- `s` is a non-empty digit string of value `v`. -/
def IsNumeral (base : Nat) (s : List Nat) (v : Nat) : Prop := s ≠ [] ∧ value base s = some v

/-- `s` is an integer in the YAML core schema, and it denotes `i`:
`[-+]?[0-9]+`, `0o[0-7]+` or `0x[0-9a-fA-F]+`. -/
inductive CoreInt : List Nat → Int → Prop
  | dec {s v} : IsNumeral 10 s v → CoreInt s v
  | plus {s v} : IsNumeral 10 s v → CoreInt ('+'.toNat :: s) v
  | minus {s v} : IsNumeral 10 s v → CoreInt ('-'.toNat :: s) (-(v : Int))
  | oct {s v} : IsNumeral 8 s v → CoreInt ('0'.toNat :: 'o'.toNat :: s) v
  | hex {s v} : IsNumeral 16 s v → CoreInt ('0'.toNat :: 'x'.toNat :: s) v

/-- Shapes with a misplaced sign, which the core schema does not allow: a sign after `0x`/`0o`, or two signs the first of
which is `+`. -/
inductive SignedTwice : List Nat → Int → Prop
  | octPlus {s v} : IsNumeral 8 s v → SignedTwice ('0'.toNat :: 'o'.toNat :: '+'.toNat :: s) v
  | octMinus {s v} : IsNumeral 8 s v → SignedTwice ('0'.toNat :: 'o'.toNat :: '-'.toNat :: s) (-(v : Int))
  | hexPlus {s v} : IsNumeral 16 s v → SignedTwice ('0'.toNat :: 'x'.toNat :: '+'.toNat :: s) v
  | hexMinus {s v} : IsNumeral 16 s v → SignedTwice ('0'.toNat :: 'x'.toNat :: '-'.toNat :: s) (-(v : Int))
  | plusPlus {s v} : IsNumeral 10 s v → SignedTwice ('+'.toNat :: '+'.toNat :: s) v
  | plusMinus {s v} : IsNumeral 10 s v → SignedTwice ('+'.toNat :: '-'.toNat :: s) (-(v : Int))

/-- `i` fits 64 bits. -/
def Fits64 (i : Int) : Prop := -(2 ^ 63) ≤ i ∧ i < 2 ^ 63

end Verif.Spec.Core
