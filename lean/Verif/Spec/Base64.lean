/-!
# Specification of base64 (RFC 4648 section 4), independent of the code

Three bytes give four letters, six bits each, most significant first; one or two left-over bytes are filled up with zero
bits and `=`.
-/
namespace Verif.Spec.Base64

/-- The RFC 4648 letter for a 6-bit number. -/
def letterOf (n : Nat) : Nat :=
  if n < 26 then 'A'.toNat + n
  else if n < 52 then 'a'.toNat + (n - 26)
  else if n < 62 then '0'.toNat + (n - 52)
  else if n = 62 then '+'.toNat
  else '/'.toNat

/-- The RFC 4648 encoding. -/
def encode : List Nat → List Nat
  | [] => []
  | [a] => [letterOf (a / 4), letterOf (a % 4 * 16), '='.toNat, '='.toNat]
  | [a, b] => [letterOf (a / 4), letterOf (a % 4 * 16 + b / 16), letterOf (b % 16 * 4), '='.toNat]
  | a :: b :: c :: rest =>
    letterOf (a / 4) :: letterOf (a % 4 * 16 + b / 16) :: letterOf (b % 16 * 4 + c / 64) :: letterOf (c % 64)
      :: encode rest

end Verif.Spec.Base64
