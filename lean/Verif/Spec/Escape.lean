/-!
# Specification of backslash escapes for display, independent of the code
-/
namespace Verif.Spec.Escape

/-- Undo backslash escapes: `\r`, `\t`, `\n`, `\\`. -/
def unescape : List Nat → List Nat
  | [] => []
  | [c] => [c]
  | c :: d :: rest =>
    if c = '\\'.toNat then
      (if d = 'r'.toNat then '\r'.toNat else if d = 't'.toNat then '\t'.toNat
       else if d = 'n'.toNat then '\n'.toNat else d) :: unescape rest
    else c :: unescape (d :: rest)

/-- One byte written with a backslash escape if it is CR, TAB, LF or a backslash. -/
def escapeByte (c : Nat) : List Nat :=
  if c = '\r'.toNat then ['\\'.toNat, 'r'.toNat]
  else if c = '\t'.toNat then ['\\'.toNat, 't'.toNat]
  else if c = '\n'.toNat then ['\\'.toNat, 'n'.toNat]
  else if c = '\\'.toNat then ['\\'.toNat, '\\'.toNat]
  else [c]

/-- What `escape_plain` does: TAB, LF and backslashes are escaped, except that a backslash already followed by `t` or `r` is
left alone. -/
def plain : List Nat → List Nat
  | [] => []
  | [c] => if c = '\r'.toNat then [c] else escapeByte c
  | c :: d :: rest =>
    if c = '\\'.toNat ∧ (d = 't'.toNat ∨ d = 'r'.toNat) then c :: d :: plain rest
    else (if c = '\r'.toNat then [c] else escapeByte c) ++ plain (d :: rest)

end Verif.Spec.Escape
