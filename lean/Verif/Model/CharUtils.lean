import Verif.Model.Bytes
/-!
# Byte classes: `yam-core/src/parsing/char_utils.rs`
-/
namespace Verif.CharUtils
open Verif

/-- char_utils.rs 1–3 -/
def isBlankOrBreak (c : Byte) : Bool := c == b%' ' || c == b%'\t' || c == b%'\r' || c == b%'\n'

/-- char_utils.rs 32–34 -/
def isBreak (c : Byte) : Bool := c == b%'\r' || c == b%'\n'

/-- char_utils.rs 36–38 -/
def isBreakz (c : Byte) : Bool := c == b%'\r' || c == b%'\n' || c == 0

/-- char_utils.rs 40–42 -/
def isBlank (c : Byte) : Bool := c == b%' ' || c == b%'\t'

/-- char_utils.rs 44–46 -/
def isFlow (c : Byte) : Bool :=
  c == b%',' || c == b%'[' || c == b%']' || c == b%'{' || c == b%'}'

/-- char_utils.rs 9–11 -/
def isYamlNonSpace (c : Byte) : Bool := !isBlank c && !isBreak c

/-- char_utils.rs 5–7 -/
def isAnchorChar (c : Byte) : Bool := isYamlNonSpace c && !isFlow c && c != 0

/-- Rust core `u8::is_ascii_digit` -/
def isAsciiDigit (c : Byte) : Bool := b%'0' ≤ c && c ≤ b%'9'

/-- Rust core `u8::is_ascii_alphanumeric` -/
def isAsciiAlphanumeric (c : Byte) : Bool :=
  (b%'0' ≤ c && c ≤ b%'9') || (b%'a' ≤ c && c ≤ b%'z') || (b%'A' ≤ c && c ≤ b%'Z')

/-- Rust core `u8::is_ascii_hexdigit` -/
def isAsciiHexdigit (c : Byte) : Bool :=
  (b%'0' ≤ c && c ≤ b%'9') || (b%'a' ≤ c && c ≤ b%'f') || (b%'A' ≤ c && c ≤ b%'F')

/-- char_utils.rs 13–17 -/
def isWordChar (c : Byte) : Bool := isAsciiAlphanumeric c || c == b%'-'

/-- char_utils.rs 19–23 -/
def isBlankOrBreakz (c : Byte) : Bool := c == 0 || isBlank c || isBreak c

/-- char_utils.rs 25–30 -/
def isUriChar (c : Byte) : Bool := isWordChar c || (bs!"#;/?:@&=+$,_.!~*'()[]%").contains c

/-- char_utils.rs 48–57. `none` is the `unreachable!()` panic. -/
def asHex (c : Byte) : Option Nat :=
  if b%'0' ≤ c ∧ c ≤ b%'9' then some (c - b%'0')
  else if b%'a' ≤ c ∧ c ≤ b%'f' then some (c - b%'a' + 10)
  else if b%'A' ≤ c ∧ c ≤ b%'F' then some (c - b%'A' + 10)
  else none

/-- char_utils.rs 59–61 -/
def isTagChar (c : Byte) : Bool := isUriChar c && !isFlow c && c != b%'!'

/-- char_utils.rs 63–67 -/
def isAlpha (c : Byte) : Bool :=
  (b%'0' ≤ c && c ≤ b%'9') || (b%'a' ≤ c && c ≤ b%'z') || (b%'A' ≤ c && c ≤ b%'Z')
    || c == b%'_' || c == b%'-'

end Verif.CharUtils
