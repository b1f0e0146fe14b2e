import Verif.Model.CharUtils
/-!
# C38: byte classes (`yam-core/src/parsing/char_utils.rs`)
-/
namespace Verif.Props
open Verif Verif.CharUtils

/-- **C38** Blanks and breaks are disjoint, and the combined classes are exactly their unions (with NUL where the name says
`z`). -/
theorem C38_blank_break_partition (c : Byte) :
    (isBlank c = true → isBreak c = false) ∧
    (isBlankOrBreak c = (isBlank c || isBreak c)) ∧
    (isBlankOrBreakz c = (isBlank c || isBreak c || c == 0)) ∧
    (isBreakz c = (isBreak c || c == 0)) ∧
    (isYamlNonSpace c = !isBlankOrBreak c) := by
  refine ⟨?_, ?_, ?_, ?_, ?_⟩
  · intro h; simp [isBlank, isBreak] at *; omega
  · simp [isBlankOrBreak, isBlank, isBreak, Bool.or_assoc]
  · simp only [isBlankOrBreakz]
    generalize (c == 0) = a; generalize isBlank c = b; generalize isBreak c = d
    revert a b d; decide
  · simp [isBreakz, isBreak]
  · simp [isYamlNonSpace, isBlankOrBreak, isBlank, isBreak, Bool.and_assoc]

example : isBlank b%' ' = true := rfl

/-- **C38** Anchor characters are exactly the bytes that are none of space, tab, CR, LF, NUL and `,[]{}`. -/
theorem C38_anchor_chars (c : Byte) :
    isAnchorChar c = true ↔ c ∉ [0, b%' ', b%'\t', b%'\r', b%'\n', b%',', b%'[', b%']', b%'{', b%'}'] := by
  simp [isAnchorChar, isYamlNonSpace, isBlank, isBreak, isFlow]
  omega

/-- **C38** Tag characters are the URI characters that are neither flow indicators nor `!`; among ASCII letters and digits
all are tag characters; blanks, breaks and NUL never are. -/
theorem C38_tag_chars (c : Byte) :
    (isTagChar c = true ↔ isUriChar c = true ∧ c ∉ [b%',', b%'[', b%']', b%'{', b%'}', b%'!']) ∧
    (isAsciiAlphanumeric c = true → isTagChar c = true) ∧
    (isTagChar c = true → isAnchorChar c = true ∧ isBlankOrBreakz c = false) := by
  have key : ∀ c < 256,
      ((isTagChar c = true ↔ isUriChar c = true ∧ c ∉ [b%',', b%'[', b%']', b%'{', b%'}', b%'!']) ∧
      (isAsciiAlphanumeric c = true → isTagChar c = true) ∧
      (isTagChar c = true → isAnchorChar c = true ∧ isBlankOrBreakz c = false)) := by decide +kernel
  by_cases h : c < 256
  · exact key c h
  · have hu : isUriChar c = false := by
      simp [isUriChar, isWordChar, isAsciiAlphanumeric]; omega
    have ha : isAsciiAlphanumeric c = false := by simp [isAsciiAlphanumeric]; omega
    simp [isTagChar, hu, ha]

/-- **C38** `as_hex` is defined exactly on hexadecimal digits and gives the digit's value. -/
theorem C38_as_hex (c : Byte) :
    ((asHex c).isSome = isAsciiHexdigit c) ∧
    (∀ d < 10, asHex ('0'.toNat + d) = some d) ∧
    (∀ d < 6, asHex ('a'.toNat + d) = some (10 + d) ∧ asHex ('A'.toNat + d) = some (10 + d)) := by
  refine ⟨?_, by decide, by decide⟩
  unfold asHex isAsciiHexdigit
  repeat' split
  all_goals simp
  all_goals omega

/-- **C38** Flow indicators, blanks, breaks and NUL are never "alpha" (handle) characters. -/
theorem C38_alpha (c : Byte) (h : isAlpha c = true) :
    isFlow c = false ∧ isBlankOrBreakz c = false ∧ c ≠ b%'!' ∧ c ≠ b%':' ∧ c ≠ b%'#' := by
  simp [isAlpha, isFlow, isBlankOrBreakz, isBlank, isBreak] at *
  omega

example : isAlpha b%'_' = true := rfl

end Verif.Props
