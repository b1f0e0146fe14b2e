import Verif.Model.CharUtils
/-!
# The byte source: `yam-core/src/parsing/source.rs`, `StrSource`

The cargo feature `comment` is off. Loops of the form "while the next byte is in a class (that does not contain NUL), consume
it" are written with `takeWhile`.
-/
namespace Verif.Source
open Verif Verif.CharUtils

/-- `StrSource`: source.rs 228–233. `rest` is `input[pos..]` (empty when `pos ≥ len`), `len` is `input.len()`. -/
structure Src where
  rest : List Byte
  pos : Nat
  len : Nat
deriving DecidableEq, Repr

/-- `StrSource::new`: source.rs 257–262 -/
def Src.new (input : List Byte) : Src := ⟨input, 0, input.length⟩

/-- `peek_checked`: source.rs 270–272 -/
def Src.peekChecked (s : Src) (n : Nat) : Option Byte := s.rest[n]?

/-- `peekz`: source.rs 50–52 -/
def Src.peekz (s : Src) (n : Nat) : Byte := (s.rest[n]?).getD 0

/-- `buf_is_empty`: source.rs 282–284 -/
def Src.bufIsEmpty (s : Src) : Bool := s.rest.isEmpty

/-- `buf_max_len`: source.rs 85–87 (`StrSource` keeps the default) -/
def bufMaxLen : Nat := 128

/-- `skip`: source.rs 296–298 -/
def Src.skip (s : Src) (n : Nat) : Src := { s with rest := s.rest.drop n, pos := s.pos + n }

/-- `fetch_while_is_alpha`: source.rs 91–99; the bytes appended to `out` (their number is returned) -/
def Src.fetchWhileIsAlpha (s : Src) : List Byte × Src :=
  let xs := s.rest.takeWhile isAlpha
  (xs, s.skip xs.length)

/-- `skip_while_blank`: source.rs 105–112 -/
def Src.skipWhileBlank (s : Src) : Nat × Src :=
  let n := (s.rest.takeWhile isBlank).length
  (n, s.skip n)

/-- `skip_while_non_breakz`: source.rs 120–127 -/
def Src.skipWhileNonBreakz (s : Src) : Nat × Src :=
  let n := (s.rest.takeWhile (!isBreakz ·)).length
  (n, s.skip n)

/-- `next_next_byte_is`: source.rs 138–140 -/
def Src.nextNextByteIs (s : Src) (c : Byte) : Bool := s.peekz 1 == c

/-- `next_is_three`: source.rs 142–144 -/
def Src.nextIsThree (s : Src) (c : Byte) : Bool := s.peekz 0 == c && s.peekz 1 == c && s.peekz 2 == c

/-- `next_can_be_plain_scalar`: source.rs 146–154 -/
def Src.nextCanBePlainScalar (s : Src) (inFlow : Bool) : Bool :=
  let nc := s.peekz 1
  let c := s.peekz 0
  if c == b%':' && (isBlankOrBreakz nc || (inFlow && isFlow nc)) then false
  else if inFlow && isFlow c then false
  else true

/-- `next_is_document_indicator`: source.rs 156–158 -/
def Src.nextIsDocumentIndicator (s : Src) : Bool :=
  (s.nextIsThree b%'-' || s.nextIsThree b%'.') && isBlankOrBreakz (s.peekz 3)

/-- The loop of `shared_skip_ws_to_eol`: source.rs 162–209. Returns the number of bytes consumed and either an error message or
`SkipTabs::Result { any_tabs, has_yaml_ws }` as a pair. After a comment the loop finds a break, NUL or the end and stops. -/
def wsToEol (skipTabs : Bool) : List Byte → Bool → Bool → Nat × Except String (Bool × Bool)
  | [], anyTabs, hasWs => (0, .ok (anyTabs, hasWs))
  | c :: r, anyTabs, hasWs =>
    if c = b%' ' then
      let x := wsToEol skipTabs r anyTabs true
      (x.1 + 1, x.2)
    else if c = b%'\t' ∧ skipTabs = true then
      let x := wsToEol skipTabs r true hasWs
      (x.1 + 1, x.2)
    else if c = b%'#' then
      if anyTabs = false ∧ hasWs = false then
        (0, .error "comments must be separated from other tokens by whitespace")
      else ((r.takeWhile (!isBreakz ·)).length + 1, .ok (anyTabs, hasWs))
    else (0, .ok (anyTabs, hasWs))

/-- `skip_ws_to_eol`: source.rs 300–306 -/
def Src.skipWsToEol (s : Src) (skipTabs hasWs : Bool) : Nat × Except String (Bool × Bool) × Src :=
  let x := wsToEol skipTabs s.rest false hasWs
  (x.1, x.2, s.skip x.1)

end Verif.Source
