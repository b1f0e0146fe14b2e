import Verif.Model.Source
import Verif.Model.Simd
/-!
# The buffered byte source: `yam-core/src/parsing/buffered_source.rs`

The buffer is an array of 32 cells that may be uninitialised (`MaybeUninit`): `none` is an uninitialised cell. Reading such a cell is
undefined behaviour in Rust and the explicit outcome `uninit` here. The input iterator is the list of the bytes it will still give
(an iterator that has ended stays ended). The counters are unbounded naturals.
-/
namespace Verif.Buffered
open Verif Verif.CharUtils

/-- What can go wrong: an uninitialised cell is read, a debug assertion fails, an index is out of bounds, or `unwrap` meets `None`. -/
inductive Fault
  | uninit
  | assertion
  | bounds
deriving DecidableEq, Repr

/-- `MAX_LEN`: buffered_source.rs 12 -/
def maxLen : Nat := 32

/-- `BufferedBytesSource`: buffered_source.rs 14–19 -/
structure Buf where
  input : List Byte
  buf : List (Option Byte)
  len : Nat
deriving DecidableEq, Repr

/-- the loop of `fill_buf_to_max`: buffered_source.rs 33–46; `n` is the number of rounds that remain and `x` the loop variable -/
def fillLoop : Nat → Nat → Buf → Buf
  | 0, _, b => b
  | n + 1, x, b =>
    match b.input with
    | [] => b
    | c :: r => fillLoop n (x + 1) { input := r, buf := b.buf.set x (some c), len := b.len + 1 }

/-- `fill_buf_to_max`: buffered_source.rs 33–46 -/
def Buf.fill (b : Buf) : Buf := fillLoop (maxLen - b.len) b.len b

/-- `new` and `from_bytes`: buffered_source.rs 23–31 and 66–74 -/
def Buf.new (input : List Byte) : Buf := Buf.fill { input := input, buf := List.replicate maxLen none, len := 0 }

/-- the initialised bytes of some cells, if all are -/
def readAll : List (Option Byte) → Except Fault (List Byte)
  | [] => .ok []
  | none :: _ => .error .uninit
  | some c :: r => (readAll r).map (c :: ·)

/-- `get_max_buf`: buffered_source.rs 48–54 -/
def Buf.getMaxBuf (b : Buf) : Except Fault (Option (List Byte)) :=
  if b.len < maxLen then .ok none else (readAll b.buf).map some

/-- `get_buf`: buffered_source.rs 56–62 -/
def Buf.getBuf (b : Buf) : Except Fault (List Byte) := readAll (b.buf.take b.len)

/-- `peek_unsafe`: buffered_source.rs 82–84 -/
def Buf.peekUnsafe (b : Buf) (n : Nat) : Except Fault Byte :=
  match b.buf[n]? with
  | none => .error .bounds
  | some none => .error .uninit
  | some (some c) => .ok c

/-- `peek_checked`: buffered_source.rs 86–92; `debug` tells whether debug assertions are on -/
def Buf.peekChecked (debug : Bool) (b : Buf) (n : Nat) : Except Fault (Option Byte) :=
  if debug = true ∧ ¬ n < maxLen then .error .assertion
  else if n ≥ b.len then .ok none
  else (b.peekUnsafe n).map some

/-- `peekz`: source.rs 50–52 -/
def Buf.peekz (debug : Bool) (b : Buf) (n : Nat) : Except Fault Byte := (b.peekChecked debug n).map (·.getD 0)

/-- `buf_is_empty`: buffered_source.rs 109–111 -/
def Buf.bufIsEmpty (b : Buf) : Bool := b.len == 0

/-- `<[T]>::copy_within(src..end, 0)` -/
def copyWithin (cells : List (Option Byte)) (src stop : Nat) : List (Option Byte) :=
  (cells.take stop).drop src ++ cells.drop (stop - src)

/-- `skip`: buffered_source.rs 137–154. `Iterator::nth(k)` drops `k + 1` elements. -/
def Buf.skip (b : Buf) (n : Nat) : Buf :=
  if n = 0 then b
  else
    let consume := min n b.len
    let skip := n - (maxLen + 1)
    let input := if skip > 0 then b.input.drop (skip + 1) else b.input
    Buf.fill { input := input, buf := copyWithin b.buf consume b.len, len := b.len - consume }

/-- The default methods of `Source` that consume while the next byte is in a class that does not contain NUL: `fetch_while_is_alpha`,
`skip_while_blank`, `skip_while_non_breakz` (source.rs 91–127). Returns the bytes consumed. The rounds are bounded by `fuel`; the
callers give more than the bytes that remain. -/
def Buf.consumeWhile (debug : Bool) (p : Byte → Bool) : Nat → Buf → Except Fault (List Byte × Buf)
  | 0, b => .ok ([], b)
  | fuel + 1, b => do
    let c ← b.peekz debug 0
    if p c then
      let (xs, b) ← Buf.consumeWhile debug p fuel (b.skip 1)
      .ok (c :: xs, b)
    else .ok ([], b)

/-- the number of bytes that remain, and one -/
def Buf.size (b : Buf) : Nat := b.len + b.input.length + 1

/-- `fetch_while_is_alpha`: source.rs 91–99 -/
def Buf.fetchWhileIsAlpha (debug : Bool) (b : Buf) : Except Fault (List Byte × Buf) := b.consumeWhile debug isAlpha b.size

/-- `skip_while_blank`: source.rs 105–112 -/
def Buf.skipWhileBlank (debug : Bool) (b : Buf) : Except Fault (Nat × Buf) :=
  (b.consumeWhile debug isBlank b.size).map fun x => (x.1.length, x.2)

/-- `skip_while_non_breakz`: source.rs 120–127 -/
def Buf.skipWhileNonBreakz (debug : Bool) (b : Buf) : Except Fault (Nat × Buf) :=
  (b.consumeWhile debug (!isBreakz ·) b.size).map fun x => (x.1.length, x.2)

/-- `skip_and_accumulate_to_eol`: source.rs 129–136 -/
def Buf.accumulateLoop (debug : Bool) : Nat → Buf → Except Fault (List Byte × Buf)
  | 0, b => .ok ([], b)
  | fuel + 1, b => do
    match ← b.peekChecked debug 0 with
    | some x =>
      if isBreak x then .ok ([], b)
      else
        let (xs, b) ← Buf.accumulateLoop debug fuel (b.skip 1)
        .ok (x :: xs, b)
    | none => .ok ([], b)

/-- `skip_and_accumulate_to_eol`: source.rs 129–136 -/
def Buf.skipAndAccumulateToEol (debug : Bool) (b : Buf) : Except Fault (List Byte × Buf) := b.accumulateLoop debug b.size

/-- `next_can_be_plain_scalar`: source.rs 146–154 -/
def Buf.nextCanBePlainScalar (debug : Bool) (b : Buf) (inFlow : Bool) : Except Fault Bool := do
  let nc ← b.peekz debug 1
  let c ← b.peekz debug 0
  .ok <| if c == b%':' && (isBlankOrBreakz nc || (inFlow && isFlow nc)) then false
  else if inFlow && isFlow c then false
  else true

/-- `next_is_three`: source.rs 142–144 -/
def Buf.nextIsThree (debug : Bool) (b : Buf) (c : Byte) : Except Fault Bool := do
  if (← b.peekz debug 0) == c then
    if (← b.peekz debug 1) == c then .ok ((← b.peekz debug 2) == c) else .ok false
  else .ok false

/-- `next_is_document_indicator`: source.rs 156–158 -/
def Buf.nextIsDocumentIndicator (debug : Bool) (b : Buf) : Except Fault Bool := do
  let three ← (do if ← b.nextIsThree debug b%'-' then .ok true else b.nextIsThree debug b%'.')
  if three then .ok (isBlankOrBreakz (← b.peekz debug 3)) else .ok false

/-- the first loop of `push_non_breakz_chr`: buffered_source.rs 115–128. Returns the bytes appended, and `pos`. -/
def Buf.pushLoop : Nat → Buf → Except Fault (List Byte × Option Nat × Buf)
  | 0, b => .ok ([], none, b)
  | fuel + 1, b => do
    match ← b.getMaxBuf with
    | none => .ok ([], none, b)
    | some x =>
      let breakMask := Simd.compToBitmask 32 x b%'\r' ||| Simd.compToBitmask 32 x b%'\n'
      if breakMask ≠ 0#32 then .ok ([], some (Simd.trailingZeros breakMask), b)
      else
        let (xs, pos, b) ← Buf.pushLoop fuel (b.skip maxLen)
        .ok (x ++ xs, pos, b)

/-- `push_non_breakz_chr`: buffered_source.rs 113–135. Returns the bytes appended. -/
def Buf.pushNonBreakzChr (b : Buf) : Except Fault (List Byte × Buf) := do
  let (xs, pos, b) ← b.pushLoop b.size
  let buf ← b.getBuf
  let found := pos.getD ((buf.findIdx? isBreak).getD 0)
  .ok (xs ++ buf.take found, b.skip found)

/-- the first loop of `skip_ws_to_eol`: buffered_source.rs 171–202. Returns `consumed_bytes`, `has_yaml_ws` and, if an end of line was
found, `consume`. -/
def Buf.wsLoop (skipTab : Bool) : Nat → Nat → Bool → Buf → Except Fault (Nat × Bool × Option Nat × Buf)
  | 0, consumed, hasWs, b => .ok (consumed, hasWs, none, b)
  | fuel + 1, consumed, hasWs, b => do
    match ← b.getMaxBuf with
    | none => .ok (consumed, hasWs, none, b)
    | some x =>
      let sp := Simd.flagMask x (0x04 + if skipTab then 1 else 0)
      let nl := Simd.flagMask x 0x02
      let hash := Simd.flagMask x 0x08
      let endOfLine := (hash &&& ~~~ (sp <<< 1)) ||| nl
      let hasWs := hasWs || sp != 0#32
      if endOfLine ≠ 0#32 then
        let consume := Simd.trailingZeros endOfLine
        .ok (consumed + consume, hasWs, some consume, b)
      else Buf.wsLoop skipTab fuel (consumed + maxLen) hasWs (b.skip maxLen)

/-- the loop of `shared_skip_ws_to_eol` on this source: source.rs 162–209; `rounds` bounds the rounds -/
def Buf.sharedLoop (debug skipTabs : Bool) : Nat → Nat → Bool → Bool → Buf →
    Except Fault (Nat × Except String (Bool × Bool) × Buf)
  | 0, consumed, anyTabs, hasWs, b => .ok (consumed, .ok (anyTabs, hasWs), b)
  | rounds + 1, consumed, anyTabs, hasWs, b => do
    let c ← b.peekz debug 0
    if c = b%' ' then Buf.sharedLoop debug skipTabs rounds (consumed + 1) anyTabs true (b.skip 1)
    else if c = b%'\t' ∧ skipTabs = true then Buf.sharedLoop debug skipTabs rounds (consumed + 1) true hasWs (b.skip 1)
    else if c = b%'#' then
      if anyTabs = false ∧ hasWs = false then
        .ok (consumed, .error "comments must be separated from other tokens by whitespace", b)
      else
        let (n, b) ← (b.skip 1).skipWhileNonBreakz debug
        Buf.sharedLoop debug skipTabs rounds (consumed + n + 1) anyTabs hasWs b
    else .ok (consumed, .ok (anyTabs, hasWs), b)

/-- `skip_ws_to_eol`: buffered_source.rs 157–210. The flag `any_tabs` is never set by the first loop. -/
def Buf.skipWsToEol (debug : Bool) (b : Buf) (skipTab hasWs : Bool) : Except Fault (Nat × Except String (Bool × Bool) × Buf) := do
  let (consumed, hasWs, found, b) ← b.wsLoop skipTab b.size 0 hasWs
  match found with
  | some consume => .ok (consumed, .ok (false, hasWs), b.skip consume)
  | none => (b.skip 0).sharedLoop debug skipTab (b.size + 1) consumed false hasWs

end Verif.Buffered
