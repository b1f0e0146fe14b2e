import Verif.Model.Source
import Verif.Model.Tokens
import Verif.Model.Utf8
/-!
# The scanner: `yam-core/src/parsing/scanner.rs` over a `StrSource`

Conventions and simplifications that hold throughout:

* the cargo feature `comment` is off;
* `usize` and `u32` counters (positions, columns, lines, flow level, token numbers) are unbounded naturals;
* `Vec`s used as stacks are lists with the top first; a `VecDeque` is a list with the front first;
* every Rust loop gets `fuel` iterations; running out of them is the outcome `hang`. Loops that the code cannot leave are those
  that give `hang` for every amount of fuel;
* the state survives an error, but what is left of it is not meaningful: `Scanner::next` never looks at it again;
* the reusable buffers `buf_leading_break`, `buf_trailing_breaks` and `buf_whitespaces` are cleared where `scan_plain_scalar`
  starts and used nowhere else, so they are local variables of that function.
-/
namespace Verif.Scanner
open Verif Verif.CharUtils Verif.Source

/-- Parameters of a run that the source text does not fix: the iterations granted to each loop, and whether the build checks
arithmetic overflow (`debug_assertions`) or wraps. -/
structure Cfg where
  fuel : Nat
  debug : Bool
deriving DecidableEq, Repr

/-- `SimpleKey`: scanner.rs 49–55 -/
structure SimpleKey where
  possible : Bool
  required : Bool
  tokenNumber : Nat
  mark : Marker
deriving DecidableEq, Repr

/-- `SimpleKey::new`: scanner.rs 58–65 -/
def SimpleKey.new (m : Marker) : SimpleKey := ⟨false, false, 0, m⟩

/-- `Indent`: scanner.rs 68–72 -/
structure Indent where
  indent : Nat
  needsBlockEnd : Bool
deriving DecidableEq, Repr

/-- `ImplicitMappingState`: scanner.rs 74–86 -/
inductive ImplicitMappingState
  | possible
  | inside
deriving DecidableEq, Repr

/-- `Scanner`: scanner.rs 88–114 -/
structure SSt where
  src : Src
  mark : Marker
  tokens : List Token
  error : Option YErr
  simpleKeys : List SimpleKey
  indents : List Indent
  implicitFlowMappingStates : List ImplicitMappingState
  streamEndReached : Bool
  tokensAvailable : Bool
  simpleKeyAllowed : Bool
  streamStartProduced : Bool
  streamEndProduced : Bool
  leadingWhitespace : Bool
  flowMappingStarted : Bool
  adjacentValueAllowedAt : Nat
  tokensParsed : Nat
  flowLevel : Nat
  indent : Nat
deriving DecidableEq, Repr

/-- `Scanner::new` on `StrSource::new(input)`: scanner.rs 117–148 -/
def new (input : List Byte) : SSt where
  src := Src.new input
  mark := ⟨0, 1, 1⟩
  tokens := []
  error := none
  simpleKeys := []
  indents := []
  implicitFlowMappingStates := []
  streamEndReached := false
  tokensAvailable := false
  simpleKeyAllowed := true
  streamStartProduced := false
  streamEndProduced := false
  leadingWhitespace := true
  flowMappingStarted := false
  adjacentValueAllowedAt := 0
  tokensParsed := 0
  flowLevel := 0
  indent := 0

/-- Code working on `&mut self` that may fail, panic or run for ever. -/
def SM (α : Type) : Type := SSt → Res α × SSt

instance : Monad SM where
  pure a := fun s => (.ok a, s)
  bind m f := fun s =>
    match m s with
    | (.ok a, s') => f a s'
    | (.err e, s') => (.err e, s')
    | (.panic, s') => (.panic, s')
    | (.hang, s') => (.hang, s')

/-- `return Err(YamlError::new_str(mark, msg))` -/
def fail {α} (m : Marker) (msg : String) : SM α := fun s => (.err (.scanner m msg), s)

/-- a panicking branch -/
def panic {α} : SM α := fun s => (.panic, s)

/-- a loop that has used up its iterations -/
def hang {α} : SM α := fun s => (.hang, s)

/-- read from the state -/
def gets {α} (f : SSt → α) : SM α := fun s => (.ok (f s), s)

/-- assign to fields -/
def upd (f : SSt → SSt) : SM Unit := fun s => (.ok (), f s)

/-- `if c { return Err(..) }` -/
def failIf (c : Bool) (m : Marker) (msg : String) : SM Unit := if c then fail m msg else pure ()

/-- `if c { m }` -/
def when (c : Bool) (m : SM Unit) : SM Unit := if c then m else pure ()

/-- How an iteration of a loop ends. -/
inductive Loop (σ α : Type)
  | next (s : σ)
  | done (a : α)

/-- `loop { body }` with local variables `σ`, granted a number of iterations. -/
def loopM {σ α} (body : σ → SM (Loop σ α)) : Nat → σ → SM α
  | 0, _ => hang
  | n + 1, x => do
    match ← body x with
    | .next y => loopM body n y
    | .done a => pure a

/-- `self.src.peekz(n)` -/
def peekz (n : Nat) : SM Byte := gets (·.src.peekz n)

/-- `self.src.peek_checked(0).is_none()` -/
def atEof : SM Bool := gets (·.src.bufIsEmpty)

/-- `self.mark` -/
def getMark : SM Marker := gets (·.mark)

/-- `self.tokens.push_back(..)` -/
def push (sp : Span) (tt : TokenType) : SM Unit := upd fun s => { s with tokens := s.tokens ++ [⟨sp, tt⟩] }

/-- `self.simple_key_allowed = b` -/
def setAllowed (b : Bool) : SM Unit := upd fun s => { s with simpleKeyAllowed := b }

/-! ## Skipping: scanner.rs 797–901 -/

/-- `skip_n_non_blank`: scanner.rs 798–804 -/
def skipN (n : Nat) : SM Unit := upd fun s =>
  { s with
    src := s.src.skip n
    mark := { s.mark with pos := s.mark.pos + n, col := s.mark.col + n }
    leadingWhitespace := false }

/-- `skip_non_blank`: scanner.rs 848–854 -/
def skipNonBlank : SM Unit := upd fun s =>
  { s with
    src := s.src.skip 1
    mark := { s.mark with pos := s.mark.pos + 1, col := s.mark.col + 1 }
    leadingWhitespace := false }

/-- `skip_blank`: scanner.rs 841–846 -/
def skipBlank : SM Unit := upd fun s =>
  { s with src := s.src.skip 1, mark := { s.mark with pos := s.mark.pos + 1, col := s.mark.col + 1 } }

/-- `skip_linebreak`: scanner.rs 819–839 -/
def skipLinebreak : SM Unit := upd fun s =>
  if s.src.peekz 0 = b%'\r' ∧ s.src.peekz 1 = b%'\n' then
    { s with
      src := s.src.skip 2
      mark := ⟨s.mark.pos + 2, 1, s.mark.line + 1⟩
      leadingWhitespace := true }
  else if s.src.peekz 0 = b%'\n' then
    { s with
      src := s.src.skip 1
      mark := ⟨s.mark.pos + 1, 1, s.mark.line + 1⟩
      leadingWhitespace := true }
  else s

/-- the effect of `let n = self.src.skip…(); self.mark.pos += n; self.mark.col += n`: e.g. scanner.rs 892–895 -/
def skipCounted (f : Src → Nat × Src) : SM Unit := upd fun s =>
  { s with
    src := (f s.src).2
    mark := { s.mark with pos := s.mark.pos + (f s.src).1, col := s.mark.col + (f s.src).1 } }

/-- `skip_ws_to_eol`: scanner.rs 806–816; returns `(any_tabs, has_yaml_ws)`, that is `found_tabs()` and
`has_valid_yaml_ws()` (scanner.rs 23–36) -/
def skipWsToEol (skipTabs prevWs : Bool) : SM (Bool × Bool) := fun s =>
  let x := s.src.skipWsToEol skipTabs prevWs
  let m : Marker := { s.mark with pos := s.mark.pos + x.1, col := s.mark.col + x.1 }
  let s' := { s with src := x.2.2, mark := m }
  match x.2.1 with
  | .ok r => (.ok r, s')
  | .error msg => (.err (.scanner m msg), s')

/-- One iteration of `skip_to_next_token`: scanner.rs 863–899 -/
def skipToNextTokenBody (_ : Unit) : SM (Loop Unit Unit) := do
  let c ← peekz 0
  let tabIndent ← gets fun s => !s.indents.isEmpty && s.leadingWhitespace && decide (s.mark.col < s.indent)
  if c = b%'\t' ∧ tabIndent then do
    let _ ← skipWsToEol true false
    let c ← peekz 0
    let m ← getMark
    failIf (!isBreakz c) m "tabs disallowed within this context (block indentation)"
    pure (.next ())
  else if c = b%'\t' ∨ c = b%' ' then do
    skipBlank
    pure (.next ())
  else if c = b%'\n' ∨ c = b%'\r' then do
    skipLinebreak
    let fl ← gets (·.flowLevel)
    when (fl == 0) (setAllowed true)
    pure (.next ())
  else if c = b%'#' then do
    skipCounted Src.skipWhileNonBreakz
    pure (.next ())
  else pure (.done ())

/-- `skip_to_next_token`: scanner.rs 861–901 -/
def skipToNextToken (cfg : Cfg) : SM Unit := loopM skipToNextTokenBody cfg.fuel ()

/-- One iteration of `skip_yaml_whitespace`: scanner.rs 575–604; the variable is `need_whitespace`, also the result -/
def skipYamlWhitespaceBody (need : Bool) : SM (Loop Bool Bool) := do
  let c ← peekz 0
  if c = b%' ' then do
    skipBlank
    pure (.next false)
  else if c = b%'\n' ∨ c = b%'\r' then do
    skipLinebreak
    let fl ← gets (·.flowLevel)
    when (fl == 0) (setAllowed true)
    pure (.next false)
  else if c = b%'#' then do
    skipCounted Src.skipWhileNonBreakz
    pure (.next need)
  else pure (.done need)

/-- `skip_yaml_whitespace`: scanner.rs 572–611 -/
def skipYamlWhitespace (cfg : Cfg) : SM Unit := do
  let need ← loopM skipYamlWhitespaceBody cfg.fuel true
  let m ← getMark
  failIf need m "expected whitespace"

/-- `read_break`: scanner.rs 1734–1737; `s` is returned -/
def readBreak (s : List Byte) : SM (List Byte) := do
  skipLinebreak
  pure (s ++ [b%'\n'])

/-! ## Simple keys, indentation and the token queue: scanner.rs 1851–1991 -/

/-- The `while` loop of `unroll_indent`: scanner.rs 1856–1867, by recursion on the stack of indents; `none` is the `unwrap` of an
empty stack. Returns the new indents, the new `indent` and the number of `BlockEnd` tokens to push. -/
def unroll (col : Nat) : Nat → List Indent → Option (List Indent × Nat × Nat)
  | i, [] => if i > col then none else some ([], i, 0)
  | i, x :: xs =>
    if i > col then
      (unroll col x.indent xs).map fun r => (r.1, r.2.1, r.2.2 + if x.needsBlockEnd then 1 else 0)
    else some (x :: xs, i, 0)

/-- `unroll_indent`: scanner.rs 1851–1868 -/
def unrollIndent (col : Nat) : SM Unit := fun s =>
  if s.flowLevel > 0 then (.ok (), s)
  else
    match unroll col s.indent s.indents with
    | none => (.panic, s)
    | some (is, i, n) =>
      (.ok (), { s with indents := is, indent := i,
                        tokens := s.tokens ++ List.replicate n ⟨Span.empty s.mark, .blockEnd⟩ })

/-- `insert_token`: scanner.rs 1923–1927, called with `number - self.tokens_parsed` (647, 659, 1894): the subtraction or, when it
wraps, the assertion panics. -/
def insertToken (number : Nat) (sp : Span) (tt : TokenType) : SM Unit := fun s =>
  if number < s.tokensParsed ∨ s.tokens.length < number - s.tokensParsed then (.panic, s)
  else (.ok (), { s with tokens := s.tokens.take (number - s.tokensParsed) ++
                          ⟨sp, tt⟩ :: s.tokens.drop (number - s.tokensParsed) })

/-- First half of `roll_indent`: scanner.rs 1881–1887 -/
def dropNonBlock (col : Nat) : SM Unit := upd fun s =>
  match s.indents with
  | x :: xs => if s.indent ≤ col ∧ x.needsBlockEnd = false then { s with indent := x.indent, indents := xs } else s
  | [] => s

/-- Second half of `roll_indent`: scanner.rs 1889–1900 -/
def pushBlock (col : Nat) (number : Option Nat) (tt : TokenType) (m : Marker) : SM Unit := do
  let i ← gets (·.indent)
  if i < col then do
    upd fun s => { s with indents := ⟨s.indent, true⟩ :: s.indents, indent := col }
    match number with
    | some n => insertToken n (Span.empty m) tt
    | none => push (Span.empty m) tt
  else pure ()

/-- `roll_indent`: scanner.rs 1870–1901 -/
def rollIndent (col : Nat) (number : Option Nat) (tt : TokenType) (m : Marker) : SM Unit := do
  let fl ← gets (·.flowLevel)
  if fl > 0 then pure ()
  else do
    dropNonBlock col
    pushBlock col number tt m

/-- `roll_one_col_indent`: scanner.rs 1903–1911 -/
def rollOneColIndent : SM Unit := upd fun s =>
  match s.indents with
  | x :: _ =>
    if s.flowLevel = 0 ∧ x.needsBlockEnd = true then
      { s with indents := ⟨s.indent, false⟩ :: s.indents, indent := s.indent + 1 }
    else s
  | [] => s

/-- The loop of `unroll_non_block_indents`: scanner.rs 1914–1920 -/
def unrollNonBlock : Nat → List Indent → List Indent × Nat
  | i, [] => ([], i)
  | i, x :: xs => if x.needsBlockEnd then (x :: xs, i) else unrollNonBlock x.indent xs

/-- `unroll_non_block_indents`: scanner.rs 1913–1921 -/
def unrollNonBlockIndents : SM Unit := upd fun s =>
  { s with indents := (unrollNonBlock s.indent s.indents).1, indent := (unrollNonBlock s.indent s.indents).2 }

/-- `increase_flow_level`: scanner.rs 1929–1940; the `u32` overflow error is out of reach of unbounded counters -/
def increaseFlowLevel : SM Unit := upd fun s =>
  { s with simpleKeys := SimpleKey.new ⟨0, 0, 0⟩ :: s.simpleKeys, flowLevel := s.flowLevel + 1 }

/-- `decrease_flow_level`: scanner.rs 1942–1947 -/
def decreaseFlowLevel : SM Unit := fun s =>
  if s.flowLevel > 0 then
    match s.simpleKeys with
    | [] => (.panic, s)
    | _ :: ks => (.ok (), { s with flowLevel := s.flowLevel - 1, simpleKeys := ks })
  else (.ok (), s)

/-- the test in `stale_simple_keys`: scanner.rs 1951–1954 -/
def isStale (s : SSt) (k : SimpleKey) : Bool :=
  k.possible && s.flowLevel == 0 && (decide (k.mark.line < s.mark.line) || decide (k.mark.pos + 1024 < s.mark.pos))

/-- `stale_simple_keys`: scanner.rs 1949–1963. The Rust loop goes through the keys one by one and stops at a required one. -/
def staleSimpleKeys : SM Unit := fun s =>
  if s.simpleKeys.any fun k => isStale s k && k.required then
    (.err (.scanner s.mark "simple key expect ':'"), s)
  else
    (.ok (), { s with simpleKeys := s.simpleKeys.map fun k => if isStale s k then { k with possible := false } else k })

/-- `remove_simple_key`: scanner.rs 1965–1973 -/
def removeSimpleKey : SM Unit := fun s =>
  match s.simpleKeys with
  | [] => (.panic, s)
  | k :: ks =>
    if k.possible ∧ k.required then (.err (.scanner s.mark "simple key expected"), s)
    else (.ok (), { s with simpleKeys := { k with possible := false } :: ks })

/-- the key built by `save_simple_key`: scanner.rs 1977–1986 -/
def keyHere (s : SSt) : SimpleKey where
  mark := s.mark
  required := s.flowLevel == 0 && s.indent == s.mark.col &&
    (match s.indents with | x :: _ => x.needsBlockEnd | [] => false)
  possible := true
  tokenNumber := s.tokensParsed + s.tokens.length

/-- `save_simple_key`: scanner.rs 1975–1991 -/
def saveSimpleKey : SM Unit := upd fun s =>
  if s.simpleKeyAllowed then { s with simpleKeys := keyHere s :: s.simpleKeys.tail } else s

/-! ## Scalars -/

/-- Inner loop of `scan_plain_scalar`: scanner.rs 1006–1022; the nesting `while !end { for _ in 0..127 { .. } }` only repeats the
same iteration -/
def plainRunBody (string : List Byte) : SM (Loop (List Byte) (List Byte)) := do
  let c ← peekz 0
  let can ← gets fun s => s.src.nextCanBePlainScalar (decide (s.flowLevel > 0))
  if isBlankOrBreakz c || !can then pure (.done string)
  else do
    skipNonBlank
    pure (.next (string ++ [c]))

/-- Local variables of `scan_plain_scalar`: scanner.rs 959–963 -/
structure PlainSt where
  string : List Byte
  leadingBreak : List Byte
  trailingBreaks : List Byte
  whitespaces : List Byte
  endMark : Marker
deriving DecidableEq, Repr

/-- Folding of the whitespace before content: scanner.rs 981–1000 -/
def plainJoin (leadingWhitespace : Bool) (p : PlainSt) : PlainSt :=
  if leadingWhitespace then
    if p.leadingBreak.isEmpty then
      { p with string := p.string ++ p.leadingBreak ++ p.trailingBreaks, trailingBreaks := [], leadingBreak := [] }
    else if p.trailingBreaks.isEmpty then
      { p with string := p.string ++ [b%' '], leadingBreak := [] }
    else
      { p with string := p.string ++ p.trailingBreaks, trailingBreaks := [], leadingBreak := [] }
  else { p with string := p.string ++ p.whitespaces, whitespaces := [] }

/-- Content of a plain scalar: scanner.rs 981–1023 -/
def plainContent (cfg : Cfg) (p : PlainSt) : SM PlainSt := do
  let lw ← gets (·.leadingWhitespace)
  let p := plainJoin lw p
  let c ← peekz 0
  skipNonBlank
  let string ← loopM plainRunBody cfg.fuel (p.string ++ [c])
  let m ← getMark
  pure { p with string := string, endMark := m }

/-- One iteration of the blank-eating loop of `scan_plain_scalar`: scanner.rs 1035–1066 -/
def plainBlankBody (indent : Nat) (start : Marker) (p : PlainSt) : SM (Loop PlainSt PlainSt) := do
  let c ← peekz 0
  let lw ← gets (·.leadingWhitespace)
  let m ← getMark
  if isBlankOrBreak c = false then pure (.done p)
  else if isBlank c then
    if lw = false then do
      skipBlank
      pure (.next { p with whitespaces := p.whitespaces ++ [c] })
    else if m.col < indent ∧ c = b%'\t' then do
      let _ ← skipWsToEol true false
      let c ← peekz 0
      failIf (!isBreakz c) start "while scanning a plain scalar, found a tab"
      pure (.next p)
    else do
      skipBlank
      pure (.next p)
  else if lw then do
    skipLinebreak
    pure (.next { p with trailingBreaks := p.trailingBreaks ++ [b%'\n'] })
  else do
    skipLinebreak
    upd fun s => { s with leadingWhitespace := true }
    pure (.next { p with whitespaces := [], leadingBreak := p.leadingBreak ++ [b%'\n'] })

/-- Second half of an iteration of `scan_plain_scalar`: scanner.rs 1026–1071 -/
def plainAfter (cfg : Cfg) (indent : Nat) (start : Marker) (p : PlainSt) : SM (Loop PlainSt PlainSt) := do
  let c ← peekz 0
  if isBlank c || isBreak c then do
    let p ← loopM (plainBlankBody indent start) cfg.fuel p
    let out ← gets fun s => s.flowLevel == 0 && decide (s.mark.col < indent)
    if out then pure (.done p) else pure (.next p)
  else pure (.done p)

/-- One iteration of the outer loop of `scan_plain_scalar`: scanner.rs 965–1072 -/
def plainBody (cfg : Cfg) (indent : Nat) (start : Marker) (p : PlainSt) : SM (Loop PlainSt PlainSt) := do
  let stop ← gets fun s => (s.leadingWhitespace && s.src.nextIsDocumentIndicator) || s.src.peekz 0 == b%'#'
  if stop then pure (.done p)
  else do
    let bad ← gets fun s => decide (s.flowLevel > 0) && s.src.peekz 0 == b%'-' && isFlow (s.src.peekz 1)
    let m ← getMark
    failIf bad m "plain scalar cannot start with '-' followed by ,[]{}"
    let content ← gets fun s =>
      !isBlankOrBreakz (s.src.peekz 0) && s.src.nextCanBePlainScalar (decide (s.flowLevel > 0))
    if content then do
      let p ← plainContent cfg p
      plainAfter cfg indent start p
    else plainAfter cfg indent start p

/-- `scan_plain_scalar`: scanner.rs 946–1098 -/
def scanPlainScalar (cfg : Cfg) : SM Token := do
  unrollNonBlockIndents
  let indent ← gets fun s => s.indent + 1
  let start ← getMark
  let bad ← gets fun s => decide (s.flowLevel > 0) && decide (s.mark.col < indent)
  failIf bad start "invalid indentation in flow construct"
  let p ← loopM (plainBody cfg indent start) cfg.fuel ⟨[], [], [], [], start⟩
  let lw ← gets (·.leadingWhitespace)
  when lw (setAllowed true)
  failIf p.string.isEmpty start "unexpected end of plain scalar"
  pure ⟨⟨start, p.endMark⟩, .scalar .plain p.string⟩

/-- The one-byte escapes of `resolve_flow_scalar_escape_sequence`: scanner.rs 1791–1812 (code points) -/
def simpleEscape (c : Byte) : Option Nat :=
  if c = b%'0' then some 0
  else if c = b%'a' then some 7
  else if c = b%'b' then some 8
  else if c = b%'t' ∨ c = b%'\t' then some 9
  else if c = b%'n' then some 10
  else if c = b%'v' then some 11
  else if c = b%'f' then some 12
  else if c = b%'r' then some 13
  else if c = b%'e' then some 27
  else if c = b%' ' then some 32
  else if c = b%'"' then some 34
  else if c = b%'/' then some 47
  else if c = b%'\\' then some 92
  else if c = b%'N' then some 0x85
  else if c = b%'_' then some 0xA0
  else if c = b%'L' then some 0x2028
  else if c = b%'P' then some 0x2029
  else none

/-- The `for` loop over the hexadecimal digits: scanner.rs 1826–1835. `some none` is the "did not find expected hexadecimal
number" error, `none` the panic inside `as_hex`. At most eight digits are read, so the `u32` does not overflow. -/
def hexValue (src : Src) : Nat → Nat → Nat → Option (Option Nat)
  | 0, _, value => some (some value)
  | n + 1, i, value =>
    if isAsciiHexdigit (src.peekz i) then
      match asHex (src.peekz i) with
      | some d => hexValue src n (i + 1) (value * 16 + d)
      | none => none
    else some none

/-- The numeric escapes: scanner.rs 1813–1847 -/
def hexEscape (len : Nat) (start : Marker) : SM Nat := do
  skipN 2
  let v ← gets fun s => hexValue s.src len 0 0
  match v with
  | none => panic
  | some none => fail start "while parsing a quoted scalar, did not find expected hexadecimal number"
  | some (some v) =>
    match Utf8.charFromU32 v with
    | none => fail start "while parsing a quoted scalar, found invalid Unicode character escape code"
    | some ch => do
      skipN len
      pure ch

/-- `resolve_flow_scalar_escape_sequence`: scanner.rs 1783–1849 -/
def resolveEscape (start : Marker) : SM Nat := do
  let c ← peekz 1
  match simpleEscape c with
  | some ch => do
    skipN 2
    pure ch
  | none =>
    if c = b%'x' then hexEscape 2 start
    else if c = b%'u' then hexEscape 4 start
    else if c = b%'U' then hexEscape 8 start
    else fail start "while parsing a quoted scalar, found unknown escape character"

/-- One iteration of `consume_flow_scalar_non_whitespace_chars`: scanner.rs 1746–1773. The result is the string and whether
`leading_blanks` was set. -/
def flowCharsBody (single : Bool) (start : Marker) (string : List Byte) : SM (Loop (List Byte) (List Byte × Bool)) := do
  let c ← peekz 0
  let nc ← peekz 1
  if isBlankOrBreakz c then pure (.done (string, false))
  else if c = b%'\'' ∧ nc = b%'\'' ∧ single then do
    skipN 2
    pure (.next (string ++ [b%'\'']))
  else if c = b%'\'' ∧ single then pure (.done (string, false))
  else if c = b%'"' ∧ single = false then pure (.done (string, false))
  else if c = b%'\\' ∧ single = false ∧ isBreak nc then do
    skipNonBlank
    skipLinebreak
    pure (.done (string, true))
  else if c = b%'\\' ∧ single = false then do
    let ch ← resolveEscape start
    pure (.next (string ++ Utf8.encode ch))
  else do
    skipNonBlank
    pure (.next (string ++ [c]))

/-- Local variables of `scan_flow_scalar`: scanner.rs 1104–1108 -/
structure FlowSt where
  string : List Byte
  leadingBreak : List Byte
  trailingBreaks : List Byte
  whitespaces : List Byte
  leadingBlanks : Bool
deriving DecidableEq, Repr

/-- One iteration of the blank-eating loop of `scan_flow_scalar`: scanner.rs 1154–1180 -/
def flowBlankBody (p : FlowSt) : SM (Loop FlowSt FlowSt) := do
  let c ← peekz 0
  if isBlank c then
    if p.leadingBlanks then do
      let m ← getMark
      let bad ← gets fun s => c == b%'\t' && decide (s.mark.col < s.indent)
      failIf bad m "tab cannot be used as indentation"
      skipBlank
      pure (.next p)
    else do
      skipBlank
      pure (.next { p with whitespaces := p.whitespaces ++ [c] })
  else if isBreak c then
    if p.leadingBlanks then do
      let tb ← readBreak p.trailingBreaks
      pure (.next { p with trailingBreaks := tb })
    else do
      let lb ← readBreak p.leadingBreak
      pure (.next { p with whitespaces := [], leadingBreak := lb, leadingBlanks := true })
  else pure (.done p)

/-- Joining whitespace or folding breaks: scanner.rs 1183–1200 -/
def flowJoin (p : FlowSt) : FlowSt :=
  if p.leadingBlanks then
    if p.leadingBreak.isEmpty then
      { p with string := p.string ++ p.leadingBreak ++ p.trailingBreaks, trailingBreaks := [], leadingBreak := [] }
    else if p.trailingBreaks.isEmpty then
      { p with string := p.string ++ [b%' '], leadingBreak := [] }
    else
      { p with string := p.string ++ p.trailingBreaks, trailingBreaks := [], leadingBreak := [] }
  else { p with string := p.string ++ p.whitespaces, whitespaces := [] }

/-- One iteration of the outer loop of `scan_flow_scalar`: scanner.rs 1113–1201 -/
def flowBody (cfg : Cfg) (single : Bool) (start : Marker) (p : FlowSt) : SM (Loop FlowSt FlowSt) := do
  let doc ← gets fun s => s.mark.col == 1 && s.src.nextIsDocumentIndicator
  failIf doc start "while scanning a quoted scalar, found unexpected document indicator"
  let eof ← atEof
  failIf eof start "while scanning a quoted scalar, found unexpected end of stream"
  let low ← gets fun s => decide (s.mark.col < s.indent)
  failIf low start "invalid indentation in quoted scalar"
  let r ← loopM (flowCharsBody single start) cfg.fuel p.string
  let p := { p with string := r.1, leadingBlanks := r.2 }
  let c ← peekz 0
  if (c = b%'\'' ∧ single) ∨ (c = b%'"' ∧ single = false) then pure (.done p)
  else do
    let p ← loopM flowBlankBody cfg.fuel p
    pure (.next (flowJoin p))

/-- What may follow a quoted scalar: scanner.rs 1209–1230 -/
def flowTrailingOk (s : SSt) (start : Marker) : Bool :=
  let c := s.src.peekz 0
  ((c == b%',' || c == b%'}' || c == b%']') && decide (s.flowLevel > 0))
    || isBreakz c
    || (c == b%':' && s.flowLevel == 0 && start.line == s.mark.line)
    || (c == b%':' && decide (s.flowLevel > 0))

/-- `scan_flow_scalar`: scanner.rs 1101–1243 -/
def scanFlowScalar (cfg : Cfg) (single : Bool) : SM Token := do
  let start ← getMark
  skipNonBlank
  let p ← loopM (flowBody cfg single start) cfg.fuel ⟨[], [], [], [], false⟩
  skipNonBlank
  let _ ← skipWsToEol true false
  let ok ← gets (flowTrailingOk · start)
  let m ← getMark
  failIf (!ok) m "invalid trailing content after double-quoted scalar"
  pure ⟨⟨start, m⟩, .scalar (if single then .singleQuote else .doubleQuote) p.string⟩

/-- `ChompIndicator`: parsing/mod.rs 103–111 -/
inductive Chomp
  | strip | clip | keep
deriving DecidableEq, Repr

/-- the optional `+` or `-` of a block scalar header: e.g. scanner.rs 1294–1301 -/
def blockChomp : SM Chomp := do
  let c ← peekz 0
  if c = b%'+' then do
    skipNonBlank
    pure .keep
  else if c = b%'-' then do
    skipNonBlank
    pure .strip
  else pure .clip

/-- the optional indentation digit of a block scalar header: e.g. scanner.rs 1283–1292 -/
def blockIncrement (start : Marker) : SM Nat := do
  let c ← peekz 0
  if isAsciiDigit c then do
    failIf (c == b%'0') start "while scanning a block scalar, found an indentation indicator equal to 0"
    skipNonBlank
    pure (c - b%'0')
  else pure 0

/-- The header of a block scalar after `|` or `>`: scanner.rs 1270–1303 -/
def blockHeader (start : Marker) : SM (Chomp × Nat) := do
  let c ← peekz 0
  if c = b%'+' ∨ c = b%'-' then do
    let ch ← blockChomp
    let inc ← blockIncrement start
    pure (ch, inc)
  else do
    let inc ← blockIncrement start
    if inc = 0 then pure (.clip, 0)
    else do
      let ch ← blockChomp
      pure (ch, inc)

/-- `while self.src.peekz(0) == b' ' { self.skip_blank() }`: scanner.rs 1663–1665 -/
def spacesBody (_ : Unit) : SM (Loop Unit Unit) := do
  let c ← peekz 0
  if c = b%' ' then do
    skipBlank
    pure (.next ())
  else pure (.done ())

/-- One iteration of `skip_block_scalar_first_line_indent`: scanner.rs 1661–1679; variables `max_indent` and `breaks` -/
def firstLineBody (cfg : Cfg) (x : Nat × List Byte) : SM (Loop (Nat × List Byte) (Nat × List Byte)) := do
  loopM spacesBody cfg.fuel ()
  let col ← gets (·.mark.col)
  let mi := if col > x.1 then col else x.1
  let c ← peekz 0
  if isBreak c then do
    let br ← readBreak x.2
    pure (.next (mi, br))
  else pure (.done (mi, x.2))

/-- `skip_block_scalar_first_line_indent`: scanner.rs 1659–1693; returns `indent` and `breaks` -/
def skipFirstLineIndent (cfg : Cfg) (breaks : List Byte) : SM (Nat × List Byte) := do
  let r ← loopM (firstLineBody cfg) cfg.fuel (0, breaks)
  let i ← gets (·.indent)
  let ind := max r.1 (i + 1)
  pure (if i > 0 then max ind 1 else ind, r.2)

/-- `while self.mark.col < indent && self.src.peekz(0) == b' ' { self.skip_blank() }`: scanner.rs 1701–1703 and 1706–1711 (where the
additional `!buf_is_empty()` changes nothing) -/
def indentSpacesBody (indent : Nat) (_ : Unit) : SM (Loop Unit Unit) := do
  let c ← peekz 0
  let col ← gets (·.mark.col)
  if col < indent ∧ c = b%' ' then do
    skipBlank
    pure (.next ())
  else pure (.done ())

/-- The inner `loop` for deep indentation: scanner.rs 1705–1719 -/
def deepIndentBody (cfg : Cfg) (indent : Nat) (_ : Unit) : SM (Loop Unit Unit) := do
  loopM (indentSpacesBody indent) cfg.fuel ()
  let out ← gets fun s => s.mark.col == indent || (!s.src.bufIsEmpty && s.src.peekz 0 != b%' ')
  if out then pure (.done ()) else pure (.next ())

/-- Skipping the indentation of one line: scanner.rs 1699–1720 -/
def blockIndentSpaces (cfg : Cfg) (indent : Nat) : SM Unit :=
  if indent < bufMaxLen - 2 then loopM (indentSpacesBody indent) cfg.fuel ()
  else loopM (deepIndentBody cfg indent) cfg.fuel ()

/-- One iteration of `skip_block_scalar_indent`: scanner.rs 1697–1730 -/
def blockIndentBody (cfg : Cfg) (indent : Nat) (breaks : List Byte) : SM (Loop (List Byte) (List Byte)) := do
  blockIndentSpaces cfg indent
  let c ← peekz 0
  if isBreak c then do
    let br ← readBreak breaks
    pure (.next br)
  else pure (.done breaks)

/-- `skip_block_scalar_indent`: scanner.rs 1696–1731; returns `breaks` -/
def skipBlockIndent (cfg : Cfg) (indent : Nat) (breaks : List Byte) : SM (List Byte) :=
  loopM (blockIndentBody cfg indent) cfg.fuel breaks

/-- The loop of `scan_block_scalar_content_line`: scanner.rs 1454–1462 -/
def contentBody (string : List Byte) : SM (Loop (List Byte) (List Byte)) := do
  let eof ← atEof
  let c ← peekz 0
  if !eof && !isBreak c then do
    skipBlank
    pure (.next (string ++ [c]))
  else pure (.done string)

/-- `self.src.push_non_breakz_chr(line_buffer)` and the update of the mark: scanner.rs 1466–1484 with source.rs 286–294. Slicing
`input[pos..]` panics when `pos > len`. -/
def pushNonBreakz : SM (List Byte) := fun s =>
  if s.src.pos > s.src.len then (.panic, s)
  else
    let n := (s.src.rest.findIdx? isBreak).getD 0
    (.ok (s.src.rest.take n),
      { s with src := s.src.skip n, mark := { s.mark with pos := s.mark.pos + n, col := s.mark.col + n } })

/-- `scan_block_scalar_content_line`: scanner.rs 1452–1485; returns `string` -/
def contentLine (cfg : Cfg) (string : List Byte) : SM (List Byte) := do
  let string ← loopM contentBody cfg.fuel string
  let eof ← atEof
  if eof then do
    let more ← pushNonBreakz
    pure (string ++ more)
  else pure string

/-- Local variables of the main loop of `scan_block_scalar`: scanner.rs 1252, 1259–1261 -/
structure BlockSt where
  string : List Byte
  leadingBreak : List Byte
  trailingBreaks : List Byte
  leadingBlank : Bool
deriving DecidableEq, Repr

/-- Joining of lines: scanner.rs 1386–1400 -/
def blockJoin (literal trailingBlank : Bool) (p : BlockSt) : BlockSt :=
  if !literal && !p.leadingBreak.isEmpty && !p.leadingBlank && !trailingBlank then
    { string := p.string ++ p.trailingBreaks ++ (if p.trailingBreaks.isEmpty then [b%' '] else [])
      leadingBreak := [], trailingBreaks := [], leadingBlank := trailingBlank }
  else
    { string := p.string ++ p.leadingBreak ++ p.trailingBreaks
      leadingBreak := [], trailingBreaks := [], leadingBlank := trailingBlank }

/-- `next_is_document_end`: scanner.rs 245–247 -/
def nextIsDocumentEnd (s : SSt) : Bool := s.src.nextIsThree b%'.' && isBlankOrBreakz (s.src.peekz 3)

/-- `next_is_document_start`: scanner.rs 241–243 -/
def nextIsDocumentStart (s : SSt) : Bool := s.src.nextIsThree b%'-' && isBlankOrBreakz (s.src.peekz 3)

/-- One iteration of the main loop of `scan_block_scalar`: scanner.rs 1376–1416 -/
def blockBody (cfg : Cfg) (literal : Bool) (indent : Nat) (p : BlockSt) : SM (Loop BlockSt BlockSt) := do
  let go ← gets fun s => s.mark.col == indent && !s.src.bufIsEmpty && !(indent == 1 && nextIsDocumentEnd s)
  if go then do
    let c ← peekz 0
    let p := blockJoin literal (isBlank c) p
    let string ← contentLine cfg p.string
    let p := { p with string := string }
    let eof ← atEof
    if eof then pure (.done p)
    else do
      let lb ← readBreak p.leadingBreak
      let tb ← skipBlockIndent cfg indent p.trailingBreaks
      pure (.next { p with leadingBreak := lb, trailingBreaks := tb })
  else pure (.done p)

/-- Chomping: scanner.rs 1419–1435; `eof` and `greater` describe the position reached -/
def blockChompTail (ch : Chomp) (eof greater : Bool) (p : BlockSt) : List Byte :=
  p.string
    ++ (if ch = .strip then [] else p.leadingBreak ++ if eof && greater then [b%'\n'] else [])
    ++ (if ch = .keep then p.trailingBreaks else [])

/-- Contents of a block scalar without content lines: scanner.rs 1341–1355 -/
def blockEmpty (ch : Chomp) (sameLine : Bool) (chompingBreak trailingBreaks : List Byte) : List Byte :=
  match ch with
  | .strip => []
  | .clip => if sameLine then [] else chompingBreak
  | .keep => if sameLine then [] else if trailingBreaks.isEmpty then chompingBreak else trailingBreaks

/-- `scan_block_scalar` from the first content line on: scanner.rs 1364–1448 -/
def blockContent (cfg : Cfg) (literal : Bool) (ch : Chomp) (indent : Nat) (trailing : List Byte) : SM Unit := do
  let bad ← gets fun s => decide (s.mark.col < indent) && decide (s.mark.col > s.indent)
  let m ← getMark
  failIf bad m "wrongly indented line in block scalar"
  let p ← loopM (blockBody cfg literal indent) cfg.fuel ⟨[], [], trailing, false⟩
  let eof ← atEof
  let greater ← gets fun s => decide (s.mark.col > max indent 1)
  let m' ← getMark
  push ⟨m, m'⟩ (.scalar (if literal then .literal else .folded) (blockChompTail ch eof greater p))

/-- The part of `scan_block_scalar` that finds the indentation: scanner.rs 1325–1338 -/
def blockFindIndent (cfg : Cfg) (increment : Nat) : SM (Nat × List Byte) := do
  let i ← gets (·.indent)
  let indent := if increment > 0 then (if i ≥ 1 then i + increment else increment) else 0
  if indent = 0 then skipFirstLineIndent cfg []
  else do
    let tb ← skipBlockIndent cfg indent []
    pure (indent, tb)

/-- The break after the header: scanner.rs 1319–1322 -/
def blockHeaderBreak : SM (List Byte) := do
  let c ← peekz 0
  if isBreak c then readBreak [] else pure []

/-- `scan_block_scalar`: scanner.rs 1246–1449 -/
def scanBlockScalar (cfg : Cfg) (literal : Bool) : SM Unit := do
  let start ← getMark
  skipNonBlank
  unrollNonBlockIndents
  let h ← blockHeader start
  let _ ← skipWsToEol true false
  let c ← peekz 0
  failIf (!isBreakz c) start "while scanning a block scalar, did not find expected comment or line break"
  let chompingBreak ← blockHeaderBreak
  let c ← peekz 0
  failIf (c == b%'\t') start "a block scalar content cannot start with a tab"
  let r ← blockFindIndent cfg h.2
  let eof ← atEof
  if eof then do
    let m ← getMark
    push ⟨start, m⟩ (.scalar (if literal then .literal else .folded)
      (blockEmpty h.1 (m.line == start.line) chompingBreak r.2))
  else blockContent cfg literal h.1 r.1 r.2

/-! ## Anchors, tags and directives -/

/-- One iteration of the loop of `scan_anchor`: scanner.rs 1492–1495 -/
def anchorBody (string : List Byte) : SM (Loop (List Byte) (List Byte)) := do
  let c ← peekz 0
  if isAnchorChar c then do
    skipNonBlank
    pure (.next (string ++ [c]))
  else pure (.done string)

/-- `scan_anchor`: scanner.rs 1487–1513 -/
def scanAnchor (cfg : Cfg) (alias : Bool) : SM Token := do
  let start ← getMark
  skipNonBlank
  let string ← loopM anchorBody cfg.fuel []
  failIf string.isEmpty start
    "while scanning an anchor or alias, did not find expected alphabetic or numeric character"
  let m ← getMark
  pure ⟨⟨start, m⟩, if alias then .alias string else .anchor string⟩

/-- The number of bytes announced by a leading byte: scanner.rs 2013–2018. For a byte the masks are these ranges. -/
def utf8Width (byte : Nat) : Option Nat :=
  if byte < 0x80 then some 1
  else if 0xC0 ≤ byte ∧ byte < 0xE0 then some 2
  else if 0xE0 ≤ byte ∧ byte < 0xF0 then some 3
  else if 0xF0 ≤ byte ∧ byte < 0xF8 then some 4
  else none

/-- The tail of an iteration of `scan_uri_escapes`: scanner.rs 2031–2036 -/
def uriStep (width code : Nat) : SM (Loop (Nat × Nat) Nat) := do
  skipN 3
  if width = 0 then panic
  else if width - 1 = 0 then pure (.done code)
  else pure (.next (width - 1, code))

/-- One iteration of `scan_uri_escapes`: scanner.rs 1996–2037; variables `width` and `code` -/
def uriBody (m : Marker) (x : Nat × Nat) : SM (Loop (Nat × Nat) Nat) := do
  let z ← peekz 0
  let c ← peekz 1
  let nc ← peekz 2
  failIf (!(z == b%'%' && isAsciiHexdigit c && isAsciiHexdigit nc)) m
    "while parsing a tag, found an invalid escape sequence"
  match asHex c, asHex nc with
  | some h, some l =>
    let byte := h * 16 + l
    if x.1 = 0 then
      match utf8Width byte with
      | none => fail m "while parsing a tag, found an incorrect leading UTF-8 byte"
      | some w => uriStep w byte
    else if 0x80 ≤ byte ∧ byte < 0xC0 then uriStep x.1 (x.2 * 256 + byte)
    else fail m "while parsing a tag, found an incorrect trailing UTF-8 byte"
  | _, _ => panic

/-- `scan_uri_escapes`: scanner.rs 1993–2049 -/
def scanUriEscapes (cfg : Cfg) (m : Marker) : SM (List Byte) := do
  let code ← loopM (uriBody m) cfg.fuel (0, 0)
  match Utf8.charFromU32 code with
  | some ch => pure (Utf8.encode ch)
  | none => fail m "while parsing a tag, found an invalid UTF-8 codepoint"

/-- `uri_scans_or_non_blank`: scanner.rs 2163–2180; returns `string` -/
def uriScansOrNonBlank (cfg : Cfg) (string : List Byte) (m : Marker) : SM (List Byte) := do
  let c ← gets (·.src.peekChecked 0)
  match c with
  | none => do
    skipNonBlank
    pure string
  | some c =>
    if c = b%'%' then do
      let e ← scanUriEscapes cfg m
      pure (string ++ e)
    else do
      skipNonBlank
      pure (string ++ [c])

/-- `while is_uri_char(self.src.peekz(0)) { .. }`: scanner.rs 1573–1575 and 2198–2200 -/
def uriCharsBody (cfg : Cfg) (m : Marker) (string : List Byte) : SM (Loop (List Byte) (List Byte)) := do
  let c ← peekz 0
  if isUriChar c then do
    let s ← uriScansOrNonBlank cfg string m
    pure (.next s)
  else pure (.done string)

/-- `scan_verbatim_tag`: scanner.rs 1567–1586 -/
def scanVerbatimTag (cfg : Cfg) (start : Marker) : SM (List Byte) := do
  skipNonBlank
  skipNonBlank
  let string ← loopM (uriCharsBody cfg start) cfg.fuel []
  let c ← peekz 0
  failIf (c != b%'>') start "while scanning a verbatim tag, did not find the expected '>'"
  skipNonBlank
  pure string

/-- `let n = self.src.fetch_while_is_alpha(&mut string); self.mark.pos += n; self.mark.col += n`: e.g. scanner.rs 1601–1603; returns
the bytes appended -/
def fetchAlpha : SM (List Byte) := fun s =>
  let x := s.src.fetchWhileIsAlpha
  (.ok x.1, { s with src := x.2,
                     mark := { s.mark with pos := s.mark.pos + x.1.length, col := s.mark.col + x.1.length } })

/-- `scan_tag_handle`: scanner.rs 1589–1619 -/
def scanTagHandle (directive : Bool) (m : Marker) : SM (List Byte) := do
  let c ← peekz 0
  failIf (c != b%'!') m "while scanning a tag, did not find expected '!'"
  skipNonBlank
  let al ← fetchAlpha
  let string := b%'!' :: al
  let c ← peekz 0
  if c = b%'!' then do
    skipNonBlank
    pure (string ++ [b%'!'])
  else do
    failIf (directive && string != [b%'!']) m "while parsing a tag directive, did not find expected '!'"
    pure string

/-- One iteration of the loop of `scan_tag_shorthand_suffix`: scanner.rs 1637–1647; variables `length` and `string` -/
def suffixBody (cfg : Cfg) (m : Marker) (x : Nat × List Byte) : SM (Loop (Nat × List Byte) (Nat × List Byte)) := do
  let c ← peekz 0
  if isTagChar c then
    if c = b%'%' then do
      let e ← scanUriEscapes cfg m
      pure (.next (x.1 + 1, x.2 ++ e))
    else do
      skipNonBlank
      pure (.next (x.1 + 1, x.2 ++ [c]))
  else pure (.done x)

/-- `scan_tag_shorthand_suffix`: scanner.rs 1621–1657 -/
def scanTagSuffix (cfg : Cfg) (head : List Byte) (m : Marker) : SM (List Byte) := do
  let string := if head.length > 1 then head.drop 1 else []
  let r ← loopM (suffixBody cfg m) cfg.fuel (head.length, string)
  failIf (r.1 == 0) m "while parsing a tag, did not find expected tag URI"
  pure r.2

/-- The handle and suffix read by `scan_tag`: scanner.rs 1522–1547 -/
def scanTagParts (cfg : Cfg) (start : Marker) : SM (List Byte × List Byte) := do
  let verbatim ← gets (·.src.nextNextByteIs b%'<')
  if verbatim then do
    let suffix ← scanVerbatimTag cfg start
    pure ([], suffix)
  else do
    let handle ← scanTagHandle false start
    if handle.length ≥ 2 ∧ handle.head? = some b%'!' ∧ handle.getLast? = some b%'!' then do
      let suffix ← scanTagSuffix cfg [] start
      pure (handle, suffix)
    else do
      let suffix ← scanTagSuffix cfg handle start
      pure (if suffix.isEmpty then ([], [b%'!']) else ([b%'!'], suffix))

/-- `scan_tag`: scanner.rs 1515–1565 -/
def scanTag (cfg : Cfg) : SM Token := do
  let start ← getMark
  let r ← scanTagParts cfg start
  let ok ← gets fun s => isBlankOrBreakz (s.src.peekz 0) || (decide (s.flowLevel > 0) && isFlow (s.src.peekz 0))
  failIf (!ok) start "while scanning a tag, did not find expected whitespace or line break"
  let m ← getMark
  pure ⟨⟨start, m⟩, .tag r.1 r.2⟩

/-- `scan_directive_name`: scanner.rs 2052–2076 -/
def scanDirectiveName : SM (List Byte) := do
  let start ← getMark
  let string ← fetchAlpha
  failIf string.isEmpty start "while scanning a directive, could not find expected directive name"
  let c ← peekz 0
  failIf (!isBlankOrBreak c) start "while scanning a directive, found unexpected non-alphabetical character"
  pure string

/-- One iteration of `scan_version_directive_number`: scanner.rs 2138–2150; variables `val` (a `u8`) and `length`. In a debug
build `val * 10 + digit` panics on overflow, otherwise both operations wrap. -/
def versionBody (cfg : Cfg) (m : Marker) (x : Nat × Nat) : SM (Loop (Nat × Nat) (Nat × Nat)) := do
  let c ← peekz 0
  if isAsciiDigit c then do
    failIf (decide (x.2 + 1 > 9)) m "while scanning a YAML directive, found extremely long version number"
    let v := x.1 * 10 + (c - b%'0')
    if cfg.debug ∧ v > 255 then panic
    else do
      skipNonBlank
      pure (.next (v % 256, x.2 + 1))
  else pure (.done x)

/-- `scan_version_directive_number`: scanner.rs 2135–2160 -/
def scanVersionNumber (cfg : Cfg) (m : Marker) : SM Nat := do
  let r ← loopM (versionBody cfg m) cfg.fuel (0, 0)
  failIf (r.2 == 0) m "while scanning a YAML directive, did not find expected version number"
  pure r.1

/-- `scan_version_directive_value`: scanner.rs 2079–2103 -/
def scanVersionDirective (cfg : Cfg) (m : Marker) : SM Token := do
  skipCounted Src.skipWhileBlank
  let major ← scanVersionNumber cfg m
  let c ← peekz 0
  failIf (c != b%'.') m "while scanning a YAML directive, did not find expected digit or '.' character"
  skipNonBlank
  let minor ← scanVersionNumber cfg m
  let e ← getMark
  pure ⟨⟨m, e⟩, .versionDirective major minor⟩

/-- The first character of `scan_tag_prefix`: scanner.rs 2185–2196 -/
def scanPrefixStart (cfg : Cfg) (m : Marker) : SM (List Byte) := do
  let c ← peekz 0
  if c = b%'!' then do
    skipNonBlank
    pure [b%'!']
  else if !isTagChar c then fail m "invalid global tag character"
  else uriScansOrNonBlank cfg [] m

/-- `scan_tag_prefix`: scanner.rs 2182–2203 -/
def scanTagPrefix (cfg : Cfg) (m : Marker) : SM (List Byte) := do
  let string ← scanPrefixStart cfg m
  loopM (uriCharsBody cfg m) cfg.fuel string

/-- `scan_tag_directive_value`: scanner.rs 2106–2133 -/
def scanTagDirective (cfg : Cfg) (m : Marker) : SM Token := do
  skipCounted Src.skipWhileBlank
  let handle ← scanTagHandle true m
  failIf (!Utf8.valid handle) m "Error decoding tag handle as UTF-8"
  skipCounted Src.skipWhileBlank
  let pref ← scanTagPrefix cfg m
  failIf (!Utf8.valid pref) m "Error decoding tag prefix as UTF-8"
  let c ← peekz 0
  failIf (!isBlankOrBreak c) m "while scanning TAG, did not find expected whitespace or line break"
  let e ← getMark
  pure ⟨⟨m, e⟩, .tagDirective handle pref⟩

/-- An unknown directive: scanner.rs 915–929 -/
def scanOtherDirective (start : Marker) : SM Token := do
  skipCounted Src.skipWhileNonBreakz
  let m ← getMark
  pure ⟨⟨start, m⟩, .tagDirective [] []⟩

/-- `scan_directive`: scanner.rs 904–943 -/
def scanDirective (cfg : Cfg) : SM Token := do
  let start ← getMark
  skipNonBlank
  let name ← scanDirectiveName
  let tok ←
    (if name = bs!"YAML" then scanVersionDirective cfg start
     else if name = bs!"TAG" then scanTagDirective cfg start
     else scanOtherDirective start)
  let _ ← skipWsToEol true false
  let c ← peekz 0
  failIf (!(isBreak c || c == b%'#')) start
    "while scanning a directive, did not find expected comment or line break"
  skipLinebreak
  pure tok

/-! ## Fetching tokens -/

/-- `self.tokens.push_back(tok)` -/
def pushTok (t : Token) : SM Unit := push t.span t.tt

/-- `fetch_stream_end`: scanner.rs 279–305 -/
def fetchStreamEnd : SM Unit := do
  upd fun s => if s.mark.col ≠ 0 then { s with mark := ⟨s.mark.pos, 1, s.mark.line + 1⟩ } else s
  let m ← getMark
  let bad ← gets fun s => s.simpleKeys.any fun k => k.required && k.possible
  failIf bad m "simple key expected"
  upd fun s => { s with simpleKeys := s.simpleKeys.map fun k => { k with possible := false } }
  unrollIndent 0
  removeSimpleKey
  setAllowed false
  push (Span.empty m) .streamEnd

/-- `fetch_document_indicator`: scanner.rs 307–320 -/
def fetchDocumentIndicator (tt : TokenType) : SM Unit := do
  unrollIndent 0
  removeSimpleKey
  setAllowed false
  let m ← getMark
  skipN 3
  let m' ← getMark
  push ⟨m, m'⟩ tt

/-- `fetch_stream_start`: scanner.rs 322–332 -/
def fetchStreamStart : SM Unit := upd fun s =>
  { s with
    indent := 0
    streamStartProduced := true
    simpleKeyAllowed := true
    tokens := s.tokens ++ [⟨Span.empty s.mark, .streamStart⟩]
    simpleKeys := SimpleKey.new Marker.default :: s.simpleKeys }

/-- Remembering the kind of a flow collection: scanner.rs 386–390 -/
def noteFlowStart (tt : TokenType) : SM Unit :=
  if tt = .flowMappingStart then upd fun s => { s with flowMappingStarted := true }
  else upd fun s => { s with implicitFlowMappingStates := .possible :: s.implicitFlowMappingStates }

/-- `fetch_flow_collection_start`: scanner.rs 375–398 -/
def fetchFlowStart (tt : TokenType) : SM Unit := do
  saveSimpleKey
  rollOneColIndent
  increaseFlowLevel
  setAllowed true
  let start ← getMark
  skipNonBlank
  noteFlowStart tt
  let _ ← skipWsToEol true false
  let m ← getMark
  push ⟨start, m⟩ tt

/-- `end_implicit_mapping`: scanner.rs 425–437 -/
def endImplicitMapping (m : Marker) : SM Unit := upd fun s =>
  match s.implicitFlowMappingStates with
  | .inside :: xs =>
    { s with
      flowMappingStarted := false
      implicitFlowMappingStates := .possible :: xs
      tokens := s.tokens ++ [⟨⟨m, s.mark⟩, .flowMappingEnd⟩] }
  | _ => s

/-- `fetch_flow_collection_end`: scanner.rs 400–423 -/
def fetchFlowEnd (tt : TokenType) : SM Unit := do
  removeSimpleKey
  decreaseFlowLevel
  setAllowed false
  let start ← getMark
  when (tt == .flowSequenceEnd) do
    endImplicitMapping start
    upd fun s => { s with implicitFlowMappingStates := s.implicitFlowMappingStates.tail }
  skipNonBlank
  let _ ← skipWsToEol true false
  upd fun s => if s.flowLevel > 0 then { s with adjacentValueAllowedAt := s.mark.pos } else s
  let m ← getMark
  push ⟨start, m⟩ tt

/-- `fetch_plain_scalar`: scanner.rs 439–447 -/
def fetchPlainScalar (cfg : Cfg) : SM Unit := do
  saveSimpleKey
  setAllowed false
  let tok ← scanPlainScalar cfg
  pushTok tok

/-- `fetch_flow_entry`: scanner.rs 449–465 -/
def fetchFlowEntry : SM Unit := do
  removeSimpleKey
  setAllowed true
  let start ← getMark
  endImplicitMapping start
  skipNonBlank
  let _ ← skipWsToEol true false
  let m ← getMark
  push ⟨start, m⟩ .flowEntry

/-- "???, fixes test G9HC": scanner.rs 484–491 -/
def anchoredEntry (s : SSt) : Bool :=
  match s.tokens.getLast? with
  | some ⟨sp, .anchor _⟩ | some ⟨sp, .tag _ _⟩ => s.mark.col == 1 && sp.start.col == 1 && decide (s.indent > 0)
  | _ => false

/-- `fetch_block_entry`: scanner.rs 467–528 -/
def fetchBlockEntry : SM Unit := do
  let mark ← getMark
  let fl ← gets fun s => decide (s.flowLevel > 0)
  failIf fl mark "\"-\" is only valid inside a block"
  let allowed ← gets (·.simpleKeyAllowed)
  failIf (!allowed) mark "block sequence entries are not allowed in this context"
  let anch ← gets anchoredEntry
  failIf anch mark "block sequence entries are not allowed in this context"
  skipNonBlank
  rollIndent mark.col none .blockSequenceStart mark
  let res ← skipWsToEol true false
  let bad ← gets fun s => res.1 && s.src.peekz 0 == b%'-' && isBlankOrBreak (s.src.peekz 1)
  let m ← getMark
  failIf bad m "'-' must be followed by a valid YAML whitespace"
  let _ ← skipWsToEol false res.2
  let roll ← gets fun s => isBreak (s.src.peekz 0) || isFlow (s.src.peekz 0)
  when roll rollOneColIndent
  removeSimpleKey
  setAllowed true
  let m ← getMark
  push ⟨mark, m⟩ .blockEntry

/-- The first part of `fetch_key`: scanner.rs 531–553 -/
def fetchKeyStart (start : Marker) : SM Unit := do
  let fl ← gets (·.flowLevel)
  if fl = 0 then do
    let allowed ← gets (·.simpleKeyAllowed)
    failIf (!allowed) start "mapping keys are not allowed in this context"
    rollIndent start.col none .blockMappingStart start
  else upd fun s => { s with flowMappingStarted := true }

/-- `fetch_key`: scanner.rs 530–569 -/
def fetchKey (cfg : Cfg) : SM Unit := do
  let start ← getMark
  fetchKeyStart start
  removeSimpleKey
  upd fun s => { s with simpleKeyAllowed := s.flowLevel == 0 }
  skipNonBlank
  skipYamlWhitespace cfg
  let c ← peekz 0
  let m ← getMark
  failIf (c == b%'\t') m "tabs disallowed in this context"
  push ⟨start, m⟩ .key

/-- Skipping over `:`: scanner.rs 623–635 -/
def skipColon : SM Unit := do
  skipNonBlank
  let c ← peekz 0
  if c = b%'\t' then do
    let r ← skipWsToEol true false
    let m ← getMark
    let bad ← gets fun s => !r.2 && (s.src.peekz 0 == b%'-' || isAlpha (s.src.peekz 0))
    failIf bad m "':' must be followed by a valid YAML whitespace"
  else pure ()

/-- `fetch_value` when the last simple key is possible: scanner.rs 639–672 -/
def valueAfterSimpleKey (sk : SimpleKey) (start : Marker) (implicit : Bool) : SM Unit := do
  insertToken sk.tokenNumber (Span.empty sk.mark) .key
  when implicit do
    failIf (decide (sk.mark.line < start.line)) start "illegal placement of ':' indicator"
    insertToken sk.tokenNumber (Span.empty sk.mark) .flowMappingStart
  rollIndent sk.mark.col (some sk.tokenNumber) .blockMappingStart sk.mark
  rollOneColIndent
  upd fun s =>
    { s with
      simpleKeys := match s.simpleKeys with | k :: ks => { k with possible := false } :: ks | [] => []
      simpleKeyAllowed := false }

/-- `fetch_value` otherwise: scanner.rs 674–697 -/
def valueAfterComplexKey (start : Marker) (implicit : Bool) : SM Unit := do
  when implicit (push (Span.empty start) .flowMappingStart)
  let fl ← gets (·.flowLevel)
  when (fl == 0) do
    let allowed ← gets (·.simpleKeyAllowed)
    failIf (!allowed) start "mapping values are not allowed in this context"
    rollIndent start.col none .blockMappingStart start
  rollOneColIndent
  upd fun s => { s with simpleKeyAllowed := s.flowLevel == 0 }

/-- The branch on the simple key in `fetch_value`: scanner.rs 637–698 -/
def valueAfterKey (sk : SimpleKey) (start : Marker) (implicit : Bool) : SM Unit :=
  if sk.possible then valueAfterSimpleKey sk start implicit
  else valueAfterComplexKey start implicit

/-- `fetch_value`: scanner.rs 613–703 -/
def fetchValue : SM Unit := do
  let ks ← gets (·.simpleKeys)
  match ks with
  | [] => panic
  | sk :: _ => do
    let start ← getMark
    let implicit ← gets fun s => !s.implicitFlowMappingStates.isEmpty && !s.flowMappingStarted
    when implicit (upd fun s => { s with implicitFlowMappingStates := .inside :: s.implicitFlowMappingStates.tail })
    skipColon
    valueAfterKey sk start implicit
    push (Span.empty start) .value

/-- `fetch_flow_value`: scanner.rs 705–727 -/
def fetchFlowValue : SM Unit := do
  let nc ← peekz 1
  let m ← getMark
  let adj ← gets (·.adjacentValueAllowedAt)
  failIf (m.pos != adj && (nc == b%'[' || nc == b%'{')) m "':' may not precede any of `[{` in flow mapping"
  fetchValue

/-- `fetch_anchor`: scanner.rs 729–738 -/
def fetchAnchor (cfg : Cfg) (alias : Bool) : SM Unit := do
  saveSimpleKey
  setAllowed false
  let tok ← scanAnchor cfg alias
  pushTok tok

/-- `fetch_tag`: scanner.rs 740–747 -/
def fetchTag (cfg : Cfg) : SM Unit := do
  saveSimpleKey
  setAllowed false
  let tok ← scanTag cfg
  pushTok tok

/-- `fetch_block_scalar`: scanner.rs 749–755 -/
def fetchBlockScalar (cfg : Cfg) (literal : Bool) : SM Unit := do
  saveSimpleKey
  setAllowed true
  scanBlockScalar cfg literal

/-- `fetch_flow_scalar`: scanner.rs 757–770 -/
def fetchFlowScalar (cfg : Cfg) (single : Bool) : SM Unit := do
  saveSimpleKey
  setAllowed false
  let tok ← scanFlowScalar cfg single
  skipToNextToken cfg
  upd fun s => { s with adjacentValueAllowedAt := s.mark.pos }
  pushTok tok

/-- `fetch_directive`: scanner.rs 772–782 -/
def fetchDirective (cfg : Cfg) : SM Unit := do
  unrollIndent 0
  removeSimpleKey
  setAllowed false
  let tok ← scanDirective cfg
  pushTok tok

/-- `finish_document`: scanner.rs 784–795 -/
def finishDocument : SM Unit := do
  fetchDocumentIndicator .documentEnd
  let _ ← skipWsToEol true false
  let c ← peekz 0
  let m ← getMark
  failIf (!(isBreakz c || c == b%'#')) m "Invalid content after document end marker"

/-- The last error of `fetch_main_loop`: scanner.rs 364–370. `peek_char` (source.rs 274–280) reads four bytes with
`get_unchecked`, which is undefined behaviour (here: `panic`) when fewer are left. The character is not part of the modelled
message. Not modelled: the four bytes may end inside a character, which `from_utf8_unchecked` forbids. -/
def unexpectedChar : SM Unit := do
  let short ← gets fun s => decide (s.src.rest.length < 4)
  let m ← getMark
  if short then panic else fail m "Unexpected character"

/-- `fetch_main_loop`: scanner.rs 334–373 -/
def fetchMain (cfg : Cfg) : SM Unit := do
  let c ← peekz 0
  let x ← peekz 1
  let fl ← gets (·.flowLevel)
  let adj ← gets fun s => s.mark.pos == s.adjacentValueAllowedAt
  if c = b%'[' then fetchFlowStart .flowSequenceStart
  else if c = b%'{' then fetchFlowStart .flowMappingStart
  else if c = b%']' then fetchFlowEnd .flowSequenceEnd
  else if c = b%'}' then fetchFlowEnd .flowMappingEnd
  else if c = b%',' then fetchFlowEntry
  else if c = b%'-' ∧ isBlankOrBreakz x then fetchBlockEntry
  else if c = b%'?' ∧ isBlankOrBreakz x then fetchKey cfg
  else if c = b%':' ∧ isBlankOrBreakz x then fetchValue
  else if c = b%':' ∧ fl > 0 ∧ (isFlow x ∨ adj) then fetchFlowValue
  else if c = b%'*' then fetchAnchor cfg true
  else if c = b%'&' then fetchAnchor cfg false
  else if c = b%'!' then fetchTag cfg
  else if c = b%'|' ∧ fl = 0 then fetchBlockScalar cfg true
  else if c = b%'>' ∧ fl = 0 then fetchBlockScalar cfg false
  else if c = b%'\'' then fetchFlowScalar cfg true
  else if c = b%'"' then fetchFlowScalar cfg false
  else if c = b%'-' ∧ isBlankOrBreak x = false then fetchPlainScalar cfg
  else if (c = b%':' ∨ c = b%'?') ∧ isBlankOrBreak x = false ∧ fl = 0 then fetchPlainScalar cfg
  else if c = b%'%' ∨ c = b%'@' ∨ c = b%'`' then unexpectedChar
  else fetchPlainScalar cfg

/-- What `fetch_next_token` does at a token that is not the end of the stream: scanner.rs 265–276, with `process_start` 225–235 -/
def fetchAtToken (cfg : Cfg) : SM Unit := do
  let m ← getMark
  let pct ← gets fun s => s.mark.col == 1 && s.src.peekz 0 == b%'%'
  let ds ← gets fun s => s.mark.col == 1 && nextIsDocumentStart s
  let de ← gets fun s => s.mark.col == 1 && nextIsDocumentEnd s
  if pct then fetchDirective cfg
  else if ds then fetchDocumentIndicator .documentStart
  else if de then finishDocument
  else do
    let low ← gets fun s => decide (s.mark.col < s.indent)
    failIf low m "invalid indentation"
    fetchMain cfg

/-- `fetch_next_token`: scanner.rs 249–277 -/
def fetchNextToken (cfg : Cfg) : SM Unit := do
  let started ← gets (·.streamStartProduced)
  if started then do
    skipToNextToken cfg
    staleSimpleKeys
    let m ← getMark
    unrollIndent m.col
    let eof ← atEof
    if eof then fetchStreamEnd else fetchAtToken cfg
  else fetchStreamStart

/-- One iteration of `fetch_more_tokens`: scanner.rs 200–218 -/
def fetchMoreBody (cfg : Cfg) (_ : Unit) : SM (Loop Unit Unit) := do
  let empty ← gets (·.tokens.isEmpty)
  if empty then do
    fetchNextToken cfg
    pure (.next ())
  else do
    staleSimpleKeys
    let more ← gets fun s => s.simpleKeys.any fun k => k.possible && k.tokenNumber == s.tokensParsed
    if more then do
      fetchNextToken cfg
      pure (.next ())
    else pure (.done ())

/-- `fetch_more_tokens`: scanner.rs 198–223 -/
def fetchMoreTokens (cfg : Cfg) : SM Unit := do
  loopM (fetchMoreBody cfg) cfg.fuel ()
  upd fun s => { s with tokensAvailable := true }

/-- Taking a token from the queue: scanner.rs 172–195 -/
def popToken : SM Token := fun s =>
  match s.tokens with
  | [] => (.err .unexpectedEof, s)
  | t :: ts =>
    (.ok t,
      { s with
        tokens := ts
        streamEndReached := s.streamEndReached || t.tt == .streamEnd
        tokensAvailable := false
        tokensParsed := s.tokensParsed + 1
        streamEndProduced := s.streamEndProduced || t.tt == .streamEnd })

/-- `next_token`: scanner.rs 157–196 -/
def nextToken (cfg : Cfg) : SM Token := do
  let done ← gets (·.streamEndProduced)
  if done then pure ⟨⟨Marker.default, Marker.default⟩, .streamEnd⟩
  else do
    let avail ← gets (·.tokensAvailable)
    when (!avail) (fetchMoreTokens cfg)
    popToken

/-- `Iterator::next`: scanner.rs 2224–2239 -/
def next (cfg : Cfg) : SM (Option Token) := fun s =>
  if s.error.isSome || s.streamEndReached then (.ok none, s)
  else
    match nextToken cfg s with
    | (.ok t, s') => (.ok (some t), s')
    | (.err e, s') => (.ok none, { s' with error := some e })
    | (.panic, s') => (.panic, s')
    | (.hang, s') => (.hang, s')

end Verif.Scanner
