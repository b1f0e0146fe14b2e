import Verif.Model.Scanner
/-!
# Specification: pulling tokens from the scanner

A user makes a scanner for an input and calls `next` again and again. `scan cfg n s` makes at most `n` calls and collects the
tokens, stopping at the first call that does not deliver one.
-/
namespace Verif.Spec
open Verif Verif.Scanner

/-- how a run of calls to the token iterator stopped -/
inductive ScanStop
  /-- all `n` calls delivered a token -/
  | more
  /-- the iterator returned `None`, without an error -/
  | ended
  /-- the iterator returned `None`, and the scanner reports this error -/
  | failed (e : YErr)
  | panicked
  /-- a call did not return within the given number of loop iterations -/
  | hung
deriving DecidableEq, Repr

/-- at most `n` calls to `next` -/
def scan (cfg : Cfg) : Nat → SSt → List Token × ScanStop
  | 0, _ => ([], .more)
  | n + 1, s =>
    match next cfg s with
    | (.ok (some t), s') => (t :: (scan cfg n s').1, (scan cfg n s').2)
    | (.ok none, s') => ([], match s'.error with | some e => .failed e | none => .ended)
    | (.err e, _) => ([], .failed e)
    | (.panic, _) => ([], .panicked)
    | (.hang, _) => ([], .hung)

/-- the state after at most `n` calls, whatever they returned -/
def afterNext (cfg : Cfg) : Nat → SSt → SSt
  | 0, s => s
  | n + 1, s => afterNext cfg n (next cfg s).2

/-- Scanning an input. -/
def scanInput (cfg : Cfg) (input : List Byte) (n : Nat) : List Token × ScanStop := scan cfg n (Scanner.new input)

/-- `a: [b]` -/
example : ((scanInput ⟨10, false⟩ bs!"a: [b]" 20).1.map (·.tt), (scanInput ⟨10, false⟩ bs!"a: [b]" 20).2) =
    ([.streamStart, .blockMappingStart, .key, .scalar .plain bs!"a", .value, .flowSequenceStart, .scalar .plain bs!"b",
      .flowSequenceEnd, .blockEnd, .streamEnd], .ended) := by decide +kernel

end Verif.Spec
