import Verif.Model.SourceMore
import Verif.Model.Buffered
/-!
# Programs that use a byte source

`Op` lists the operations of the trait `Source` and `Obs` what each one lets its caller see. `onString` and `onBuffer` run an operation
on the string source and on the buffered source: each case names the operation of the model and the shape of its answer.
-/
namespace Verif.Spec
open Verif Verif.Source Verif.Buffered

/-- an operation of `Source` -/
inductive Op
  | peekChecked (n : Nat)
  | peekz (n : Nat)
  | isEmpty
  | skip (n : Nat)
  | fetchWhileIsAlpha
  | skipWhileBlank
  | skipWhileNonBreakz
  | skipAndAccumulateToEol
  | pushNonBreakzChr
  | nextCanBePlainScalar (inFlow : Bool)
  | nextIsDocumentIndicator
  | skipWsToEol (skipTabs hasWs : Bool)
deriving DecidableEq, Repr

/-- what the caller sees -/
inductive Obs
  | unit
  | byte (c : Byte)
  | maybe (c : Option Byte)
  | flag (b : Bool)
  | count (n : Nat)
  | bytes (xs : List Byte)
  | white (n : Nat) (tabs ws : Bool)
  | refused (n : Nat) (message : String)
  | panicked
  | fault (f : Fault)
deriving DecidableEq, Repr

/-- the answer of `skip_ws_to_eol` as an observation -/
def whiteObs (n : Nat) : Except String (Bool × Bool) → Obs
  | .ok (tabs, ws) => .white n tabs ws
  | .error m => .refused n m

/-- an operation on the string source -/
def onString (s : Src) : Op → Obs × Src
  | .peekChecked n => (.maybe (s.peekChecked n), s)
  | .peekz n => (.byte (s.peekz n), s)
  | .isEmpty => (.flag s.bufIsEmpty, s)
  | .skip n => (.unit, s.skip n)
  | .fetchWhileIsAlpha => (.bytes s.fetchWhileIsAlpha.1, s.fetchWhileIsAlpha.2)
  | .skipWhileBlank => (.count s.skipWhileBlank.1, s.skipWhileBlank.2)
  | .skipWhileNonBreakz => (.count s.skipWhileNonBreakz.1, s.skipWhileNonBreakz.2)
  | .skipAndAccumulateToEol => (.bytes s.skipAndAccumulateToEol.1, s.skipAndAccumulateToEol.2)
  | .pushNonBreakzChr =>
    match s.pushNonBreakzChr with
    | none => (.panicked, s)
    | some x => (.bytes x.1, x.2)
  | .nextCanBePlainScalar f => (.flag (s.nextCanBePlainScalar f), s)
  | .nextIsDocumentIndicator => (.flag s.nextIsDocumentIndicator, s)
  | .skipWsToEol t w => (whiteObs (s.skipWsToEol t w).1 (s.skipWsToEol t w).2.1, (s.skipWsToEol t w).2.2)

/-- an answer of the buffered source as an observation; after a fault the program is over and the state does not matter -/
def answer {α : Type} (b : Buf) (r : Except Fault α) (f : α → Obs × Buf) : Obs × Buf :=
  match r with
  | .ok x => f x
  | .error e => (.fault e, b)

/-- an operation on the buffered source; `debug` tells whether debug assertions are on -/
def onBuffer (debug : Bool) (b : Buf) : Op → Obs × Buf
  | .peekChecked n => answer b (b.peekChecked debug n) fun x => (.maybe x, b)
  | .peekz n => answer b (b.peekz debug n) fun x => (.byte x, b)
  | .isEmpty => (.flag b.bufIsEmpty, b)
  | .skip n => (.unit, b.skip n)
  | .fetchWhileIsAlpha => answer b (b.fetchWhileIsAlpha debug) fun x => (.bytes x.1, x.2)
  | .skipWhileBlank => answer b (b.skipWhileBlank debug) fun x => (.count x.1, x.2)
  | .skipWhileNonBreakz => answer b (b.skipWhileNonBreakz debug) fun x => (.count x.1, x.2)
  | .skipAndAccumulateToEol => answer b (b.skipAndAccumulateToEol debug) fun x => (.bytes x.1, x.2)
  | .pushNonBreakzChr => answer b b.pushNonBreakzChr fun x => (.bytes x.1, x.2)
  | .nextCanBePlainScalar f => answer b (b.nextCanBePlainScalar debug f) fun x => (.flag x, b)
  | .nextIsDocumentIndicator => answer b (b.nextIsDocumentIndicator debug) fun x => (.flag x, b)
  | .skipWsToEol t w => answer b (b.skipWsToEol debug t w) fun x => (whiteObs x.1 x.2.1, x.2.2)

/-- the observations of a program on the string source -/
def runString (s : Src) : List Op → List Obs
  | [] => []
  | op :: ops => (onString s op).1 :: runString (onString s op).2 ops

/-- the observations of a program on the buffered source -/
def runBuffer (debug : Bool) (b : Buf) : List Op → List Obs
  | [] => []
  | op :: ops => (onBuffer debug b op).1 :: runBuffer debug (onBuffer debug b op).2 ops

/-- The places where the two sources are required to give the same answer: peeks stay below 32; a skip is not of exactly 33 bytes
when more than 32 remain; a line is copied only before the end of the text, and only if it is ended by a line break or fewer than 32
bytes remain; white space is skipped only where fewer than 32 bytes remain or the line goes on with spaces only (at least one, unless
there has been white space before). `s` is the string source at that place. -/
def Fine (s : Src) : Op → Prop
  | .peekChecked n => n < 32
  | .peekz n => n < 32
  | .skip n => n ≠ 33 ∨ s.rest.length ≤ 32
  | .pushNonBreakzChr => s.pos ≤ s.len ∧ (10 ∈ s.rest ∨ 13 ∈ s.rest ∨ s.rest.length < 32)
  | .skipWsToEol _ hasWs => s.rest.length < 32 ∨
      ∃ n c post, s.rest = List.replicate n 32 ++ c :: post ∧ (c = 10 ∨ c = 13) ∧ (1 ≤ n ∨ hasWs = true)
  | _ => True

/-- every operation of the program is applied where it is `Fine` -/
def FineRun (s : Src) : List Op → Prop
  | [] => True
  | op :: ops => Fine s op ∧ FineRun (onString s op).2 ops

end Verif.Spec
