import Verif.Model.Tokens
/-!
# Bookkeeping on token streams

Written without reference to the scanner.
-/
namespace Verif.Spec
open Verif

/-- The number of block collections open after the tokens, starting with `n` open ones; `none` if some `BlockEnd` has nothing to
close. -/
def blockDepth : Nat → List Token → Option Nat
  | n, [] => some n
  | n, t :: ts =>
    match t.tt with
    | .blockSequenceStart | .blockMappingStart => blockDepth (n + 1) ts
    | .blockEnd => if n = 0 then none else blockDepth (n - 1) ts
    | _ => blockDepth n ts

/-- The number of brackets and braces open after one more token, `n` being open before it. Tokens of empty extent are not brackets
of the text: they delimit the single pair mapping of `[a: b]`. A closing bracket without an opening one changes nothing. -/
def flowStep (n : Nat) (t : Token) : Nat :=
  if t.span.start.pos = t.span.stop.pos then n
  else
    match t.tt with
    | .flowSequenceStart | .flowMappingStart => n + 1
    | .flowSequenceEnd | .flowMappingEnd => n - 1
    | _ => n

/-- The number of brackets and braces open after the tokens. -/
def flowDepth (ts : List Token) : Nat := ts.foldl flowStep 0

/-- `[` `{` `}` -/
example : flowDepth [⟨⟨⟨0, 1, 1⟩, ⟨1, 2, 1⟩⟩, .flowSequenceStart⟩, ⟨⟨⟨1, 2, 1⟩, ⟨2, 3, 1⟩⟩, .flowMappingStart⟩,
    ⟨⟨⟨2, 3, 1⟩, ⟨3, 4, 1⟩⟩, .flowMappingEnd⟩] = 1 := by decide

/-- The pieces of text a token carries. -/
def tokenTexts : TokenType → List (List Byte)
  | .comment t | .alias t | .anchor t | .scalar _ t => [t]
  | .tagDirective h p | .tag h p => [h, p]
  | _ => []

end Verif.Spec
