import Verif.Model.Tokens
/-!
# Specification: anchors and aliases
-/
namespace Verif.Spec
open Verif

/-- the anchor number an event defines (0: none) -/
def definedAnchor : Event → Nat
  | .scalar v => v.anchorId
  | .sequenceStart a _ => a
  | .mappingStart a _ => a
  | _ => 0

/-- the anchor numbers defined in the current document after one more event -/
def defsAfter (defs : List Nat) : Event → List Nat
  | .documentStart _ => []
  | e => definedAnchor e :: defs

/-- every alias refers to an anchor (a number other than 0) defined earlier in the same document; `defs` are those already
defined -/
def AliasesLocal (defs : List Nat) : List Event → Prop
  | [] => True
  | e :: es => (∀ id, e = .alias id → id ≠ 0 ∧ id ∈ defs) ∧ AliasesLocal (defsAfter defs e) es

/-- The number of the last occurrence of `n` in a list of anchor names, counting from 1. -/
def lastDef (names : List (List Byte)) (n : List Byte) : Option Nat :=
  match names.reverse.findIdx? (· == n) with
  | none => none
  | some i => some (names.length - i)

end Verif.Spec
