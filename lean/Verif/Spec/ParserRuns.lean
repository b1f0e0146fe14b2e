import Verif.Model.ParserLoad
/-!
# Specification: using the parser, and what should be observed

`Delivers s evs s'`: pulling events one after the other from `s` succeeds with exactly `evs` and ends in `s'`.
`AfterCalls s s'`: `s'` is reached from `s` by any calls, successful or not.
-/
namespace Verif.Spec
open Verif Verif.Parser

/-- events pulled one after the other with `next_event`, no error in between -/
inductive Delivers (s0 : PSt) : List Event → PSt → Prop
  | nil : Delivers s0 [] s0
  | snoc {evs s ev sp s'} : Delivers s0 evs s → nextEvent s = (.ok (some (ev, sp)), s') → Delivers s0 (evs ++ [ev]) s'

/-- pulling `n` events, for concrete runs -/
def pull : Nat → PSt → Option (List Event × PSt)
  | 0, s => some ([], s)
  | n + 1, s => match pull n s with
    | none => none
    | some (evs, s1) => match nextEvent s1 with
      | (.ok (some (ev, _)), s2) => some (evs ++ [ev], s2)
      | _ => none

/-- the tokens the parser has not consumed yet -/
def remaining (s : PSt) : List Token := s.token.toList ++ s.toks

/-- a call a user can make on a parser -/
inductive Call
  | next
  | peek
  | load (multi : Bool)

/-- making a call; the result is reduced to how it ended -/
def call (c : Call) (s : PSt) : Res Unit × PSt :=
  match c with
  | .next => match nextEvent s with
    | (.ok _, s') => (.ok (), s')
    | (.err e, s') => (.err e, s')
    | (.panic, s') => (.panic, s')
    | (.hang, s') => (.hang, s')
  | .peek => match Parser.peek s with
    | (.ok _, s') => (.ok (), s')
    | (.err e, s') => (.err e, s')
    | (.panic, s') => (.panic, s')
    | (.hang, s') => (.hang, s')
  | .load multi => match Parser.load multi ⟨s, []⟩ with
    | (r, s') => (r, s'.p)

/-- reached by any calls that returned, with or without an error -/
inductive AfterCalls (s0 : PSt) : PSt → Prop
  | start : AfterCalls s0 s0
  | ok {s c s'} : AfterCalls s0 s → call c s = (.ok (), s') → AfterCalls s0 s'
  | err {s c e s'} : AfterCalls s0 s → call c s = (.err e, s') → AfterCalls s0 s'

/-- style and text of the scalars among events -/
def eventScalars : List Event → List (ScalarType × List Byte)
  | [] => []
  | .scalar v :: es => (v.style, v.value) :: eventScalars es
  | _ :: es => eventScalars es

/-- style and text of the scalars among tokens -/
def tokenScalars : List Token → List (ScalarType × List Byte)
  | [] => []
  | ⟨_, .scalar st v⟩ :: ts => (st, v) :: tokenScalars ts
  | _ :: ts => tokenScalars ts

/-- the second list is the first with some empty plain scalars inserted -/
inductive WithEmpties : List (ScalarType × List Byte) → List (ScalarType × List Byte) → Prop
  | nil : WithEmpties [] []
  | keep {x xs ys} : WithEmpties xs ys → WithEmpties (x :: xs) (x :: ys)
  | insert {xs ys} : WithEmpties xs ys → WithEmpties xs ((.plain, []) :: ys)

/-- names of the anchor tokens -/
def tokenAnchors : List Token → List (List Byte)
  | [] => []
  | ⟨_, .anchor n⟩ :: ts => n :: tokenAnchors ts
  | _ :: ts => tokenAnchors ts

/-- names of the alias tokens -/
def tokenAliases : List Token → List (List Byte)
  | [] => []
  | ⟨_, .alias n⟩ :: ts => n :: tokenAliases ts
  | _ :: ts => tokenAliases ts

/-- handles and suffixes of the tag tokens -/
def tokenTags : List Token → List (List Byte × List Byte)
  | [] => []
  | ⟨_, .tag h s⟩ :: ts => (h, s) :: tokenTags ts
  | _ :: ts => tokenTags ts

/-- the anchor numbers events carry, in order -/
def eventAnchors : List Event → List Nat
  | [] => []
  | .scalar v :: es => if v.anchorId = 0 then eventAnchors es else v.anchorId :: eventAnchors es
  | .sequenceStart a _ :: es => if a = 0 then eventAnchors es else a :: eventAnchors es
  | .mappingStart a _ :: es => if a = 0 then eventAnchors es else a :: eventAnchors es
  | _ :: es => eventAnchors es

/-- the tag of an event -/
def eventTag : Event → Option Tag
  | .scalar v => v.tag
  | .sequenceStart _ t => t
  | .mappingStart _ t => t
  | _ => none

/-- How a tag token with handle `h` and suffix `sf` is read when `lookup` gives the declared prefixes. -/
inductive ReadsAs (lookup : List Byte → Option (List Byte)) : List Byte → List Byte → Tag → Prop
  /-- the handle was declared -/
  | declared {h sf p} : lookup h = some p → ReadsAs lookup h sf ⟨p, sf⟩
  /-- `!!` has a default -/
  | secondary {sf} : lookup bs!"!!" = none → ReadsAs lookup bs!"!!" sf ⟨bs!"tag:yaml.org,2002:", sf⟩
  /-- anything but a named handle `!name!` stands for itself -/
  | other {h sf} : lookup h = none → h ≠ bs!"!!" →
      ¬(h.length ≥ 2 ∧ h.head? = some b%'!' ∧ h.getLast? = some b%'!') → ReadsAs lookup h sf ⟨h, sf⟩

/-- a `%YAML` or `%TAG` directive -/
def IsDirective (t : Token) : Prop :=
  (∃ a b, t.tt = .versionDirective a b) ∨ (∃ h p, t.tt = .tagDirective h p)

/-- `ds` contains at most one `%YAML` directive: of any two occurrences, in order, one is something else -/
def AtMostOneVersion (ds : List Token) : Prop :=
  ds.Pairwise fun d e => ¬((∃ a b, d.tt = .versionDirective a b) ∧ (∃ a b, e.tt = .versionDirective a b))

/-- the prefix the last directive of a list declares for a handle, if that directive is a `%TAG` for it -/
def lastDirective (ds : List Token) (h : List Byte) : Option (List Byte) :=
  match ds.getLast? with
  | some ⟨_, .tagDirective h' p⟩ => if h' = h then some p else none
  | _ => none

/-- the prefix some `%TAG` directive of a list declares for a handle -/
def declared : List Token → List Byte → Option (List Byte)
  | [], _ => none
  | ⟨_, .tagDirective h' p⟩ :: ds, h => if h' = h then some p else declared ds h
  | _ :: ds, h => declared ds h

end Verif.Spec
