import Verif.Model.ParserLoad
import Verif.Model.Scalar
import Verif.Model.Index
/-!
# The loader: `yam-core/src/prelude/loader.rs`, for the node type `Yaml`

`with_start`, `with_end` and `with_span` do nothing for `Yaml` (prelude/mod.rs 927–1000), so spans are dropped. Nodes are
cloned by value. `none` is a panic.
-/
namespace Verif.Loader
open Verif Verif.Index

variable {F : Type}

/-- `YamlLoader`: loader.rs 34–42. Stacks have their top first; `anchorMap` is the `BTreeMap` as a partial function. -/
structure LdSt (F : Type) where
  docs : List (Yaml F)
  docStack : List (Yaml F × Nat × Option Tag)
  keyStack : List (Yaml F)
  anchorMap : Nat → Option (Yaml F)

/-- `YamlLoader::default`: loader.rs 44–56 -/
def init : LdSt F := ⟨[], [], [], fun _ => none⟩

/-- `is_bad_value`: prelude/mod.rs 292–294 -/
def isBadValue (x : Yaml F) : Bool := getType x == .bad

/-- `is_collection`: prelude/mod.rs 425–427 -/
def isCollection (x : Yaml F) : Bool := getType x == .sequence || getType x == .mapping

/-- first step of `insert_new_node`: loader.rs 128–130 -/
def noteAnchor (s : LdSt F) (x : Yaml F) (anchor : Nat) : LdSt F :=
  if anchor > 0 then { s with anchorMap := fun i => if i = anchor then some x else s.anchorMap i } else s

/-- the tag given to a collection in `insert_new_node`: loader.rs 132–137 -/
def retag (x : Yaml F) (tag : Option Tag) : Yaml F :=
  match tag with
  | some t => if isCollection x && !t.isYamlCoreSchema then .tagged t x else x
  | none => x

/-- `insert_new_node`: loader.rs 122–155 -/
def insertNewNode (s : LdSt F) (x : Yaml F) (anchor : Nat) (tag : Option Tag) : Option (LdSt F) :=
  let s := noteAnchor s x anchor
  match s.docStack with
  | [] => some { s with docStack := [(x, anchor, tag)] }
  | (.seq items, a, t) :: rest => some { s with docStack := (.seq (items ++ [retag x tag]), a, t) :: rest }
  | (.map entries, a, t) :: rest =>
    match s.keyStack with
    | [] => none
    | k :: ks =>
      if isBadValue k then some { s with keyStack := retag x tag :: ks }
      else some { s with docStack := (.map (entries ++ [(k, retag x tag)]), a, t) :: rest, keyStack := .bad :: ks }
  | _ :: _ => some s

/-- the tag put on a finished collection in `on_event`: loader.rs 442–446 -/
def wrapTag (x : Yaml F) (tag : Option Tag) : Yaml F :=
  match tag with
  | some t => if !t.isYamlCoreSchema then .tagged t x else x
  | none => x

/-- `Event::MappingEnd | Event::SequenceEnd`, after the key was popped: loader.rs 440–447 -/
def endCollection (s : LdSt F) : Option (LdSt F) :=
  match s.docStack with
  | [] => none
  | (x, a, t) :: rest => insertNewNode { s with docStack := rest } (wrapTag x t) a none

/-- `on_event`: loader.rs 406–466 -/
def onEvent (fo : FloatOps F) (s : LdSt F) : Event → Option (LdSt F)
  | .documentStart _ | .streamStart | .streamEnd | .comment _ => some s
  | .documentEnd =>
    match s.docStack with
    | [] => some { s with docs := s.docs ++ [.bad] }
    | [(x, _, _)] => some { s with docs := s.docs ++ [x], docStack := [] }
    | _ => none
  | .sequenceStart a t => some { s with docStack := (.seq [], a, t) :: s.docStack }
  | .mappingStart a t => some { s with docStack := (.map [], a, t) :: s.docStack, keyStack := .bad :: s.keyStack }
  | .sequenceEnd => endCollection s
  | .mappingEnd =>
    match s.keyStack with
    | [] => none
    | _ :: ks => endCollection { s with keyStack := ks }
  | .scalar v => insertNewNode s (Scalar.valueFromCowAndMetadata fo v.value v.style v.tag) v.anchorId v.tag
  | .alias id => insertNewNode s ((s.anchorMap id).getD .bad) 0 none

/-- the events a parser sends, one after the other -/
def onEvents (fo : FloatOps F) : LdSt F → List Event → Option (LdSt F)
  | s, [] => some s
  | s, e :: es => (onEvent fo s e).bind fun s' => onEvents fo s' es

/-- `load_from_parser`: loader.rs 183–189 (and `load_from` 229–234, which makes the parser itself). The parser sends its events while
it runs; here they are applied when it is done, which is the same unless `on_event` panics (it does not: `C21_loader_never_panics`). -/
def loadFromParser (fo : FloatOps F) (p : Parser.PSt) : Res (List (Yaml F)) :=
  match Parser.load true ⟨p, []⟩ with
  | (.ok _, s) => match onEvents fo init (s.out.map (·.1)) with
    | some l => .ok l.docs
    | none => .panic
  | (.err e, _) => .err e
  | (.panic, _) => .panic
  | (.hang, _) => .hang

/-- `load_single_from_parser`: loader.rs 334–344 (and `load_single` 271–280, `load_single_source` 385–394) -/
def loadSingleFromParser (fo : FloatOps F) (p : Parser.PSt) : Res (Yaml F) :=
  match Parser.load false ⟨p, []⟩ with
  | (.ok _, s) => match onEvents fo init (s.out.map (·.1)) with
    | some l => match l.docs with
      | d :: _ => .ok d
      | [] => .err .noDocument
    | none => .panic
  | (.err e, _) => .err e
  | (.panic, _) => .panic
  | (.hang, _) => .hang

end Verif.Loader
