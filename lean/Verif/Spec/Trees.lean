import Verif.Spec.Events
import Verif.Model.Scalar
/-!
# Specification: the trees that event streams describe

`Tree okKey fo A evs x A'`: the events `evs` are one node and describe the tree `x`; `A` maps the anchors finished so far to their
trees and `A'` adds those in `evs`. `okKey` restricts the keys of mappings. Only the meaning of a single scalar is taken from the
model (`valueFromCowAndMetadata`, the subject of C03–C07 and C41).
-/
namespace Verif.Spec
open Verif

/-- finished anchored nodes -/
abbrev Anchored (F : Type) := Nat → Option (Yaml F)

/-- anchor number 0 means no anchor -/
def Anchored.bind {F} (A : Anchored F) (id : Nat) (x : Yaml F) : Anchored F :=
  fun i => if i = id ∧ 0 < id then some x else A i

/-- a tag of the core schema says what the node is; any other tag is kept around the node -/
def taggedAs {F} (t : Option Tag) (x : Yaml F) : Yaml F :=
  match t with
  | none => x
  | some t => if t.isYamlCoreSchema then x else .tagged t x

mutual
  inductive Tree {F} (okKey : Yaml F → Prop) (fo : FloatOps F) : Anchored F → List Event → Yaml F → Anchored F → Prop
    | scalar {A} (v : ScalarValue) : Tree okKey fo A [.scalar v] (Scalar.valueFromCowAndMetadata fo v.value v.style v.tag)
        (A.bind v.anchorId (Scalar.valueFromCowAndMetadata fo v.value v.style v.tag))
    | alias {A : Anchored F} {id x} : A id = some x → Tree okKey fo A [.alias id] x A
    /-- an alias to a node that is not finished -/
    | dangling {A : Anchored F} {id} : A id = none → Tree okKey fo A [.alias id] .bad A
    | seq {A a t body xs A'} : Trees okKey fo A body xs A' →
        Tree okKey fo A (.sequenceStart a t :: (body ++ [.sequenceEnd])) (taggedAs t (.seq xs)) (A'.bind a (taggedAs t (.seq xs)))
    | map {A a t body ps A'} : TreePairs okKey fo A body ps A' →
        Tree okKey fo A (.mappingStart a t :: (body ++ [.mappingEnd])) (taggedAs t (.map ps)) (A'.bind a (taggedAs t (.map ps)))
  /-- any number of nodes -/
  inductive Trees {F} (okKey : Yaml F → Prop) (fo : FloatOps F) : Anchored F → List Event → List (Yaml F) → Anchored F → Prop
    | nil {A} : Trees okKey fo A [] [] A
    | cons {A e x A1 es xs A2} : Tree okKey fo A e x A1 → Trees okKey fo A1 es xs A2 → Trees okKey fo A (e ++ es) (x :: xs) A2
  /-- any number of key/value pairs -/
  inductive TreePairs {F} (okKey : Yaml F → Prop) (fo : FloatOps F) :
      Anchored F → List Event → List (Yaml F × Yaml F) → Anchored F → Prop
    | nil {A} : TreePairs okKey fo A [] [] A
    | cons {A ek k A1 ev v A2 es ps A3} : Tree okKey fo A ek k A1 → okKey k → Tree okKey fo A1 ev v A2 →
        TreePairs okKey fo A2 es ps A3 → TreePairs okKey fo A (ek ++ (ev ++ es)) ((k, v) :: ps) A3
end

/-- any number of documents, each with its tree -/
inductive TreeDocs {F} (okKey : Yaml F → Prop) (fo : FloatOps F) : Anchored F → List Event → List (Yaml F) → Prop
  | nil {A} : TreeDocs okKey fo A [] []
  | cons {A n x A1 es xs} (explicit : Bool) : Tree okKey fo A n x A1 → TreeDocs okKey fo A1 es xs →
      TreeDocs okKey fo A (.documentStart explicit :: (n ++ (.documentEnd :: es))) (x :: xs)

/-- a complete stream and the trees of its documents -/
inductive TreeStream {F} (okKey : Yaml F → Prop) (fo : FloatOps F) : List Event → List (Yaml F) → Prop
  | mk {es xs} : TreeDocs okKey fo (fun _ => none) es xs → TreeStream okKey fo (.streamStart :: (es ++ [.streamEnd])) xs

/-- every key is allowed -/
def AnyKey {F} (_ : Yaml F) : Prop := True

/-- the key is neither a tagged node nor a bad value -/
def UntaggedKey {F} (k : Yaml F) : Prop := k ≠ .bad ∧ ∀ t x, k ≠ .tagged t x

end Verif.Spec
