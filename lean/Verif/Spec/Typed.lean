import Verif.Model.De
import Verif.Spec.CoreSchema
/-!
# Specification: what the events of a node denote as a value of a Rust type

Of the model this uses the types of events, of Rust types and of values, and for booleans, floats and strings the resolution of a single
scalar (`parseFromCowAndMetadata`, the subject of C03–C07 and C41).
-/
namespace Verif.Spec
open Verif Verif.ParserIter Verif.De

/-- calling `next` again and again gives the items `evs`, first item first -/
inductive Feeds : ItSt → List YamEvent → ItSt → Prop
  | nil {it} : Feeds it [] it
  | cons {it e it1 es it2} : ParserIter.next it = (.ok (some e), it1) → Feeds it1 es it2 → Feeds it (e :: es) it2

/-- which scalars are null, which are the integer `i` of type `t`, which are the name of a variant without contents, and which values
of unknown fields may be ignored -/
structure Reading where
  null : ScalarValue → Prop
  int : IntTy → ScalarValue → Int → Prop
  name : ScalarValue → List Byte → Prop
  ignored : List YamEvent → Prop

mutual
  /-- the events of one node without aliases -/
  inductive AnyNode : List YamEvent → Prop
    | scalar (v) : AnyNode [.scalar v]
    | seq {body} (a tag) : AnyNodes body → AnyNode (.seqStart a tag :: (body ++ [.seqEnd]))
    | map {body} (a tag) : AnyPairs body → AnyNode (.mapStart a tag :: (body ++ [.mapEnd]))
  /-- of any number of nodes -/
  inductive AnyNodes : List YamEvent → Prop
    | nil : AnyNodes []
    | cons {x xs} : AnyNode x → AnyNodes xs → AnyNodes (x ++ xs)
  /-- of any number of pairs of nodes -/
  inductive AnyPairs : List YamEvent → Prop
    | nil : AnyPairs []
    | cons {x y xs} : AnyNode x → AnyNode y → AnyPairs xs → AnyPairs (x ++ (y ++ xs))
end

/-- the scalar resolves to something: its text fits its tag -/
def Resolvable {F : Type} (fo : FloatOps F) (v : ScalarValue) : Prop :=
  ∃ x, Scalar.parseFromCowAndMetadata fo v.value v.style v.tag = some x

mutual
  /-- Nodes that contain no collection as an element of a sequence or as a key of a mapping, and whose scalars resolve. -/
  inductive PlainNode {F : Type} (fo : FloatOps F) : List YamEvent → Prop
    | scalar {v} : Resolvable fo v → PlainNode fo [.scalar v]
    | seq {vs : List ScalarValue} (a tag) : (∀ v ∈ vs, Resolvable fo v) → PlainNode fo (.seqStart a tag :: (vs.map .scalar ++ [.seqEnd]))
    | map {body} (a tag) : PlainPairs fo body → PlainNode fo (.mapStart a tag :: (body ++ [.mapEnd]))
  /-- a scalar and such a node, any number of times -/
  inductive PlainPairs {F : Type} (fo : FloatOps F) : List YamEvent → Prop
    | nil : PlainPairs fo []
    | cons {k y xs} : Resolvable fo k → PlainNode fo y → PlainPairs fo xs → PlainPairs fo (.scalar k :: (y ++ xs))
end

/-- As the tree loader resolves scalars. -/
def loaderReading {F : Type} (fo : FloatOps F) : Reading where
  null v := Scalar.parseFromCowAndMetadata fo v.value v.style v.tag = some .null
  int t v i := Scalar.parseFromCowAndMetadata fo v.value v.style v.tag = some (.int i) ∧ t.min ≤ i ∧ i ≤ t.max
  name v n := Scalar.parseFromCowAndMetadata fo v.value v.style v.tag = some (.str n)
  ignored := AnyNode

/-- the text is an optional sign and decimal digits; for the unsigned types, the sign is not `-` -/
inductive DecimalText (signed : Bool) : List Byte → Int → Prop
  | dec {s n} : Core.IsNumeral 10 s n → DecimalText signed s n
  | plus {s n} : Core.IsNumeral 10 s n → DecimalText signed ('+'.toNat :: s) n
  | minus {s n} : signed = true → Core.IsNumeral 10 s n → DecimalText signed ('-'.toNat :: s) (-(n : Int))

/-- What the deserialiser does instead: it looks at the text only, whatever its quotes. It cannot ignore every node. -/
def textReading {F : Type} (fo : FloatOps F) : Reading where
  null v := v.value = [] ∨ v.value = bs!"null" ∨ (v.value = bs!"~" ∧ ∃ t, v.tag = some t ∧ t.isYamlCoreSchema = true)
  int t v i := DecimalText t.signed v.value i ∧ t.min ≤ i ∧ i ≤ t.max
  name v n := v.value = n
  ignored := PlainNode fo

/-- any number of nodes -/
inductive Each {α : Type} (R : List YamEvent → α → Prop) : List YamEvent → List α → Prop
  | nil : Each R [] []
  | cons {a v es vs} : R a v → Each R es vs → Each R (a ++ es) (v :: vs)

/-- any number of pairs of nodes -/
inductive EachPair {α β : Type} (R : List YamEvent → α → Prop) (S : List YamEvent → β → Prop) : List YamEvent → List (α × β) → Prop
  | nil : EachPair R S [] []
  | cons {a k b v es kvs} : R a k → S b v → EachPair R S es kvs → EachPair R S (a ++ (b ++ es)) ((k, v) :: kvs)

/-- Any number of fields: a name and a node for its value. Fields that are not `known` are left out, if that is allowed and if their values
are `ignored`. -/
inductive EachField {α : Type} (R : List YamEvent → List Byte → Prop) (S : List Byte → List YamEvent → α → Prop) (known : List Byte → Prop)
    (ignored : List YamEvent → Prop) : List YamEvent → List (List Byte × α) → Prop
  | nil : EachField R S known ignored [] []
  | cons {a k b v es kvs} : R a k → S k b v → EachField R S known ignored es kvs → EachField R S known ignored (a ++ (b ++ es)) ((k, v) :: kvs)
  | skip {a k b es kvs} : R a k → ¬known k → ignored b → EachField R S known ignored es kvs → EachField R S known ignored (a ++ (b ++ es)) kvs

/-- the scalar resolves to `x` -/
def Resolves {F : Type} (fo : FloatOps F) (evs : List YamEvent) (x : Scalar F) : Prop :=
  ∃ v, evs = [.scalar v] ∧ Scalar.parseFromCowAndMetadata fo v.value v.style v.tag = some x

/-- The declared fields from those found: a field that is missing is `None` if it may be. -/
inductive Declared {F : Type} (found : List (List Byte × Val F)) : List (List Byte × Ty) → List (List Byte × Val F) → Prop
  | nil : Declared found [] []
  | present {n t fs v out} : (n, v) ∈ found → Declared found fs out → Declared found ((n, t) :: fs) ((n, v) :: out)
  | absent {n t fs out} : (∀ v, (n, v) ∉ found) → Declared found fs out →
      Declared found ((n, .option t) :: fs) ((n, .none) :: out)

/-- A mapping with the fields of a struct, each at most once, and perhaps others: the fields `found` give the fields `out` declared. -/
def ReadsStruct {F : Type} (fo : FloatOps F) (r : Reading) (deny : Bool) (names : List (List Byte)) (declared : List (List Byte × Val F) → List (List Byte × Val F) → Prop)
    (field : List Byte → List YamEvent → Val F → Prop) (evs : List YamEvent) (x : Val F) : Prop :=
  ∃ a tag body found out, evs = .mapStart a tag :: (body ++ [.mapEnd]) ∧
    EachField (fun evs n => Resolves fo evs (.str n)) field (· ∈ names) (fun evs => deny = false ∧ r.ignored evs) body found ∧
    (found.map (·.1)).Nodup ∧ declared found out ∧ x = .record out

/-- the variant of that name has no contents -/
inductive UnitVariant (name : List Byte) : List (List Byte × Variant) → Prop
  | here {vs} : UnitVariant name ((name, .unit) :: vs)
  | there {n v vs} : n ≠ name → UnitVariant name vs → UnitVariant name ((n, v) :: vs)

mutual
  /-- the events `evs` are one node, and it denotes the value `x` of type `t` -/
  def Reads {F : Type} (fo : FloatOps F) (ofInt : Int → F) (r : Reading) : Ty → List YamEvent → Val F → Prop
    | .int t, evs, x => ∃ v i, evs = [.scalar v] ∧ r.int t v i ∧ x = .int i
    | .bool, evs, x => ∃ b, Resolves fo evs (.bool b) ∧ x = .bool b
    | .float, evs, x => (∃ d, Resolves fo evs (.float d) ∧ x = .float d) ∨ (∃ i, Resolves fo evs (.int i) ∧ x = .float (ofInt i))
    | .str, evs, x => ∃ s, Resolves fo evs (.str s) ∧ x = .str s
    | .unit, evs, x => ∃ v, evs = [.scalar v] ∧ r.null v ∧ x = .unit
    | .option t, evs, x => (∃ v, evs = [.scalar v] ∧ r.null v ∧ x = .none) ∨
        ((∀ v, evs = [.scalar v] → ¬r.null v) ∧ ∃ y, Reads fo ofInt r t evs y ∧ x = .some y)
    | .vec t, evs, x => ∃ a tag body vs, evs = .seqStart a tag :: (body ++ [.seqEnd]) ∧
        Each (Reads fo ofInt r t) body vs ∧ x = .vec vs
    | .map k v, evs, x => ∃ a tag body kvs, evs = .mapStart a tag :: (body ++ [.mapEnd]) ∧
        EachPair (Reads fo ofInt r k) (Reads fo ofInt r v) body kvs ∧ x = .map kvs
    | .tuple ts, evs, x => ∃ a tag body vs, evs = .seqStart a tag :: (body ++ [.seqEnd]) ∧
        ReadsTuple fo ofInt r ts body vs ∧ x = .tuple vs
    | .record deny fs, evs, x => ReadsStruct fo r deny (fs.map (·.1)) (Declared · fs) (fun n evs y => ReadsField fo ofInt r n fs evs y) evs x
    | .choice vs, evs, x => (∃ v n, evs = [.scalar v] ∧ r.name v n ∧ UnitVariant n vs ∧ x = .variant n .unit) ∨
        ∃ a tag key body n y, evs = .mapStart a tag :: (key ++ (body ++ [.mapEnd])) ∧ Resolves fo key (.str n) ∧
          ReadsVariant fo ofInt r n vs body y ∧ x = .variant n y
  /-- one node for each type -/
  def ReadsTuple {F : Type} (fo : FloatOps F) (ofInt : Int → F) (r : Reading) : List Ty → List YamEvent → List (Val F) → Prop
    | [], evs, vs => evs = [] ∧ vs = []
    | t :: ts, evs, vs => ∃ a es v rest, evs = a ++ es ∧ Reads fo ofInt r t a v ∧ ReadsTuple fo ofInt r ts es rest ∧ vs = v :: rest
  /-- one node of the type of the field `name` -/
  def ReadsField {F : Type} (fo : FloatOps F) (ofInt : Int → F) (r : Reading) (name : List Byte) :
      List (List Byte × Ty) → List YamEvent → Val F → Prop
    | [], _, _ => False
    | (n, t) :: fs, evs, y => (n = name ∧ Reads fo ofInt r t evs y) ∨ (n ≠ name ∧ ReadsField fo ofInt r name fs evs y)
  /-- the contents of the variant `name` -/
  def ReadsVariant {F : Type} (fo : FloatOps F) (ofInt : Int → F) (r : Reading) (name : List Byte) :
      List (List Byte × Variant) → List YamEvent → Val F → Prop
    | [], _, _ => False
    | (n, v) :: vs, evs, y => (n = name ∧ ReadsContents fo ofInt r v evs y) ∨ (n ≠ name ∧ ReadsVariant fo ofInt r name vs evs y)
  /-- one node for the contents of a variant -/
  def ReadsContents {F : Type} (fo : FloatOps F) (ofInt : Int → F) (r : Reading) : Variant → List YamEvent → Val F → Prop
    | .unit, _, _ => False
    | .newtype t, evs, x => Reads fo ofInt r t evs x
    | .tuple ts, evs, x => ∃ a tag body vs, evs = .seqStart a tag :: (body ++ [.seqEnd]) ∧
        ReadsTuple fo ofInt r ts body vs ∧ x = .tuple vs
    | .struct deny fs, evs, x => ReadsStruct fo r deny (fs.map (·.1)) (Declared · fs) (fun n evs y => ReadsField fo ofInt r n fs evs y) evs x
end

/-- the last event of such a value is the end of a sequence -/
def endsInSeq : Ty → Bool
  | .vec _ | .tuple _ => true
  | .option t => endsInSeq t
  | _ => false

/-- no variant has contents -/
def onlyUnits : List (List Byte × Variant) → Bool
  | [] => true
  | (_, .unit) :: vs => onlyUnits vs
  | _ => false

mutual
  /-- The types that the deserialiser reads correctly. `inside` says that the value is an element of a sequence, a key of a mapping or
  inside an option: there, options, tuples and structs are not read correctly. Elsewhere they are, but not if the last component of a
  tuple ends with a sequence. Enums are only read correctly if no variant has contents. If `strict`, structs must not ignore unknown fields. -/
  def Handled (strict : Bool) : (inside : Bool) → Ty → Bool
    | _, .int _ | _, .bool | _, .float | _, .str | _, .unit => true
    | inside, .option t => !inside && Handled strict true t
    | _, .vec t => Handled strict true t
    | _, .map k v => Handled strict true k && Handled strict false v
    | inside, .tuple ts => !inside && HandledComponents strict ts
    | inside, .record deny fs => !inside && (deny || !strict) && HandledFields strict fs
    | _, .choice vs => onlyUnits vs
  /-- the components of a tuple -/
  def HandledComponents (strict : Bool) : List Ty → Bool
    | [] => true
    | [t] => Handled strict true t && !endsInSeq t
    | t :: ts => Handled strict true t && HandledComponents strict ts
  /-- the fields of a struct -/
  def HandledFields (strict : Bool) : List (List Byte × Ty) → Bool
    | [] => true
    | (_, t) :: fs => Handled strict false t && HandledFields strict fs
end

/-- the variants of an enum that is the whole document -/
def HandledVariants (strict : Bool) : List (List Byte × Variant) → Bool
  | [] => true
  | (_, .unit) :: vs => HandledVariants strict vs
  | (_, .newtype t) :: vs => Handled strict false t && HandledVariants strict vs
  | (_, .tuple ts) :: vs => HandledComponents strict ts && HandledVariants strict vs
  | (_, .struct deny fs) :: vs => (deny || !strict) && HandledFields strict fs && HandledVariants strict vs

/-- Types of whole documents: also an enum, or an optional one. -/
def HandledTop (strict : Bool) : Ty → Bool
  | .choice vs | .option (.choice vs) => HandledVariants strict vs
  | t => Handled strict false t

mutual
  /-- the type has no `Option` in it -/
  def WithoutOptions : Ty → Bool
    | .int _ | .bool | .float | .str | .unit | .choice _ => true
    | .option _ => false
    | .vec t => WithoutOptions t
    | .map k v => WithoutOptions k && WithoutOptions v
    | .tuple ts => WithoutOptionsAll ts
    | .record _ fs => WithoutOptionsFields fs
  /-- nor have its components -/
  def WithoutOptionsAll : List Ty → Bool
    | [] => true
    | t :: ts => WithoutOptions t && WithoutOptionsAll ts
  /-- nor its fields -/
  def WithoutOptionsFields : List (List Byte × Ty) → Bool
    | [] => true
    | (_, t) :: fs => WithoutOptions t && WithoutOptionsFields fs
end

/-- nor its variants -/
def WithoutOptionsVariants : List (List Byte × Variant) → Bool
  | [] => true
  | (_, .unit) :: vs => WithoutOptionsVariants vs
  | (_, .newtype t) :: vs => WithoutOptions t && WithoutOptionsVariants vs
  | (_, .tuple ts) :: vs => WithoutOptionsAll ts && WithoutOptionsVariants vs
  | (_, .struct _ fs) :: vs => WithoutOptionsFields fs && WithoutOptionsVariants vs

/-- the type of a whole document has no `Option` in it -/
def WithoutOptionsTop : Ty → Bool
  | .choice vs => WithoutOptionsVariants vs
  | t => WithoutOptions t

end Verif.Spec
