import Verif.Model.ParserIter
import Verif.Model.Scalar
/-!
# Typed deserialisation: `yam-serde/src/de.rs`

serde's data model is outside the repository. What is modelled of it: which `deserialize_*` method the `Deserialize` implementation of
a type calls, and what its visitor does with the answer, for the types of `Ty`. `from_str::<T>` is `deTy` at the type `T` on a fresh
state. After an error the state does not matter: `from_str` returns it.
-/
namespace Verif.De
open Verif Verif.Parser Verif.ParserIter

/-- The integer types of `deserialize_i8` … `deserialize_u64`: de.rs 110–220 -/
inductive IntTy
  | i8 | i16 | i32 | i64 | u8 | u16 | u32 | u64
deriving DecidableEq, Repr

/-- Rust core: `MIN` of the type -/
def IntTy.min : IntTy → Int
  | .i8 => -(2 ^ 7) | .i16 => -(2 ^ 15) | .i32 => -(2 ^ 31) | .i64 => -(2 ^ 63)
  | _ => 0

/-- Rust core: `MAX` of the type -/
def IntTy.max : IntTy → Int
  | .i8 => 2 ^ 7 - 1 | .i16 => 2 ^ 15 - 1 | .i32 => 2 ^ 31 - 1 | .i64 => 2 ^ 63 - 1
  | .u8 => 2 ^ 8 - 1 | .u16 => 2 ^ 16 - 1 | .u32 => 2 ^ 32 - 1 | .u64 => 2 ^ 64 - 1

/-- whether the type is signed -/
def IntTy.signed : IntTy → Bool
  | .i8 | .i16 | .i32 | .i64 => true
  | _ => false

/-- value of the type -/
def IntTy.fits (t : IntTy) (i : Int) : Bool := t.min ≤ i && i ≤ t.max

/-- The digit loop of Rust core `from_str_radix(10)` for the type: `checked_mul`, then `checked_add` or `checked_sub` -/
def accDigits (t : IntTy) (positive : Bool) : Int → List Byte → Option Int
  | acc, [] => some acc
  | acc, c :: cs =>
    match Scalar.toDigit 10 c with
    | none => none
    | some d =>
      let m := acc * 10
      if t.fits m then
        let r := if positive then m + d else m - d
        if t.fits r then accDigits t positive r cs else none
      else none

/-- Rust core `str::parse::<T>().ok()` for an integer type: empty and lone sign are errors, one leading `+` is accepted, and one
leading `-` for the signed types -/
def parseInt (t : IntTy) (s : List Byte) : Option Int :=
  match s with
  | [] => none
  | c :: rest =>
    if c = b%'+' then (if rest = [] then none else accDigits t true 0 rest)
    else if c = b%'-' then (if rest = [] ∨ t.signed = false then none else accDigits t false 0 rest)
    else accDigits t true 0 s

mutual
  /-- Rust types that a caller may ask for. `record` is a struct with `#[derive(Deserialize)]`: whether it has the attribute
  `deny_unknown_fields`, and its field names and types. `choice` is an enum with `#[derive(Deserialize)]`. -/
  inductive Ty
    | int (t : IntTy)
    | bool
    | float
    | str
    | unit
    | option (t : Ty)
    | vec (t : Ty)
    | map (k v : Ty)
    | tuple (ts : List Ty)
    | record (deny : Bool) (fields : List (List Byte × Ty))
    | choice (variants : List (List Byte × Variant))
  /-- the contents of a variant of an enum -/
  inductive Variant
    | unit
    | newtype (t : Ty)
    | tuple (ts : List Ty)
    | struct (deny : Bool) (fields : List (List Byte × Ty))
end

/-- Their values. A map is the list of the entries inserted, in order. A variant of an enum is its name and its contents. -/
inductive Val (F : Type)
  | int (i : Int)
  | bool (b : Bool)
  | float (x : F)
  | str (s : List Byte)
  | unit
  | none
  | some (v : Val F)
  | vec (vs : List (Val F))
  | map (kvs : List (Val F × Val F))
  | tuple (vs : List (Val F))
  | record (fs : List (List Byte × Val F))
  | variant (name : List Byte) (v : Val F)

/-- `DeYamlError`: de.rs 353–359, and the panics and hangs of the reader below -/
inductive DErr
  | unexpected (expected found : String)
  | custom
  | expectedNull
  | panicked
  | hung
deriving DecidableEq, Repr

/-- `YamIterDeserializer`: de.rs 13–20 -/
structure DSt where
  it : ItSt
  last : YamEvent
  peeked : Bool

/-- `YamIterDeserializer::new`: de.rs 23–29 -/
def fresh (it : ItSt) : DSt := ⟨it, .docStart, false⟩

/-- computations of the deserialiser -/
abbrev DM (α : Type) := DSt → Except DErr (α × DSt)

/-- sequencing -/
def dbind {α β : Type} (m : DM α) (f : α → DM β) : DM β := fun s =>
  match m s with
  | .ok (a, s) => f a s
  | .error e => .error e

/-- a value without effect -/
def dpure {α : Type} (a : α) : DM α := fun s => .ok (a, s)

/-- an error -/
def dfail {α : Type} (e : DErr) : DM α := fun _ => .error e

instance : Monad DM where
  pure := dpure
  bind := dbind

/-- `YamEvent::as_simple_str`: parser_iter.rs 37–49 -/
def yamSimpleStr : YamEvent → String
  | .docStart => "DocStart"
  | .docEnd => "DocEnd"
  | .streamEnd => "StreamStart"
  | .alias _ => "Alias"
  | .scalar _ => "Scalar"
  | .seqStart _ _ => "SeqStart"
  | .seqEnd => "SeqEnd"
  | .mapStart _ _ => "MapStart"
  | .mapEnd => "MapEnd"

/-- `next_el`: de.rs 36–45. When the iterator has ended, `has_peeked` stays set and `last_event` as it was. -/
def nextEl : DM (Option YamEvent) := fun s =>
  if s.peeked then .ok (some s.last, { s with peeked := false })
  else
    match ParserIter.next s.it with
    | (.ok (some e), it) => .ok (some e, { it := it, last := e, peeked := true })
    | (.ok none, it) => .ok (none, { s with it := it, peeked := true })
    | (.err _, _) => .error .custom
    | (.panic, _) => .error .panicked
    | (.hang, _) => .error .hung

/-- `skip`: de.rs 47–49 -/
def skip : DM Unit := fun s => .ok ((), { s with peeked := false })

/-- `self.last_event` -/
def lastEvent : DM YamEvent := fun s => .ok (s.last, s)

/-- `skip_doc`: de.rs 342–350 -/
def skipDoc : DM (Option YamEvent) := do
  match ← nextEl with
  | some .docStart => do
    skip
    nextEl
  | ev => pure ev

/-- `Tag::empty`: yam-core/src/parsing/mod.rs 220–224 -/
def emptyTag : Tag := ⟨[], []⟩

/-- `ScalarValue::is_null`: yam-core/src/parsing/parser.rs 81–85 -/
def isNull (v : ScalarValue) : Bool := Scalar.isNullTagged v.value (v.tag.getD emptyTag)

/-- `peek_null`: de.rs 51–57 -/
def peekNull : DM Bool := do
  match ← skipDoc with
  | some (.scalar v) => pure (isNull v)
  | _ => pure false

/-- `deserialize_i8` … `deserialize_u64`: de.rs 110–220 and 75–85 -/
def deInt {F : Type} (t : IntTy) : DM (Val F) := do
  match ← skipDoc with
  | some (.scalar v) => do
    skip
    match parseInt t v.value with
    | some i => pure (.int i)
    | none => dfail .custom
  | _ => dfail .custom

/-- `deserialize_any` (de.rs 93–108) with a visitor that only accepts scalars, given by `accept`; sequences and mappings, and scalars that
are not accepted, are type errors. Also `resolve_scalar`: de.rs 59–73. -/
def deScalar {F α : Type} (fo : FloatOps F) (accept : Scalar F → Option α) : DM α := do
  match ← skipDoc with
  | some (.scalar v) => do
    skip
    match Scalar.parseFromCowAndMetadata fo v.value v.style v.tag with
    | some x =>
      match accept x with
      | some r => pure r
      | none => dfail .custom
    | none => dfail .custom
  | _ => dfail .custom

/-- serde's `bool` visitor -/
def acceptBool {F : Type} : Scalar F → Option (Val F)
  | .bool b => some (.bool b)
  | _ => none

/-- serde's `f64` visitor; integers are converted -/
def acceptFloat {F : Type} (ofInt : Int → F) : Scalar F → Option (Val F)
  | .float x => some (.float x)
  | .int i => some (.float (ofInt i))
  | _ => none

/-- serde's `String` visitor -/
def acceptStr {F : Type} : Scalar F → Option (Val F)
  | .str s => some (.str s)
  | _ => none

/-- the visitor of a struct's field names: `deserialize_identifier`, de.rs 330–335. Strings only; other scalars are errors. -/
def acceptName {F : Type} : Scalar F → Option (List Byte)
  | .str s => some s
  | _ => none

/-- `deserialize_unit`: de.rs 234–244 -/
def deUnit {F : Type} : DM (Val F) := do
  if ← peekNull then do
    skip
    pure .unit
  else dfail .expectedNull

/-- `SeqCollection::next_element_seed`: de.rs 412–426 -/
def nextElement {α : Type} (seed : DM α) : DM (Option α) := do
  match ← nextEl with
  | some .seqEnd => pure none
  | some .docEnd | some .streamEnd | none => do dfail (.unexpected "SeqEnd" (yamSimpleStr (← lastEvent)))
  | some _ => do pure (some (← seed))

/-- `SeqCollection::next_key_seed`: de.rs 435–449 -/
def nextKey {α : Type} (seed : DM α) : DM (Option α) := do
  match ← nextEl with
  | some .mapEnd => pure none
  | some .docEnd | some .streamEnd | none => do dfail (.unexpected "MapEnd" (yamSimpleStr (← lastEvent)))
  | some _ => do pure (some (← seed))

/-- the end of `deserialize_seq` (de.rs 264–273) and of `deserialize_map` (288–297) -/
def finish (isEnd : YamEvent → Bool) (expected : String) : DM Unit := do
  if isEnd (← lastEvent) then skip
  else
    match ← nextEl with
    | some e => do
      if isEnd e then skip else dfail (.unexpected expected (yamSimpleStr (← lastEvent)))
    | none => do dfail (.unexpected expected (yamSimpleStr (← lastEvent)))

/-- the event ends a sequence -/
def isSeqEnd : YamEvent → Bool
  | .seqEnd => true
  | _ => false

/-- the event ends a mapping -/
def isMapEnd : YamEvent → Bool
  | .mapEnd => true
  | _ => false

/-- `deserialize_seq`: de.rs 252–274; `visit` is `visitor.visit_seq` -/
def deserializeSeq {α : Type} (visit : DM α) : DM α := do
  match ← skipDoc with
  | some (.seqStart _ _) => do
    skip
    let v ← visit
    finish isSeqEnd "SeqEnd"
    pure v
  | _ => do dfail (.unexpected "SeqStart" (yamSimpleStr (← lastEvent)))

/-- `deserialize_map`: de.rs 276–298; `visit` is `visitor.visit_map` -/
def deserializeMap {α : Type} (visit : DM α) : DM α := do
  match ← skipDoc with
  | some (.mapStart _ _) => do
    skip
    let v ← visit
    finish isMapEnd "MapEnd"
    pure v
  | _ => do dfail (.unexpected "MapStart" (yamSimpleStr (← lastEvent)))

/-- `deserialize_any` with a visitor that only accepts sequences (tuples): de.rs 93–108 -/
def anySeq {α : Type} (visit : DM α) : DM α := do
  match ← skipDoc with
  | some (.seqStart _ _) => deserializeSeq visit
  | _ => dfail .custom

/-- `deserialize_any` with a visitor that only accepts mappings (structs): de.rs 93–108. (A derived struct also has `visit_seq`; a
struct written as a sequence is not modelled.) -/
def anyMap {α : Type} (visit : DM α) : DM α := do
  match ← skipDoc with
  | some (.mapStart _ _) => deserializeMap visit
  | _ => dfail .custom

/-- serde's `Vec` visitor: `while let Some(x) = seq.next_element()?` -/
def vecLoop {α : Type} (seed : DM α) : Nat → DM (List α)
  | 0 => dfail .hung
  | fuel + 1 => do
    match ← nextElement seed with
    | none => pure []
    | some v => do
      let vs ← vecLoop seed fuel
      pure (v :: vs)

/-- serde's map visitor: `while let Some((k, v)) = map.next_entry()?`; `next_value_seed` (de.rs 451–458) is the seed alone -/
def mapLoop {α β : Type} (key : DM α) (value : DM β) : Nat → DM (List (α × β))
  | 0 => dfail .hung
  | fuel + 1 => do
    match ← nextKey key with
    | none => pure []
    | some k => do
      let v ← value
      let kvs ← mapLoop key value fuel
      pure ((k, v) :: kvs)

/-- serde's `IgnoredAny`: `deserialize_ignored_any` is `deserialize_any` (de.rs 93–108), whose visitor accepts every scalar and ignores the
elements of sequences and the entries of mappings in turn. -/
def ignoreAny {F : Type} (fo : FloatOps F) : Nat → DM Unit
  | 0 => dfail .hung
  | fuel + 1 => do
    match ← skipDoc with
    | some (.mapStart _ _) => deserializeMap (do
      let _ ← mapLoop (ignoreAny fo fuel) (ignoreAny fo fuel) (fuel + 1)
      pure ())
    | some (.seqStart _ _) => deserializeSeq (do
      let _ ← vecLoop (ignoreAny fo fuel) (fuel + 1)
      pure ())
    | some (.scalar v) => do
      skip
      match Scalar.parseFromCowAndMetadata fo v.value v.style v.tag with
      | some _ => pure ()
      | none => dfail .custom
    | _ => dfail .custom

/-- The visitor of a derived struct: keys are matched with the field names; a repeated field is an error. `field` reads the value of a
field; `unknown` is what is done with the value of another field: an error (`deny_unknown_fields`) or `ignoreAny`. -/
def recordLoop {F : Type} (key : DM (List Byte)) (field : List Byte → Option (DM (Val F))) (unknown : DM Unit) : Nat → List (List Byte × Val F) →
    DM (List (List Byte × Val F))
  | 0, _ => dfail .hung
  | fuel + 1, seen => do
    match ← nextKey key with
    | none => pure seen
    | some k =>
      match field k with
      | none => do
        unknown
        recordLoop key field unknown fuel seen
      | some m =>
        if seen.any (·.1 == k) then dfail .custom
        else do
          let v ← m
          recordLoop key field unknown fuel (seen ++ [(k, v)])

/-- what a derived struct does with the value of an unknown field -/
def onUnknown {F : Type} (fo : FloatOps F) (fuel : Nat) (deny : Bool) : DM Unit :=
  if deny then dfail .custom else ignoreAny fo fuel

/-- A missing field of a derived struct is `None` if its type is an option, and an error otherwise. -/
def missing {F : Type} : Ty → Option (Val F)
  | .option _ => some .none
  | _ => none

/-- The fields of a struct in the order of its declaration. -/
def collect {F : Type} (seen : List (List Byte × Val F)) : List (List Byte × Ty) → Option (List (List Byte × Val F))
  | [] => some []
  | (n, t) :: fs =>
    match (seen.find? (·.1 == n)).map (·.2) <|> missing t, collect seen fs with
    | some v, some r => some ((n, v) :: r)
    | _, _ => none

/-- the variant of that name has no contents: serde's `CowStrDeserializer`, whose variants are only units -/
def isUnit (name : List Byte) : List (List Byte × Variant) → Bool
  | [] => false
  | (n, v) :: vs =>
    if n = name then
      match v with
      | .unit => true
      | _ => false
    else isUnit name vs

/-- the fields of a struct once its mapping has been read -/
def build {F : Type} (fs : List (List Byte × Ty)) (m : DM (List (List Byte × Val F))) : DM (Val F) := do
  match collect (← m) fs with
  | some r => pure (.record r)
  | none => dfail .custom

/-- `deserialize_enum`: de.rs 300–328, with `Enum::variant_seed` (486–492). `variant` reads the contents of the variant of a name. The end of the
mapping is read but not skipped. -/
def deEnum {F : Type} (fo : FloatOps F) (vs : List (List Byte × Variant)) (variant : List Byte → Option (DM (Val F))) : DM (Val F) := do
  match ← skipDoc with
  | some (.scalar v) => do
    skip
    if isUnit v.value vs then pure (.variant v.value .unit) else dfail .custom
  | some (.mapStart _ _) => do
    skip
    let name ← deScalar fo acceptName
    match variant name with
    | none => dfail .custom
    | some m => do
      let v ← m
      match ← nextEl with
      | some .mapEnd => pure (.variant name v)
      | _ => do dfail (.unexpected "MapEnd" (yamSimpleStr (← lastEvent)))
  | _ => dfail .custom

mutual
  /-- `T::deserialize(&mut de)`. The loops run at most `fuel` rounds. -/
  def deTy {F : Type} (fo : FloatOps F) (ofInt : Int → F) (fuel : Nat) : Ty → DM (Val F)
    | .int t => deInt t
    | .bool => deScalar fo acceptBool
    | .float => deScalar fo (acceptFloat ofInt)
    | .str => deScalar fo acceptStr
    | .unit => deUnit
    -- `deserialize_option`: de.rs 222–232
    | .option t => do
      if ← peekNull then do
        skip
        pure .none
      else do pure (.some (← deTy fo ofInt fuel t))
    | .vec t => do pure (.vec (← deserializeSeq (vecLoop (deTy fo ofInt fuel t) fuel)))
    | .map k v => do pure (.map (← deserializeMap (mapLoop (deTy fo ofInt fuel k) (deTy fo ofInt fuel v) fuel)))
    | .tuple ts => do pure (.tuple (← anySeq (deTuple fo ofInt fuel ts)))
    | .record deny fs => build fs (anyMap (recordLoop (deScalar fo acceptName) (fun k => deField fo ofInt fuel k fs) (onUnknown fo fuel deny) fuel []))
    | .choice vs => deEnum fo vs (fun k => deVariant fo ofInt fuel k vs)
  termination_by structural t => t
  /-- serde's tuple visitor: `next_element` once per component, `None` is an error -/
  def deTuple {F : Type} (fo : FloatOps F) (ofInt : Int → F) (fuel : Nat) : List Ty → DM (List (Val F))
    | [] => pure []
    | t :: ts => do
      match ← nextElement (deTy fo ofInt fuel t) with
      | none => dfail .custom
      | some v => do
        let vs ← deTuple fo ofInt fuel ts
        pure (v :: vs)
  termination_by structural ts => ts
  /-- the reader of a field's value -/
  def deField {F : Type} (fo : FloatOps F) (ofInt : Int → F) (fuel : Nat) (name : List Byte) : List (List Byte × Ty) → Option (DM (Val F))
    | [] => none
    | (n, t) :: fs => if n = name then some (deTy fo ofInt fuel t) else deField fo ofInt fuel name fs
  termination_by structural fs => fs
  /-- the reader of a variant's contents -/
  def deVariant {F : Type} (fo : FloatOps F) (ofInt : Int → F) (fuel : Nat) (name : List Byte) : List (List Byte × Variant) → Option (DM (Val F))
    | [] => none
    | (n, v) :: vs => if n = name then some (deContents fo ofInt fuel v) else deVariant fo ofInt fuel name vs
  termination_by structural vs => vs
  /-- `VariantAccess for Enum`: de.rs 495–530. `unit_variant` is `todo!()`. -/
  def deContents {F : Type} (fo : FloatOps F) (ofInt : Int → F) (fuel : Nat) : Variant → DM (Val F)
    | .unit => dfail .panicked
    | .newtype t => deTy fo ofInt fuel t
    | .tuple ts => do pure (.tuple (← deserializeSeq (deTuple fo ofInt fuel ts)))
    | .struct deny fs => build fs (deserializeMap (recordLoop (deScalar fo acceptName) (fun k => deField fo ofInt fuel k fs) (onUnknown fo fuel deny) fuel []))
  termination_by structural v => v
end

/-- `from_str`: yam-serde/src/lib.rs 64–72, on the events of the text -/
def fromIter {F : Type} (fo : FloatOps F) (ofInt : Int → F) (fuel : Nat) (t : Ty) (it : ItSt) : Except DErr (Val F) :=
  (deTy fo ofInt fuel t (fresh it)).map (·.1)

end Verif.De
