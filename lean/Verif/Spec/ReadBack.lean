import Verif.Model.SerValue
import Verif.Model.FromStr
import Verif.Spec.Typed
import Verif.Spec.Json
import Verif.Spec.Wrapping
/-!
# Specification: values that are written and read back
-/
namespace Verif.Spec
open Verif Verif.De Verif.Ser

mutual
  /-- the values of a Rust type -/
  inductive HasType {F : Type} : Ty → Val F → Prop
    | int {t : IntTy} {i} : t.min ≤ i → i ≤ t.max → HasType (.int t) (.int i)
    | bool {b} : HasType .bool (.bool b)
    | float {x} : HasType .float (.float x)
    | str {s} : HasType .str (.str s)
    | unit : HasType .unit .unit
    | none {t} : HasType (.option t) .none
    | some {t v} : HasType t v → HasType (.option t) (.some v)
    | vec {t vs} : (∀ v ∈ vs, HasType t v) → HasType (.vec t) (.vec vs)
    | map {k t kvs} : (∀ e ∈ kvs, HasType k e.1) → (∀ e ∈ kvs, HasType t e.2) → HasType (.map k t) (.map kvs)
    | tuple {ts vs} : HasTypes ts vs → HasType (.tuple ts) (.tuple vs)
    | record {deny fs vs} : HasFields fs vs → HasType (.record deny fs) (.record vs)
    | variant {vs name c v} : (name, c) ∈ vs → HasContents c v → HasType (.choice vs) (.variant name v)
  /-- one value for each type -/
  inductive HasTypes {F : Type} : List Ty → List (Val F) → Prop
    | nil : HasTypes [] []
    | cons {t ts v vs} : HasType t v → HasTypes ts vs → HasTypes (t :: ts) (v :: vs)
  /-- a value for each field -/
  inductive HasFields {F : Type} : List (List Byte × Ty) → List (List Byte × Val F) → Prop
    | nil : HasFields [] []
    | cons {n t fs v vs} : HasType t v → HasFields fs vs → HasFields ((n, t) :: fs) ((n, v) :: vs)
  /-- the contents of a variant -/
  inductive HasContents {F : Type} : Variant → Val F → Prop
    | unit : HasContents .unit .unit
    | newtype {t v} : HasType t v → HasContents (.newtype t) v
    | tuple {ts vs} : HasTypes ts vs → HasContents (.tuple ts) (.tuple vs)
    | struct {deny fs vs} : HasFields fs vs → HasContents (.struct deny fs) (.record vs)
end

/-- deserialising the text as a value of the type gives `v`, with enough iterations -/
def Deserialises {F : Type} (fo : FloatOps F) (ofInt : Int → F) (ty : Ty) (text : List Byte) (v : Val F) : Prop :=
  ∃ N, ∀ cfg n fuel, N ≤ cfg.fuel → N ≤ n → N ≤ fuel → fromStr fo ofInt cfg n fuel ty text = .ok v

/-- The float is shown as a number that stands for it: an integer of 64 bits, or any other number. (Rust shows all finite floats so, except
that `-0` is the integer 0, which has no sign.) -/
def Shown {F : Type} (fo : FloatOps F) (ofInt : Int → F) (x : F) : Prop :=
  (∃ i, Json.Integer (fo.display x) i ∧ Core.Fits64 i ∧ ofInt i = x) ∨
  (Json.Number (fo.display x) ∧ (∀ i, Json.Integer (fo.display x) i → ¬ Core.Fits64 i) ∧ fo.parse (fo.display x) = some x)

/-- A string that is written faithfully (see C30): if it fits on a line, it has no characters that need an escape; otherwise also no two
adjacent blanks and no `---` or `...` between blanks. -/
def Faithful (fm : Formatter) (v : List Byte) (words : List (List Byte × Nat)) : Prop :=
  Segmentation v words ∧ NoSpecials v ∧ (totalLength words ≤ fm.prefStringLength ∨ SingleBlanks v ∧ NoMarkers v)

/-- scalars that are written and read back -/
inductive Plain {F : Type} (fo : FloatOps F) (ofInt : Int → F) (ext : Extern F) (fm : Formatter) : Ty → Val F → Prop
  | int {t : IntTy} {i} : t.min ≤ i → i ≤ t.max → Plain fo ofInt ext fm (.int t) (.int i)
  | bool {b} : Plain fo ofInt ext fm .bool (.bool b)
  | float {x} : ext.negativeNan x = false → Shown fo ofInt x → Plain fo ofInt ext fm .float (.float x)
  | str {s} : Faithful fm s (ext.words s) → Plain fo ofInt ext fm .str (.str s)

/-- values that are written and read back: scalars, and if null is written as `null`, also null and options -/
inductive ReadBack {F : Type} (fo : FloatOps F) (ofInt : Int → F) (ext : Extern F) (fm : Formatter) : Ty → Val F → Prop
  | plain {t v} : Plain fo ofInt ext fm t v → ReadBack fo ofInt ext fm t v
  | unit : fm.nullFormat = bs!"null" → ReadBack fo ofInt ext fm .unit .unit
  | none {t} : fm.nullFormat = bs!"null" → HandledTop false (.option t) = true → ReadBack fo ofInt ext fm (.option t) .none
  | some {t v} : Plain fo ofInt ext fm t v → v ≠ .str [] → v ≠ .str bs!"null" → ReadBack fo ofInt ext fm (.option t) (.some v)

end Verif.Spec
