import Verif.Spec.Json
import Verif.Spec.Typed
/-!
# Specification: JSON texts as values of Rust types

`Typed full fo ofInt t w v`: the JSON value `w` stands for the value `v` of the Rust type `t`, with serde's usual conventions: structs are
objects, tuples are arrays, `None` and `()` are `null`, an enum is the name of a variant or an object with one member.

`full = true` is all of it. With `full = false` some texts are left out, which the library gets wrong: those of `Spec.Json`, strings `""` and
`"null"` for optional values, `-0` for unsigned integers, and unknown members of structs with an array or object inside of an array.
-/
namespace Verif.Spec.Json
open Verif Verif.De

/-- a string with the contents `s` -/
def Str (full : Bool) (w s : List Byte) : Prop := ∃ k, Chars full k s ∧ w = b%'"' :: (k ++ [b%'"'])

/-- elements separated by commas; `P` says what an element stands for -/
inductive Items {α : Type} (full : Bool) (P : List Byte → α → Prop) : List Byte → List α → Prop
  | one {a w x b} : Ws full a → P w x → Ws full b → Items full P (a ++ (w ++ b)) [x]
  | more {a w x b r xs} : Ws full a → P w x → Ws full b → Items full P r xs → Items full P (a ++ (w ++ (b ++ b%',' :: r))) (x :: xs)

/-- an array -/
inductive Array {α : Type} (full : Bool) (P : List Byte → α → Prop) : List Byte → List α → Prop
  | empty {a} : Ws full a → Array full P (b%'[' :: (a ++ [b%']'])) []
  | items {w xs} : Items full P w xs → Array full P (b%'[' :: (w ++ [b%']'])) xs

/-- a member: its name, the text of its value, and the whole text -/
inductive Field (full : Bool) : List Byte → List Byte → List Byte → Prop
  | mk {a k s b c w d} : Ws full a → Chars full k s → Ws full b → Ws full c → Ws full d → (full = true ∨ ¬ OnlyTabs c w) →
      Field full s w (a ++ (b%'"' :: (k ++ (b%'"' :: (b ++ (b%':' :: (c ++ (w ++ d))))))))

/-- members separated by commas; `P` says what a member stands for, `skip` which ones are left out -/
inductive Fields {α : Type} (full : Bool) (P : List Byte → List Byte → α → Prop) (skip : List Byte → List Byte → Prop) :
    List Byte → List (List Byte × α) → Prop
  | one {n w t x} : Field full n w t → P n w x → Fields full P skip t [(n, x)]
  | oneSkipped {n w t} : Field full n w t → skip n w → Fields full P skip t []
  | more {n w t x r xs} : Field full n w t → P n w x → Fields full P skip r xs → Fields full P skip (t ++ b%',' :: r) ((n, x) :: xs)
  | moreSkipped {n w t r xs} : Field full n w t → skip n w → Fields full P skip r xs → Fields full P skip (t ++ b%',' :: r) xs

/-- an object -/
inductive Object {α : Type} (full : Bool) (P : List Byte → List Byte → α → Prop) (skip : List Byte → List Byte → Prop) :
    List Byte → List (List Byte × α) → Prop
  | empty {a} : Ws full a → Object full P skip (b%'{' :: (a ++ [b%'}'])) []
  | fields {w xs} : Fields full P skip w xs → Object full P skip (b%'{' :: (w ++ [b%'}'])) xs

/-- no array or object inside of an array -/
inductive Flat {F : Type} : Yaml F → Prop
  | scalar {x} : Flat (.scalar x)
  | seq {xs} : (∀ y ∈ xs, ∃ x, y = .scalar x) → Flat (.seq xs)
  | map {ps} : (∀ p ∈ ps, Flat p.2) → Flat (.map ps)

/-- the value of an unknown member of a struct -/
def Ignorable {F : Type} (full : Bool) (fo : FloatOps F) (w : List Byte) : Prop := ∃ x, Value full fo w x ∧ (full = true ∨ Flat x)

/-- an integer of the type -/
def IntText (full : Bool) (t : IntTy) (w : List Byte) (i : Int) : Prop :=
  Integer w i ∧ t.min ≤ i ∧ i ≤ t.max ∧ (full = true ∨ t.signed = true ∨ w ≠ bs!"-0")

/-- the name of a member as a key of a map: a string, an integer, or the name of a variant -/
def Key {F : Type} (full : Bool) : Ty → List Byte → Val F → Prop
  | .str, n, v => v = .str n
  | .int t, n, v => ∃ i, IntText full t n i ∧ v = .int i
  | .choice vs, n, v => UnitVariant n vs ∧ v = .variant n .unit
  | _, _, _ => False

mutual
  def Typed {F : Type} (full : Bool) (fo : FloatOps F) (ofInt : Int → F) : Ty → List Byte → Val F → Prop
    | .int t, w, v => ∃ i, IntText full t w i ∧ v = .int i
    | .bool, w, v => (w = bs!"true" ∧ v = .bool true) ∨ (w = bs!"false" ∧ v = .bool false)
    | .float, w, v => (∃ i, Integer w i ∧ Core.Fits64 i ∧ v = .float (ofInt i)) ∨
        ∃ f, Number w ∧ (∀ i, Integer w i → ¬ Core.Fits64 i) ∧ fo.parse w = some f ∧ v = .float f
    | .str, w, v => ∃ s, Str full w s ∧ v = .str s
    | .unit, w, v => w = bs!"null" ∧ v = .unit
    | .option t, w, v => (w = bs!"null" ∧ v = .none) ∨
        (w ≠ bs!"null" ∧ (full = true ∨ (¬ Str full w [] ∧ ¬ Str full w bs!"null")) ∧ ∃ y, Typed full fo ofInt t w y ∧ v = .some y)
    | .vec t, w, v => ∃ vs, Array full (Typed full fo ofInt t) w vs ∧ v = .vec vs
    | .map k t, w, v => ∃ kvs, Object full (fun n u (kv : Val F × Val F) => Key full k n kv.1 ∧ Typed full fo ofInt t u kv.2) (fun _ _ => False) w kvs ∧
        v = .map (kvs.map (·.2))
    | .tuple ts, w, v => ∃ u vs, w = b%'[' :: (u ++ [b%']']) ∧ TypedItems full fo ofInt ts u vs ∧ v = .tuple vs
    | .record deny fs, w, v => ∃ found out, Object full (fun n u y => TypedField full fo ofInt n fs u y)
        (fun n u => n ∉ fs.map (·.1) ∧ deny = false ∧ Ignorable full fo u) w found ∧
        (found.map (·.1)).Nodup ∧ Declared found fs out ∧ v = .record out
    | .choice vs, w, v => (∃ n, Str full w n ∧ UnitVariant n vs ∧ v = .variant n .unit) ∨
        ∃ n u t y, w = b%'{' :: (t ++ [b%'}']) ∧ Field full n u t ∧ TypedVariant full fo ofInt n vs u y ∧ v = .variant n y
  /-- one element for each type -/
  def TypedItems {F : Type} (full : Bool) (fo : FloatOps F) (ofInt : Int → F) : List Ty → List Byte → List (Val F) → Prop
    | [], w, vs => Ws full w ∧ vs = []
    | t :: ts, w, vs => ∃ a u b v, Ws full a ∧ Typed full fo ofInt t u v ∧ Ws full b ∧
        ((ts = [] ∧ w = a ++ (u ++ b) ∧ vs = [v]) ∨
          (ts ≠ [] ∧ ∃ r rest, w = a ++ (u ++ (b ++ b%',' :: r)) ∧ TypedItems full fo ofInt ts r rest ∧ vs = v :: rest))
  /-- the value of the field `name` -/
  def TypedField {F : Type} (full : Bool) (fo : FloatOps F) (ofInt : Int → F) (name : List Byte) :
      List (List Byte × Ty) → List Byte → Val F → Prop
    | [], _, _ => False
    | (n, t) :: fs, w, y => (n = name ∧ Typed full fo ofInt t w y) ∨ (n ≠ name ∧ TypedField full fo ofInt name fs w y)
  /-- the contents of the variant `name` -/
  def TypedVariant {F : Type} (full : Bool) (fo : FloatOps F) (ofInt : Int → F) (name : List Byte) :
      List (List Byte × Variant) → List Byte → Val F → Prop
    | [], _, _ => False
    | (n, v) :: vs, w, y => (n = name ∧ TypedContents full fo ofInt v w y) ∨ (n ≠ name ∧ TypedVariant full fo ofInt name vs w y)
  /-- the contents of a variant -/
  def TypedContents {F : Type} (full : Bool) (fo : FloatOps F) (ofInt : Int → F) : Variant → List Byte → Val F → Prop
    | .unit, _, _ => False
    | .newtype t, w, v => Typed full fo ofInt t w v
    | .tuple ts, w, v => ∃ u vs, w = b%'[' :: (u ++ [b%']']) ∧ TypedItems full fo ofInt ts u vs ∧ v = .tuple vs
    | .struct deny fs, w, v => ∃ found out, Object full (fun n u y => TypedField full fo ofInt n fs u y)
        (fun n u => n ∉ fs.map (·.1) ∧ deny = false ∧ Ignorable full fo u) w found ∧
        (found.map (·.1)).Nodup ∧ Declared found fs out ∧ v = .record out
end

/-- a text of the type: a value with white space around it -/
def TypedText {F : Type} (full : Bool) (fo : FloatOps F) (ofInt : Int → F) (t : Ty) (text : List Byte) (v : Val F) : Prop :=
  ∃ a w b, Ws full a ∧ Typed full fo ofInt t w v ∧ Ws full b ∧ text = a ++ (w ++ b)

end Verif.Spec.Json
