import Verif.Spec.Block
import Verif.Spec.Typed
/-!
# Specification: YAML in block style as values of Rust types

`Typed full fo ofInt ty s p n f t v`: the text `t` stands for the value `v` of the Rust type `ty`, with serde's usual conventions: structs are
mappings, tuples are sequences, `None` and `()` are `null` or a missing value, an enum is the name of a variant or a mapping with one entry.

`full = true` is the core schema. With `full = false` some texts are left out, which the library gets wrong: those of `Spec.Block`, integers that are not
in decimal notation, null in other spellings than `null`, the strings `""` and `"null"` for optional values, and unknown fields of structs with a
collection inside of a sequence. Collections may also be in flow style. Anchors, aliases and tags are not described here.
-/
namespace Verif.Spec.Block
open Verif Verif.De Verif.Spec

/-- where a node stands: on the line of its key; on a line of its own, or after `- `; on a later line, in the column of its key; nowhere; inside of a
flow collection -/
inductive Spot
  | inline | own | beside | absent | flow
  deriving DecidableEq

/-- a scalar that may stand inside of a flow collection: in quotes, or without `,`, `[`, `]`, `{` and `}` -/
def Element (full : Bool) (t : List Byte) : Prop :=
  t.head? = some b%'"' ∨ t.head? = some b%'\'' ∨ ((∀ b ∈ t, b ∉ bs!",[]{}") ∧ (full = false → t.head? ≠ some b%':' ∧ ¬ Dashed t))

/-- where the scalar `t` may stand -/
def Spot.scalar (s : Spot) (full : Bool) (t : List Byte) : Prop := s = .inline ∨ s = .own ∨ (s = .flow ∧ Element full t)

/-- where a block scalar may stand -/
def Spot.scroll (s : Spot) : Prop := s = .inline ∨ s = .own

/-- where a flow collection may stand -/
def Spot.nested (s : Spot) : Prop := s = .inline ∨ s = .own ∨ s = .flow

/-- where a sequence in block style may stand -/
def Spot.items (s : Spot) : Prop := s = .own ∨ s = .beside

/-- `R s p n f t x`: the node `t` at `s` stands for `x`; `p` is the least column for its lines, `n` its column, `f` the column of the content of the
block scalar it ends with, if it does -/
abbrev Shape (α : Type) := Spot → Nat → Nat → Option Nat → List Byte → α → Prop

/-- after a `-` at column `n`: nothing, a node on the same line, or a node further right on a later line -/
inductive AfterOf {α : Type} (R : Shape α) (n : Nat) : Option Nat → List Byte → α → Prop
  | absent {x} : R .absent (n + 1) n none [] x → AfterOf R n none [] x
  | inline {m f t x} : R .own (n + 1) (n + 2 + m) f t x → AfterOf R n f (spaces (m + 1) ++ t) x
  | under {m g f t x} : Break m g → n < m → R .own (n + 1) m f t x → AfterOf R n f (g ++ t) x

/-- items below each other -/
inductive ItemsOf {α : Type} (R : Shape α) (n : Nat) : Option Nat → List Byte → List α → Prop
  | one {f r x} : AfterOf R n f r x → ItemsOf R n f (b%'-' :: r) [x]
  | more {f₀ f r x g t xs} : AfterOf R n f₀ r x → Gap f₀ n g → ItemsOf R n f t xs → ItemsOf R n f (b%'-' :: r ++ (g ++ t)) (x :: xs)

/-- a key on one line, `:`, and a value, which may depend on the key -/
inductive EntryOf {κ α : Type} (K : List Byte → κ → Prop) (R : κ → Shape α) (n : Nat) : Option Nat → List Byte → κ × α → Prop
  | absent {k x j y} : K k x → k.length + j ≤ 1024 → R x .absent (n + 1) n none [] y → EntryOf K R n none (k ++ (spaces j ++ [b%':'])) (x, y)
  | inline {k x j m f t y} : K k x → k.length + j ≤ 1024 → R x .inline (n + 1) n f t y →
      EntryOf K R n f (k ++ (spaces j ++ b%':' :: (spaces (m + 1) ++ t))) (x, y)
  | under {k x j m g f t y} : K k x → k.length + j ≤ 1024 → Break m g → n < m → R x .own (n + 1) m f t y →
      EntryOf K R n f (k ++ (spaces j ++ b%':' :: (g ++ t))) (x, y)
  | beside {k x j g f t y} : K k x → k.length + j ≤ 1024 → Break n g → R x .beside (n + 1) n f t y →
      EntryOf K R n f (k ++ (spaces j ++ b%':' :: (g ++ t))) (x, y)

/-- entries below each other -/
inductive EntriesOf {κ α : Type} (K : List Byte → κ → Prop) (R : κ → Shape α) (n : Nat) : Option Nat → List Byte → List (κ × α) → Prop
  | one {f t e} : EntryOf K R n f t e → EntriesOf K R n f t [e]
  | more {f₀ f t e g r es} : EntryOf K R n f₀ t e → Gap f₀ n g → EntriesOf K R n f r es → EntriesOf K R n f (t ++ (g ++ r)) (e :: es)

/-! ## Scalars -/

/-- a scalar of the type that is not a block scalar; lines after the first begin at column `p` or further right -/
def Simple {F : Type} (full : Bool) (fo : FloatOps F) (ofInt : Int → F) : Ty → Nat → List Byte → Val F → Prop
  | .int ty, _, t, v => ∃ i, (DecimalText ty.signed t i ∨ full = true ∧ Core.CoreInt t i) ∧ ty.min ≤ i ∧ i ≤ ty.max ∧ v = .int i
  | .bool, p, t, v => ∃ b, Tall full fo p t (.scalar (.bool b)) ∧ v = .bool b
  | .float, p, t, v => (∃ d, Tall full fo p t (.scalar (.float d)) ∧ v = .float d) ∨ ∃ i, Tall full fo p t (.scalar (.int i)) ∧ v = .float (ofInt i)
  | .str, p, t, v => ∃ s, Tall full fo p t (.scalar (.str s)) ∧ v = .str s
  | .unit, p, t, v => (t = bs!"null" ∨ full = true ∧ Tall full fo p t (.scalar .null)) ∧ v = .unit
  | .choice vs, p, t, v => ∃ n, Tall full fo p t (.scalar (.str n)) ∧ UnitVariant n vs ∧ v = .variant n .unit
  | _, _, _, _ => False

/-- a scalar on one line as a key -/
def Key {F : Type} (full : Bool) (fo : FloatOps F) (ofInt : Int → F) (ty : Ty) (k : List Byte) (v : Val F) : Prop :=
  Simple full fo ofInt ty 0 k v ∧ b%'\n' ∉ k

/-- a string on one line as the name of a field or a variant -/
def FieldName {F : Type} (full : Bool) (fo : FloatOps F) (k s : List Byte) : Prop := Leaf full fo k (.scalar (.str s))

/-- the scalar `t` has the content `s` -/
def Content (full : Bool) (p : Nat) (t s : List Byte) : Prop :=
  (Begins t ∧ PlainLines full p t s) ∨ (∃ w, Double p w s ∧ t = b%'"' :: (w ++ [b%'"'])) ∨ (∃ w, Single p w s ∧ t = b%'\'' :: (w ++ [b%'\''])) ∨
    ∃ c, Scroll full p c t s

/-- not null. With `full = false`, also not an empty string and not a string `null`. -/
def NotNull {F : Type} (full : Bool) (fo : FloatOps F) (s : Spot) (p : Nat) (t : List Byte) : Prop :=
  s ≠ .absent ∧ ¬ Tall full fo p t (.scalar .null) ∧ (full = false → ∀ c, Content full p t c → c ≠ [] ∧ c ≠ bs!"null")

/-! ## Flow collections -/

/-- elements with commas between them, and perhaps one at the end -/
inductive ElementsOf {α : Type} (R : Shape α) (p : Nat) : List Byte → List α → Prop
  | nil : ElementsOf R p [] []
  | last {t x g} : R .flow p 0 none t x → Space p g → ElementsOf R p (t ++ g) [x]
  | more {t x g g' r xs} : R .flow p 0 none t x → Space p g → Space p g' → ElementsOf R p r xs → ElementsOf R p (t ++ (g ++ b%',' :: (g' ++ r))) (x :: xs)

/-- a key, a key and `:`, or a key, `:` and a value; the value may stand next to the `:` if the key is in quotes -/
inductive PairOf {κ α : Type} (K : List Byte → κ → Prop) (R : κ → Shape α) (p : Nat) : List Byte → κ × α → Prop
  | alone {k x y} : K k x → R x .absent p 0 none [] y → PairOf K R p k (x, y)
  | absent {k x g y} : K k x → Space p g → R x .absent p 0 none [] y → PairOf K R p (k ++ (g ++ [b%':'])) (x, y)
  | value {k x g g' t y} : K k x → Space p g → Space p g' → (g' = [] → k.head? = some b%'"' ∨ k.head? = some b%'\'') → R x .flow p 0 none t y →
      PairOf K R p (k ++ (g ++ b%':' :: (g' ++ t))) (x, y)

/-- pairs with commas between them, and perhaps one at the end -/
inductive PairsOf {κ α : Type} (K : List Byte → κ → Prop) (R : κ → Shape α) (p : Nat) : List Byte → List (κ × α) → Prop
  | nil : PairsOf K R p [] []
  | last {t e g} : PairOf K R p t e → Space p g → PairsOf K R p (t ++ g) [e]
  | more {t e g g' r es} : PairOf K R p t e → Space p g → Space p g' → PairsOf K R p r es → PairsOf K R p (t ++ (g ++ b%',' :: (g' ++ r))) (e :: es)

/-- between brackets -/
def InBrackets (p : Nat) (t r : List Byte) : Prop := ∃ g, Space p g ∧ t = b%'[' :: (g ++ (r ++ [b%']']))

/-- between braces -/
def InBraces (p : Nat) (t r : List Byte) : Prop := ∃ g, Space p g ∧ t = b%'{' :: (g ++ (r ++ [b%'}']))

/-- a key of a flow mapping -/
def FlowKey {F : Type} (full : Bool) (fo : FloatOps F) (ofInt : Int → F) (ty : Ty) (p : Nat) (k : List Byte) (v : Val F) : Prop :=
  Element full k ∧ Simple full fo ofInt ty p k v

/-- the name of a field or a variant in a flow mapping -/
def FlowName {F : Type} (full : Bool) (fo : FloatOps F) (p : Nat) (k s : List Byte) : Prop := Element full k ∧ Tall full fo p k (.scalar (.str s))

/-! ## Unknown fields -/

/-- any scalar, or none -/
def AnyScalar {F : Type} (fo : FloatOps F) (s : Spot) (p _n : Nat) (f : Option Nat) (t : List Byte) (_ : Unit) : Prop :=
  (s.scalar false t ∧ f = none ∧ ∃ x, Tall false fo p t x) ∨ (s.scroll ∧ ∃ c v, f = some c ∧ Scroll false p c t v) ∨ (s = .absent ∧ f = none ∧ t = [])

/-- a scalar, a sequence of scalars, or a mapping of such things that is at most `d` deep -/
def Flat {F : Type} (fo : FloatOps F) : Nat → Shape Unit
  | 0 => AnyScalar fo
  | d + 1 => fun s p n f t x => AnyScalar fo s p n f t x ∨ (s.items ∧ ∃ xs, ItemsOf (AnyScalar fo) n f t xs) ∨
      (s = .own ∧ ∃ xs, EntriesOf (fun k (_ : Unit) => ∃ x, Leaf false fo k x) (fun _ => Flat fo d) n f t xs) ∨
      (s.nested ∧ f = none ∧ ∃ r xs, InBrackets p t r ∧ ElementsOf (AnyScalar fo) p r xs) ∨
      (s.nested ∧ f = none ∧ ∃ r xs, InBraces p t r ∧ PairsOf (fun k (_ : Unit) => Element false k ∧ ∃ x, Tall false fo p k x) (fun _ => Flat fo d) p r xs)

/-- the value of an unknown field of a struct -/
def Ignorable {F : Type} (full : Bool) (fo : FloatOps F) (s : Spot) (p n : Nat) (f : Option Nat) (t : List Byte) : Prop :=
  (∃ d, Flat fo d s p n f t ()) ∨ (full = true ∧ s = .own ∧ ∃ x E, Node full fo (.scalar .null) [] p n f t x E) ∨
    (full = true ∧ s = .flow ∧ ∃ k x E, Flow full fo (.scalar .null) p [] k t x E)

/-- the fields that are not left out -/
def foundIn {F : Type} (es : List (List Byte × Option (Val F))) : List (List Byte × Val F) := es.filterMap fun e => e.2.map fun v => (e.1, v)

/-! ## Values -/

/-- entries with strings as keys -/
def FieldsOf {F α : Type} (full : Bool) (fo : FloatOps F) (R : List Byte → Shape α) (s : Spot) (p n : Nat) (f : Option Nat) (t : List Byte) (es : List (List Byte × α)) : Prop :=
  (s = .own ∧ EntriesOf (FieldName full fo) R n f t es) ∨ (s.nested ∧ f = none ∧ ∃ r, InBraces p t r ∧ PairsOf (FlowName full fo p) R p r es)

/-- the fields of a struct, each at most once, and perhaps others -/
def Struct {F : Type} (full : Bool) (fo : FloatOps F) (deny : Bool) (fs : List (List Byte × Ty)) (field : List Byte → Shape (Val F))
    (s : Spot) (p n : Nat) (f : Option Nat) (t : List Byte) (v : Val F) : Prop :=
  ∃ es out, FieldsOf full fo (fun name s p n f t (o : Option (Val F)) => match o with
      | some y => field name s p n f t y
      | none => name ∉ fs.map (·.1) ∧ deny = false ∧ Ignorable full fo s p n f t) s p n f t es ∧
    ((foundIn es).map (·.1)).Nodup ∧ Declared (foundIn es) fs out ∧ v = .record out

mutual
  def Typed {F : Type} (full : Bool) (fo : FloatOps F) (ofInt : Int → F) : Ty → Shape (Val F)
    | .int ty, s, p, _, f, t, v => s.scalar full t ∧ f = none ∧ Simple full fo ofInt (.int ty) p t v
    | .bool, s, p, _, f, t, v => s.scalar full t ∧ f = none ∧ Simple full fo ofInt .bool p t v
    | .float, s, p, _, f, t, v => s.scalar full t ∧ f = none ∧ Simple full fo ofInt .float p t v
    | .str, s, p, _, f, t, v => (s.scalar full t ∧ f = none ∧ Simple full fo ofInt .str p t v) ∨ (s.scroll ∧ ∃ c u, f = some c ∧ Scroll full p c t u ∧ v = .str u)
    | .unit, s, p, _, f, t, v => f = none ∧ ((s.scalar full t ∧ Simple full fo ofInt .unit p t v) ∨ (s = .absent ∧ t = [] ∧ v = .unit))
    | .option ty, s, p, n, f, t, v =>
        (f = none ∧ (s.scalar full t ∧ (t = bs!"null" ∨ full = true ∧ Tall full fo p t (.scalar .null)) ∨ (s = .absent ∧ t = [])) ∧ v = .none) ∨
        (NotNull full fo s p t ∧ ∃ y, Typed full fo ofInt ty s p n f t y ∧ v = .some y)
    | .vec ty, s, p, n, f, t, v => (s.items ∧ ∃ vs, ItemsOf (Typed full fo ofInt ty) n f t vs ∧ v = .vec vs) ∨
        (s.nested ∧ f = none ∧ ∃ r vs, InBrackets p t r ∧ ElementsOf (Typed full fo ofInt ty) p r vs ∧ v = .vec vs)
    | .map k ty, s, p, n, f, t, v => (s = .own ∧ ∃ kvs, EntriesOf (Key full fo ofInt k) (fun _ => Typed full fo ofInt ty) n f t kvs ∧ v = .map kvs) ∨
        (s.nested ∧ f = none ∧ ∃ r kvs, InBraces p t r ∧ PairsOf (FlowKey full fo ofInt k p) (fun _ => Typed full fo ofInt ty) p r kvs ∧ v = .map kvs)
    | .tuple ts, s, p, n, f, t, v => (s.items ∧ ∃ vs, TypedItems full fo ofInt ts n f t vs ∧ v = .tuple vs) ∨
        (s.nested ∧ f = none ∧ ∃ r vs, InBrackets p t r ∧ TypedElements full fo ofInt ts p r vs ∧ v = .tuple vs)
    | .record deny fs, s, p, n, f, t, v => Struct full fo deny fs (fun name s p n f t y => TypedField full fo ofInt name fs s p n f t y) s p n f t v
    | .choice vs, s, p, n, f, t, v => (s.scalar full t ∧ f = none ∧ Simple full fo ofInt (.choice vs) p t v) ∨
        (∃ name y, FieldsOf full fo (fun name s p n f t y => TypedVariant full fo ofInt name vs s p n f t y) s p n f t [(name, y)] ∧ v = .variant name y)
  /-- one item for each type -/
  def TypedItems {F : Type} (full : Bool) (fo : FloatOps F) (ofInt : Int → F) : List Ty → Nat → Option Nat → List Byte → List (Val F) → Prop
    | [], _, _, _, _ => False
    | ty :: ts, n, f, t, vs => ∃ f₀ r v, AfterOf (Typed full fo ofInt ty) n f₀ r v ∧
        ((ts = [] ∧ f = f₀ ∧ t = b%'-' :: r ∧ vs = [v]) ∨
          (ts ≠ [] ∧ ∃ g u rest, Gap f₀ n g ∧ TypedItems full fo ofInt ts n f u rest ∧ t = b%'-' :: r ++ (g ++ u) ∧ vs = v :: rest))
  /-- one element for each type -/
  def TypedElements {F : Type} (full : Bool) (fo : FloatOps F) (ofInt : Int → F) : List Ty → Nat → List Byte → List (Val F) → Prop
    | [], _, r, vs => r = [] ∧ vs = []
    | ty :: ts, p, r, vs => ∃ t g v, Typed full fo ofInt ty .flow p 0 none t v ∧ Space p g ∧
        ((ts = [] ∧ r = t ++ g ∧ vs = [v]) ∨
          ∃ g' u rest, Space p g' ∧ TypedElements full fo ofInt ts p u rest ∧ r = t ++ (g ++ b%',' :: (g' ++ u)) ∧ vs = v :: rest)
  /-- the value of the field `name` -/
  def TypedField {F : Type} (full : Bool) (fo : FloatOps F) (ofInt : Int → F) (name : List Byte) : List (List Byte × Ty) → Shape (Val F)
    | [], _, _, _, _, _, _ => False
    | (x, ty) :: fs, s, p, n, f, t, y => (x = name ∧ Typed full fo ofInt ty s p n f t y) ∨ (x ≠ name ∧ TypedField full fo ofInt name fs s p n f t y)
  /-- the contents of the variant `name` -/
  def TypedVariant {F : Type} (full : Bool) (fo : FloatOps F) (ofInt : Int → F) (name : List Byte) : List (List Byte × Variant) → Shape (Val F)
    | [], _, _, _, _, _, _ => False
    | (x, c) :: vs, s, p, n, f, t, y => (x = name ∧ TypedContents full fo ofInt c s p n f t y) ∨ (x ≠ name ∧ TypedVariant full fo ofInt name vs s p n f t y)
  /-- the contents of a variant -/
  def TypedContents {F : Type} (full : Bool) (fo : FloatOps F) (ofInt : Int → F) : Variant → Shape (Val F)
    | .unit, _, _, _, _, _, _ => False
    | .newtype ty, s, p, n, f, t, v => Typed full fo ofInt ty s p n f t v
    | .tuple ts, s, p, n, f, t, v => (s.items ∧ ∃ vs, TypedItems full fo ofInt ts n f t vs ∧ v = .tuple vs) ∨
        (s.nested ∧ f = none ∧ ∃ r vs, InBrackets p t r ∧ TypedElements full fo ofInt ts p r vs ∧ v = .tuple vs)
    | .struct deny fs, s, p, n, f, t, v => Struct full fo deny fs (fun name s p n f t y => TypedField full fo ofInt name fs s p n f t y) s p n f t v
end

/-- a document of the type, after `---`: nothing, a node on the same line, or a node on a later line -/
inductive TypedExplicit {F : Type} (full : Bool) (fo : FloatOps F) (ofInt : Int → F) (ty : Ty) : Option Nat → List Byte → Val F → Prop
  | absent {v} : Typed full fo ofInt ty .absent 0 0 none [] v → TypedExplicit full fo ofInt ty none bs!"---" v
  | inline {m f t v} : Typed full fo ofInt ty .inline 0 0 f t v → TypedExplicit full fo ofInt ty f (bs!"---" ++ (spaces (m + 1) ++ t)) v
  | under {m g f t v} : Break m g → Typed full fo ofInt ty .own 0 m f t v → TypedExplicit full fo ofInt ty f (bs!"---" ++ (g ++ t)) v

/-- a document of the type, from column `n`: a node, or `---` and a document after it, with or without directives before it -/
inductive TypedDoc {F : Type} (full : Bool) (fo : FloatOps F) (ofInt : Int → F) (ty : Ty) : Nat → Option Nat → List Byte → Val F → Prop
  | bare {n f t v} : Typed full fo ofInt ty .own 0 n f t v → TypedDoc full fo ofInt ty n f t v
  | explicit {f t v} : TypedExplicit full fo ofInt ty f t v → TypedDoc full fo ofInt ty 0 f t v
  | directed {f t ds r v} : Directives t ds → ds ≠ [] → Proper full ds → TypedExplicit full fo ofInt ty f r v → TypedDoc full fo ofInt ty 0 f (t ++ r) v

/-- a text of the type: idle lines, a document, and the end, perhaps after `...` -/
def TypedText {F : Type} (full : Bool) (fo : FloatOps F) (ofInt : Int → F) (ty : Ty) (text : List Byte) (v : Val F) : Prop :=
  ∃ a n f w r, IdleLines a ∧ TypedDoc full fo ofInt ty n f w v ∧ (End full f r ∨ ∃ g b, MarkGap true f g ∧ Tail b ∧ r = g ++ (bs!"..." ++ b)) ∧
    text = a ++ (spaces n ++ (w ++ r)) ∧ text.take 3 ≠ [0xEF, 0xBB, 0xBF]

end Verif.Spec.Block
