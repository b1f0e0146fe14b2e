import Verif.Model.Types
/-!
# Specification: how block text is laid out

`Laid b d x t`: `t` is the text of the value `x`, which stands inside `d` collections; `b` is the indentation per level. The text
begins in the middle of a line. Only line breaks, indentation and the indicators `-`, `?`, `:` matter here; the text of scalars and
tags is arbitrary.
-/
namespace Verif.Spec
open Verif

/-- a line break and the indentation of depth `d` -/
def newLine (b d : Nat) : List Byte := b%'\n' :: List.replicate (b * d) b%' '

/-- a sequence or mapping that is not empty -/
def NonEmpty {F} : Yaml F → Prop
  | .seq xs => xs ≠ []
  | .map es => es ≠ []
  | _ => False

mutual
  inductive Laid {F} (b : Nat) : Nat → Yaml F → List Byte → Prop
    /-- anything but a collection with items stands on one line -/
    | line {d x t} : ¬ NonEmpty x → b%'\n' ∉ t → Laid b d x t
    /-- a string in several lines, each indented -/
    | literal {d v head} {ls : List (List Byte)} : b%'\n' ∉ head → (∀ l ∈ ls, b%'\n' ∉ l) →
        Laid b d (.scalar (.str v)) (head ++ ls.flatMap fun l => newLine b d ++ l)
    /-- the node after a tag; if it is a collection with items it begins on a new line -/
    | tagged {d tag x tg t} : ¬ NonEmpty x → b%'\n' ∉ tg → Laid b d x t → Laid b d (.tagged tag x) (tg ++ t)
    | taggedUnder {d tag x tg t} : NonEmpty x → b%'\n' ∉ tg → Laid b d x t → Laid b d (.tagged tag x) (tg ++ (newLine b d ++ t))
    | seq {d xs t} : xs ≠ [] → LaidItems b d xs t → Laid b d (.seq xs) t
    | map {d es t} : es ≠ [] → LaidEntries b d es t → Laid b d (.map es) t
  /-- the items of a sequence that stands inside `d` collections, each on a line of its own with the indentation of depth `d` -/
  inductive LaidItems {F} (b : Nat) : Nat → List (Yaml F) → List Byte → Prop
    | one {d x v} : LaidVal b d x v → LaidItems b d [x] (b%'-' :: v)
    | more {d x v xs t} : LaidVal b d x v → LaidItems b d xs t → LaidItems b d (x :: xs) (b%'-' :: (v ++ (newLine b d ++ t)))
  /-- the entries of a mapping, likewise -/
  inductive LaidEntries {F} (b : Nat) : Nat → List (Yaml F × Yaml F) → List Byte → Prop
    | one {d k v t} : LaidEntry b d k v t → LaidEntries b d [(k, v)] t
    | more {d k v u es t} : LaidEntry b d k v u → LaidEntries b d es t → LaidEntries b d ((k, v) :: es) (u ++ (newLine b d ++ t))
  /-- one entry -/
  inductive LaidEntry {F} (b : Nat) : Nat → Yaml F → Yaml F → List Byte → Prop
    | simple {d k v tk tv} : Laid b (d + 1) k tk → LaidVal b d v tv → LaidEntry b d k v (tk ++ b%':' :: tv)
    | complex {d k v tk tv} : LaidVal b d k tk → LaidVal b d v tv →
        LaidEntry b d k v (b%'?' :: (tk ++ (newLine b d ++ b%':' :: tv)))
  /-- the value after an indicator of a collection inside `d` others: on the same line, or on a new one with the indentation of
  depth `d + 1` -/
  inductive LaidVal {F} (b : Nat) : Nat → Yaml F → List Byte → Prop
    | here {d x t} : Laid b (d + 1) x t → LaidVal b d x (b%' ' :: t)
    | under {d x t} : NonEmpty x → Laid b (d + 1) x t → LaidVal b d x (newLine b (d + 1) ++ t)
end

/-- every line of the text but the first begins with at least `n` spaces -/
def IndentedBy (n : Nat) (t : List Byte) : Prop := ∀ u r, t = u ++ b%'\n' :: r → List.replicate n b%' ' <+: r

/-- no tag contains a line break -/
inductive TagsOnLine {F} : Yaml F → Prop
  | scalar {x} : TagsOnLine (.scalar x)
  | bad : TagsOnLine .bad
  | alias {i} : TagsOnLine (.alias i)
  | seq {xs} : (∀ x ∈ xs, TagsOnLine x) → TagsOnLine (.seq xs)
  | map {es} : (∀ e ∈ es, TagsOnLine e.1) → (∀ e ∈ es, TagsOnLine e.2) → TagsOnLine (.map es)
  | tagged {tag x} : b%'\n' ∉ tag.handle → b%'\n' ∉ tag.suffix → TagsOnLine x → TagsOnLine (.tagged tag x)

end Verif.Spec
