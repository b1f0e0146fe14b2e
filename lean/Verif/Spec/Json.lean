import Verif.Spec.Numbers
import Verif.Spec.CoreSchema
import Verif.Spec.Utf8
import Verif.Model.Types
/-!
# Specification: JSON texts and the trees they stand for

The grammar of RFC 8259, with the value beside each rule, written without reference to the scanner, the parser or the loader.

`full = true` is all of JSON. With `full = false` three things are left out, each of which the library gets wrong
(`C46_json_false`): a carriage return as white space that is not followed by a line feed, pairs of `\u` escapes that stand for one
character, and tabs as the only white space between a colon and a number, `true`, `false` or `null`.
-/
namespace Verif.Spec.Json
open Verif

/-- `ws`: spaces, tabs, line feeds and carriage returns -/
inductive Ws (full : Bool) : List Byte → Prop
  | nil : Ws full []
  | space {w} : Ws full w → Ws full (b%' ' :: w)
  | tab {w} : Ws full w → Ws full (b%'\t' :: w)
  | lf {w} : Ws full w → Ws full (b%'\n' :: w)
  | cr {w} : Ws full w → (full = true ∨ w.head? = some b%'\n') → Ws full (b%'\r' :: w)

/-- the escapes of one character -/
def shortEscapes : List (Byte × Byte) :=
  [(b%'"', b%'"'), (b%'\\', b%'\\'), (b%'/', b%'/'), (b%'b', 8), (b%'f', 12), (b%'n', b%'\n'), (b%'r', b%'\r'), (b%'t', b%'\t')]

/-- four hexadecimal digits -/
def Hex4 (h : List Byte) (v : Nat) : Prop := h.length = 4 ∧ Core.IsNumeral 16 h v

/-- `Chars w s`: between quotation marks, `w` stands for the string `s` -/
inductive Chars (full : Bool) : List Byte → List Byte → Prop
  | nil : Chars full [] []
  | raw {b w s} : 32 ≤ b → b ≠ b%'"' → b ≠ b%'\\' → Chars full w s → Chars full (b :: w) (b :: s)
  | short {c v w s} : (c, v) ∈ shortEscapes → Chars full w s → Chars full (b%'\\' :: c :: w) (v :: s)
  | code {h w s} {c : Char} : Hex4 h c.toNat → Chars full w s → Chars full (b%'\\' :: b%'u' :: (h ++ w)) (utf8 [c] ++ s)
  | pair {h1 h2 a b w s} {c : Char} : full = true → Hex4 h1 (0xD800 + a) → Hex4 h2 (0xDC00 + b) → a < 0x400 → b < 0x400 →
      c.toNat = 0x10000 + a * 0x400 + b → Chars full w s →
      Chars full (b%'\\' :: b%'u' :: (h1 ++ (b%'\\' :: b%'u' :: (h2 ++ w)))) (utf8 [c] ++ s)

/-- `int`, without the minus sign: no leading zeros -/
def IntPart (w : List Byte) : Prop := w ≠ [] ∧ Digits w ∧ (w.head? = some b%'0' → w = [b%'0'])

/-- an optional minus sign -/
def sign (minus : Bool) : List Byte := if minus then [b%'-'] else []

/-- `frac`, which may be absent -/
def Frac (w : List Byte) : Prop := w = [] ∨ ∃ d, w = b%'.' :: d ∧ d ≠ [] ∧ Digits d

/-- `exp`, which may be absent -/
def Exp (w : List Byte) : Prop := w = [] ∨ ∃ e sg d, (e = b%'e' ∨ e = b%'E') ∧ (sg = [] ∨ sg = [b%'+'] ∨ sg = [b%'-']) ∧
  d ≠ [] ∧ Digits d ∧ w = e :: (sg ++ d)

/-- a number without fraction and exponent, and its value -/
def Integer (w : List Byte) (v : Int) : Prop := ∃ minus i, IntPart i ∧ w = sign minus ++ i ∧ v = if minus then -(decimal i : Int) else decimal i

/-- any number -/
def Number (w : List Byte) : Prop := ∃ minus i f e, IntPart i ∧ Frac f ∧ Exp e ∧ w = sign minus ++ (i ++ (f ++ e))

/-- only tabs between a colon and a value that is neither a string nor an array nor an object -/
def OnlyTabs (c w : List Byte) : Prop := c ≠ [] ∧ (∀ b ∈ c, b = b%'\t') ∧ ∀ a, w.head? = some a → a ≠ b%'"' ∧ a ≠ b%'[' ∧ a ≠ b%'{'

mutual
  /-- `Value w x`: the text `w` is a JSON value that stands for `x`. Integers that fit 64 bits are integers; for other numbers `fo`
  says which float the text stands for. The members of an object are kept in order. -/
  inductive Value {F : Type} (full : Bool) (fo : FloatOps F) : List Byte → Yaml F → Prop
    | null : Value full fo bs!"null" (.scalar .null)
    | true : Value full fo bs!"true" (.scalar (.bool true))
    | false : Value full fo bs!"false" (.scalar (.bool false))
    | int {w v} : Integer w v → Core.Fits64 v → Value full fo w (.scalar (.int v))
    | float {w f} : Number w → (∀ v, Integer w v → ¬ Core.Fits64 v) → fo.parse w = some f → Value full fo w (.scalar (.float f))
    | string {w s} : Chars full w s → Value full fo (b%'"' :: (w ++ [b%'"'])) (.scalar (.str s))
    | emptyArray {a} : Ws full a → Value full fo (b%'[' :: (a ++ [b%']'])) (.seq [])
    | array {w xs} : Elements full fo w xs → Value full fo (b%'[' :: (w ++ [b%']'])) (.seq xs)
    | emptyObject {a} : Ws full a → Value full fo (b%'{' :: (a ++ [b%'}'])) (.map [])
    | object {w ps} : Members full fo w ps → Value full fo (b%'{' :: (w ++ [b%'}'])) (.map ps)
  /-- values separated by commas -/
  inductive Elements {F : Type} (full : Bool) (fo : FloatOps F) : List Byte → List (Yaml F) → Prop
    | one {a w x b} : Ws full a → Value full fo w x → Ws full b → Elements full fo (a ++ (w ++ b)) [x]
    | more {a w x b r xs} : Ws full a → Value full fo w x → Ws full b → Elements full fo r xs →
        Elements full fo (a ++ (w ++ (b ++ b%',' :: r))) (x :: xs)
  /-- name and value -/
  inductive Member {F : Type} (full : Bool) (fo : FloatOps F) : List Byte → Yaml F × Yaml F → Prop
    | mk {a k s b c w x d} : Ws full a → Chars full k s → Ws full b → Ws full c → Value full fo w x → Ws full d →
        (full = true ∨ ¬ OnlyTabs c w) →
        Member full fo (a ++ (b%'"' :: (k ++ (b%'"' :: (b ++ (b%':' :: (c ++ (w ++ d)))))))) (.scalar (.str s), x)
  /-- members separated by commas -/
  inductive Members {F : Type} (full : Bool) (fo : FloatOps F) : List Byte → List (Yaml F × Yaml F) → Prop
    | one {m p} : Member full fo m p → Members full fo m [p]
    | more {m p r ps} : Member full fo m p → Members full fo r ps → Members full fo (m ++ b%',' :: r) (p :: ps)
end

/-- a JSON text: a value with white space around it -/
def Text {F : Type} (full : Bool) (fo : FloatOps F) (t : List Byte) (x : Yaml F) : Prop :=
  ∃ a w b, Ws full a ∧ Value full fo w x ∧ Ws full b ∧ t = a ++ (w ++ b)

end Verif.Spec.Json
