import Verif.Spec.Json
/-!
# Specification: YAML in block style, as people write it

Block sequences and block mappings with any consistent indentation, comments, blank lines, scalars on one or several lines (plain, in
double quotes or in single quotes), block scalars, flow collections, anchors, aliases, tags and directives. The value stands beside each rule.
Written without reference to the scanner, the parser or the loader.

Columns are counted from 0 and are the number of spaces before something on its line. Tabs are not used.

`full = true` is the core schema. With `full = false` some things are left out, which the library gets wrong: integers with a misplaced
sign such as `0x+5`, which are strings (C05), plain scalars with `---` or `...` at the beginning of an indented line (C55), and block
scalars without content or, at the end of the text, with their content far to the right (C56), and block scalars with their content in the
first column before a document marker (C57), and some flow collections (C58): with a plain scalar that ends with a word `-`, with a key and
a value between `[` and `]`, or with a line end between a collection and a `:` without white space after it; also left out, but only because
it is not proved, are plain scalars in flow collections that begin with `:`; tags of the core schema in some forms and places (C59); and more
than one directive other than `%YAML` before a document (C65).
`absent` is the value of a missing node, which ought to be null.
-/
namespace Verif.Spec.Block
open Verif Verif.Spec.Core

/-- `n` spaces -/
def spaces (n : Nat) : List Byte := List.replicate n b%' '

/-! ## Layout -/

/-- `#` and the rest of the line -/
def Comment (w : List Byte) : Prop := ∃ k, w = b%'#' :: k ∧ ∀ b ∈ k, b ≠ b%'\n' ∧ b ≠ b%'\r' ∧ b ≠ 0

/-- the end of a line after something: spaces, and perhaps a comment separated by a space -/
def Eol (w : List Byte) : Prop := (∃ n, w = spaces n) ∨ ∃ n k, Comment k ∧ w = spaces (n + 1) ++ k

/-- a line with nothing but spaces and perhaps a comment -/
def Idle (w : List Byte) : Prop := (∃ n, w = spaces n) ∨ ∃ n k, Comment k ∧ w = spaces n ++ k

/-- any number of idle lines with their line feeds -/
inductive IdleLines : List Byte → Prop
  | nil : IdleLines []
  | cons {l r} : Idle l → IdleLines r → IdleLines (l ++ b%'\n' :: r)

/-- from the end of something to column `n` of a later line -/
def Break (n : Nat) (w : List Byte) : Prop := ∃ e ls, Eol e ∧ IdleLines ls ∧ w = e ++ b%'\n' :: (ls ++ spaces n)

/-- from the end of something to the end of the text -/
def Tail (w : List Byte) : Prop := Eol w ∨ ∃ e ls l, Eol e ∧ IdleLines ls ∧ Idle l ∧ w = e ++ b%'\n' :: (ls ++ l)

/-! ## Scalars -/

/-- no white space and no NUL -/
def Ink (b : Byte) : Prop := b ≠ 0 ∧ b ≠ b%'\t' ∧ b ≠ b%'\n' ∧ b ≠ b%'\r' ∧ b ≠ b%' '

/-- a word of a plain scalar: `#` does not begin it, `:` does not end it -/
structure Word (w : List Byte) : Prop where
  ne : w ≠ []
  ink : ∀ b ∈ w, Ink b
  hash : w.head? ≠ some b%'#'
  colon : w.getLast? ≠ some b%':'

/-- words separated by spaces -/
inductive Words : List Byte → Prop
  | one {w} : Word w → Words w
  | more {w n r} : Word w → Words r → Words (w ++ (spaces (n + 1) ++ r))

/-- `m` lines with nothing but spaces -/
inductive Blanks : Nat → List Byte → Prop
  | nil : Blanks 0 []
  | cons {m k r} : Blanks m r → Blanks (m + 1) (spaces k ++ b%'\n' :: r)

/-- from the end of one line of a scalar, over `m` empty lines, to column `n` of the next -/
def Fold (m n : Nat) (g : List Byte) : Prop := ∃ j ls, Blanks m ls ∧ g = spaces j ++ b%'\n' :: (ls ++ spaces n)

/-- what that stands for: a space, or as many line feeds as there are empty lines -/
def glue (m : Nat) : List Byte := if m = 0 then bs!" " else List.replicate m b%'\n'

/-- does not begin with a document marker, `---` or `...` -/
def NoMark (t : List Byte) : Prop := ∀ m r, (m = bs!"---" ∨ m = bs!"...") → t = m ++ r → ∃ d r', r = d :: r' ∧ Ink d

/-- `PlainLines p t v`: the lines `t` of a plain scalar, of which the second and all later ones begin at column `p` or further right,
stand for `v`. No line in column 0 begins with a document marker; with `full = false`, no line at all. -/
inductive PlainLines (full : Bool) (p : Nat) : List Byte → List Byte → Prop
  | one {t} : Words t → PlainLines full p t t
  | more {t m n g r v} : Words t → Fold m n g → p ≤ n → (full = false ∨ n = 0 → NoMark r) → PlainLines full p r v →
      PlainLines full p (t ++ (g ++ r)) (t ++ (glue m ++ v))

/-- may begin a plain scalar: no indicator (`-`, `?` and `:` may begin it if more of the word follows) and no document marker -/
def Begins (t : List Byte) : Prop :=
  (∃ c r, t = c :: r ∧ c ∉ bs!"[]{},*&!|>'\"%@`" ∧ (c ∈ bs!"-?:" → ∃ d r', r = d :: r' ∧ Ink d)) ∧ NoMark t

/-- begins neither with a space nor with a line feed -/
def Unspaced (w : List Byte) : Prop := w.head? ≠ some b%' ' ∧ w.head? ≠ some b%'\n'

/-- between quotation marks a line begins at column `n` with `w`; `p` is the least column -/
structure Continues (p n : Nat) (w : List Byte) : Prop where
  col : p ≤ n
  head : Unspaced w
  mark : n = 0 → NoMark (w ++ bs!"\"")

/-- the escapes of one character after `\`, with what they stand for -/
def escapes : List (Byte × Char) :=
  [(b%'0', '\x00'), (b%'a', '\x07'), (b%'b', '\x08'), (b%'t', '\t'), (b%'\t', '\t'), (b%'n', '\n'), (b%'v', '\x0b'), (b%'f', '\x0c'), (b%'r', '\r'),
   (b%'e', '\x1b'), (b%' ', ' '), (b%'"', '"'), (b%'/', '/'), (b%'\\', '\\'), (b%'N', '\u0085'), (b%'_', '\u00a0'), (b%'L', '\u2028'), (b%'P', '\u2029')]

/-- the letters of numeric escapes, with the number of hexadecimal digits -/
def codes : List (Byte × Nat) := [(b%'x', 2), (b%'u', 4), (b%'U', 8)]

/-- `Double p w s`: between double quotes, `w` stands for `s`; lines after the first begin at column `p` or further right. Spaces around a
line feed do not count, and one line feed stands for a space, `m + 1` for `m` line feeds; a line feed after `\` for nothing. -/
inductive Double (p : Nat) : List Byte → List Byte → Prop
  | nil : Double p [] []
  | raw {b w s} : b%' ' < b → b ≠ b%'"' → b ≠ b%'\\' → Double p w s → Double p (b :: w) (b :: s)
  | space {n w s} : Unspaced w → Double p w s → Double p (spaces (n + 1) ++ w) (spaces (n + 1) ++ s)
  | short {c ch w s} : (c, ch) ∈ escapes → Double p w s → Double p (b%'\\' :: c :: w) (utf8 [ch] ++ s)
  | code {x k h w s} {c : Char} : (x, k) ∈ codes → h.length = k → IsNumeral 16 h c.toNat → Double p w s → Double p (b%'\\' :: x :: (h ++ w)) (utf8 [c] ++ s)
  | fold {m n g w s} : Fold m n g → Continues p n w → Double p w s → Double p (g ++ w) (glue m ++ s)
  | join {m n ls w s} : Blanks m ls → Continues p n w → Double p w s →
      Double p (b%'\\' :: b%'\n' :: (ls ++ (spaces n ++ w))) (List.replicate m b%'\n' ++ s)

/-- `Single p w s`: between single quotes, `w` stands for `s`; lines after the first begin at column `p` or further right -/
inductive Single (p : Nat) : List Byte → List Byte → Prop
  | nil : Single p [] []
  | raw {b w s} : b%' ' < b → b ≠ b%'\'' → Single p w s → Single p (b :: w) (b :: s)
  | space {n w s} : Unspaced w → Single p w s → Single p (spaces (n + 1) ++ w) (spaces (n + 1) ++ s)
  | quote {w s} : Single p w s → Single p (b%'\'' :: b%'\'' :: w) (b%'\'' :: s)
  | fold {m n g w s} : Fold m n g → Continues p n w → Single p w s → Single p (g ++ w) (glue m ++ s)

/-- the spellings of infinity and not-a-number -/
inductive Special {F : Type} (fo : FloatOps F) : List Byte → F → Prop
  | inf {t} : t ∈ [bs!".inf", bs!".Inf", bs!".INF", bs!"+.inf", bs!"+.Inf", bs!"+.INF"] → Special fo t fo.inf
  | ninf {t} : t ∈ [bs!"-.inf", bs!"-.Inf", bs!"-.INF"] → Special fo t fo.ninf
  | nan {t} : t ∈ [bs!".nan", bs!".NaN", bs!".NAN"] → Special fo t fo.nan

/-- a text with a digit that the float parser `fo` reads -/
def Float {F : Type} (fo : FloatOps F) (t : List Byte) (f : F) : Prop := (∃ c ∈ t, b%'0' ≤ c ∧ c ≤ b%'9') ∧ fo.parse t = some f

/-- the value of a plain scalar in the core schema -/
inductive Resolves {F : Type} (full : Bool) (fo : FloatOps F) : List Byte → Scalar F → Prop
  | null {t} : t ∈ [bs!"~", bs!"null", bs!"Null", bs!"NULL"] → Resolves full fo t .null
  | true {t} : t ∈ [bs!"true", bs!"True", bs!"TRUE"] → Resolves full fo t (.bool true)
  | false {t} : t ∈ [bs!"false", bs!"False", bs!"FALSE"] → Resolves full fo t (.bool false)
  | int {t i} : CoreInt t i → Fits64 i → Resolves full fo t (.int i)
  | special {t f} : Special fo t f → Resolves full fo t (.float f)
  | float {t f} : (∀ i, CoreInt t i → ¬ Fits64 i) → (full = false → ∀ i, SignedTwice t i → ¬ Fits64 i) → Float fo t f → Resolves full fo t (.float f)
  | str {t} : t ∉ [bs!"~", bs!"null", bs!"Null", bs!"NULL"] → t ∉ [bs!"true", bs!"True", bs!"TRUE"] → t ∉ [bs!"false", bs!"False", bs!"FALSE"] →
      (∀ i, CoreInt t i → ¬ Fits64 i) → (full = false → ∀ i, SignedTwice t i → ¬ Fits64 i) → (∀ f, ¬ Special fo t f) → (∀ f, ¬ Float fo t f) →
      Resolves full fo t (.str t)

/-- a scalar, and its value; lines after the first begin at column `p` or further right -/
inductive Tall {F : Type} (full : Bool) (fo : FloatOps F) (p : Nat) : List Byte → Yaml F → Prop
  | plain {t v x} : Begins t → PlainLines full p t v → Resolves full fo v x → Tall full fo p t (.scalar x)
  | double {w s} : Double p w s → Tall full fo p (b%'"' :: (w ++ [b%'"'])) (.scalar (.str s))
  | single {w s} : Single p w s → Tall full fo p (b%'\'' :: (w ++ [b%'\''])) (.scalar (.str s))

/-- a scalar on one line, and its value -/
def Leaf {F : Type} (full : Bool) (fo : FloatOps F) (t : List Byte) (x : Yaml F) : Prop := Tall full fo 0 t x ∧ b%'\n' ∉ t

/-! ## Block scalars -/

/-- `m` lines with at most `c` spaces and nothing else -/
inductive Empties (c : Nat) : Nat → List Byte → Prop
  | nil : Empties c 0 []
  | cons {m k r} : k ≤ c → Empties c m r → Empties c (m + 1) (spaces k ++ b%'\n' :: r)

/-- the same, but each line feed comes before the spaces -/
inductive Trail (c : Nat) : Nat → List Byte → Prop
  | nil : Trail c 0 []
  | cons {m k r} : k ≤ c → Trail c m r → Trail c (m + 1) (b%'\n' :: (spaces k ++ r))

/-- what stands at column `c` of a line of content, and to the right -/
structure Row (c : Nat) (l : List Byte) : Prop where
  ne : l ≠ []
  line : ∀ b ∈ l, b ≠ b%'\n' ∧ b ≠ b%'\r'
  mark : c = 0 → NoMark l

/-- begins with white space -/
def spaced (l : List Byte) : Bool := l.head? = some b%' ' ∨ l.head? = some b%'\t'

/-- what `m` empty lines between the lines `l` and `l'` stand for -/
def joint (folded : Bool) (l l' : List Byte) (m : Nat) : List Byte :=
  if folded && !spaced l && !spaced l' then glue m else List.replicate (m + 1) b%'\n'

/-- `Rows folded c l t v`: the lines `t`, of which `l` is the first, with their content at column `c`, stand for `v` -/
inductive Rows (folded : Bool) (c : Nat) : List Byte → List Byte → List Byte → Prop
  | one {l} : Row c l → Rows folded c l l l
  | more {l m e l' t v} : Row c l → Empties c m e → Rows folded c l' t v →
      Rows folded c l (l ++ b%'\n' :: (e ++ (spaces c ++ t))) (l ++ (joint folded l l' m ++ v))

/-- what is done about the line ends after the last line -/
inductive Chomp
  | strip | clip | keep
  deriving DecidableEq

/-- the indicator in the header -/
def Chomp.sign : Chomp → List Byte
  | .strip => bs!"-"
  | .clip => []
  | .keep => bs!"+"

/-- the line ends that stay: after the last line come `m` empty lines -/
def Chomp.rest (m : Nat) : Chomp → List Byte
  | .strip => []
  | .clip => bs!"\n"
  | .keep => List.replicate (m + 1) b%'\n'

/-- the digit in the header -/
inductive Digit : Option Nat → List Byte → Prop
  | none : Digit none []
  | some {d} : 1 ≤ d → d ≤ 9 → Digit (some d) [b%'0' + d]

/-- the header of a block scalar after `|` or `>` -/
def Header (ch : Chomp) (d : Option Nat) (h : List Byte) : Prop := ∃ t, Digit d t ∧ (h = ch.sign ++ t ∨ h = t ++ ch.sign)

/-- where the content begins: at the first byte that is not a space, or at the column that the digit names, counted from the column of the
collection around it, which is `p - 1` -/
def At (p c : Nat) (l : List Byte) : Option Nat → Prop
  | none => p ≤ c ∧ l.head? ≠ some b%' '
  | some d => c + 1 = p + d

/-- `Scroll p c t v`: `t` is a block scalar up to the line feed of its last line, with its content at column `c`, and stands for `v` -/
inductive Scroll (full : Bool) (p : Nat) : Nat → List Byte → List Byte → Prop
  | mk {folded ch d h o c m₀ e₀ l t v m e} : Header ch d h → Eol o → Empties c m₀ e₀ → Rows folded c l t v → Trail c m e → At p c l d →
      (c = 0 → l.head? ≠ some b%'\t') →
      Scroll full p c ((if folded then b%'>' else b%'|') :: (h ++ (o ++ b%'\n' :: (e₀ ++ (spaces c ++ (t ++ e)))))) (List.replicate m₀ b%'\n' ++ (v ++ ch.rest m))
  | empty {folded : Bool} {ch d h o m e} : full = true → Header ch d h → Eol o → Trail p m e →
      Scroll full p p ((if folded then b%'>' else b%'|') :: (h ++ (o ++ e))) (if ch = .keep then List.replicate m b%'\n' else [])

/-- From the end of a node to column `n` of a later line. After a block scalar with its content at column `c`, this is the line feed of its
last line; a comment has to be to the left of the content. -/
def Gap : Option Nat → Nat → List Byte → Prop
  | none, n, g => Break n g
  | some c, n, g => (n < c ∧ g = b%'\n' :: spaces n) ∨
      ∃ k cm ls, k < c ∧ Comment cm ∧ IdleLines ls ∧ g = b%'\n' :: (spaces k ++ (cm ++ b%'\n' :: (ls ++ spaces n)))

/-- from the end of a node to the end of the text -/
def End (full : Bool) : Option Nat → List Byte → Prop
  | none, b => Tail b
  | some c, b => (∃ k, k ≤ c ∧ (full = false → c < 125) ∧ b = b%'\n' :: spaces k) ∨
      ∃ k cm, k < c ∧ Comment cm ∧ (b = b%'\n' :: (spaces k ++ cm) ∨ ∃ ls l, IdleLines ls ∧ Idle l ∧ b = b%'\n' :: (spaces k ++ (cm ++ b%'\n' :: (ls ++ l))))

/-! ## Anchors, aliases and tags -/

/-- The anchors so far, in the order of the text, each with the value of its node, or `none` while that is not finished. -/
abbrev Names (F : Type) := List (List Byte × Option (Yaml F))

/-- the last anchor with the name `a` is on a node that is finished and stands for `x` -/
def Known {F : Type} (E : Names F) (a : List Byte) (x : Yaml F) : Prop := ∃ E₁ E₂, E = E₁ ++ (a, some x) :: E₂ ∧ ∀ e ∈ E₂, e.1 ≠ a

/-- the anchors when the content of a node begins -/
def opened {F : Type} (E : Names F) : Option (List Byte) → Names F
  | none => E
  | some a => E ++ [(a, none)]

/-- `Closed E a y E₁ E₂`: a node began after the anchors `E`, perhaps with an anchor `a`, and stands for `y`; if the anchors were `E₁` at its
end, they are `E₂` once it is finished -/
inductive Closed {F : Type} (E : Names F) : Option (List Byte) → Yaml F → Names F → Names F → Prop
  | none {y E'} : Closed E none y E' E'
  | some {a y I} : Closed E (some a) y (E ++ (a, none) :: I) (E ++ (a, some y) :: I)

/-- the name of an anchor: no white space and no `,`, `[`, `]`, `{` or `}` -/
def Name (a : List Byte) : Prop := a ≠ [] ∧ ∀ b ∈ a, Ink b ∧ b ∉ bs!",[]{}"

/-- letters, digits and punctuation of URIs that stand for themselves in a tag: not `!`, `%`, `,`, `[` or `]` -/
def UriByte (b : Byte) : Prop := (48 ≤ b ∧ b ≤ 57) ∨ (65 ≤ b ∧ b ≤ 90) ∨ (97 ≤ b ∧ b ≤ 122) ∨ b ∈ bs!"-#;/?:@&=+$_.~*'()"

/-- where the tags of the core schema belong -/
def coreTags : List Byte := bs!"tag:yaml.org,2002:"

/-- The handles that `%TAG` directives declare for a document, with their prefixes. -/
class Handles where
  lookup : List Byte → Option (List Byte)

/-- Without such directives no handle is declared. This is meant wherever nothing else is said. -/
instance (priority := low) noHandles : Handles := ⟨fun _ => none⟩

/-- the prefix a handle stands for: the declared one, or otherwise the default -/
def prefixOf [Handles] (h default : List Byte) : List Byte := (Handles.lookup h).getD default

/-- a letter or digit in the name of a handle, or `-` or `_` -/
def HandleByte (b : Byte) : Prop := (48 ≤ b ∧ b ≤ 57) ∨ (65 ≤ b ∧ b ≤ 90) ∨ (97 ≤ b ∧ b ≤ 122) ∨ b = b%'-' ∨ b = b%'_'

/-- A tag: `!s`, `!!s`, `!h!s` with a declared handle `!h!`, or `!<s>`. It is a pair of a prefix and a suffix; the prefix is empty if the tag is
written in full. With `full = false`, a tag that is written in full is not one of the core schema. -/
inductive TagText [Handles] (full : Bool) : List Byte → Tag → Prop
  | primary {s} : s ≠ [] → (∀ b ∈ s, UriByte b) → TagText full (b%'!' :: s) ⟨prefixOf bs!"!" bs!"!", s⟩
  | secondary {s} : s ≠ [] → (∀ b ∈ s, UriByte b) → TagText full (b%'!' :: b%'!' :: s) ⟨prefixOf bs!"!!" coreTags, s⟩
  | named {h s p} : h ≠ [] → (∀ b ∈ h, HandleByte b) → Handles.lookup (b%'!' :: (h ++ bs!"!")) = some p → s ≠ [] → (∀ b ∈ s, UriByte b) →
      TagText full (b%'!' :: (h ++ b%'!' :: s)) ⟨p, s⟩
  | verbatim {s} : s ≠ [] → (∀ b ∈ s, UriByte b ∨ b = b%',' ∨ b = b%'!') → (∀ r, s ≠ coreTags ++ r) → TagText full (b%'!' :: b%'<' :: (s ++ [b%'>'])) ⟨[], s⟩
  | verbatimCore {s} : full = true → s ≠ [] → (∀ b ∈ s, UriByte b) → TagText full (b%'!' :: b%'<' :: (coreTags ++ (s ++ [b%'>']))) ⟨coreTags, s⟩

/-- what may come before a node: an anchor, a tag, or both -/
inductive Label [Handles] (full : Bool) : List Byte → Option (List Byte) → Option Tag → Prop
  | anchor {a} : Name a → Label full (b%'&' :: a) (some a) none
  | tag {w t} : TagText full w t → Label full w none (some t)
  | anchorTag {a n w t} : Name a → TagText full w t → Label full (b%'&' :: (a ++ (spaces (n + 1) ++ w))) (some a) (some t)
  | tagAnchor {a n w t} : Name a → TagText full w t → Label full (w ++ (spaces (n + 1) ++ b%'&' :: a)) (some a) (some t)

/-- an integer in decimal notation -/
def Decimal (t : List Byte) (i : Int) : Prop :=
  ∃ d, ∃ n : Nat, IsNumeral 10 d n ∧ ((t = d ∧ i = n) ∨ (t = b%'+' :: d ∧ i = n) ∨ (t = b%'-' :: d ∧ i = -(n : Int)))

/-- `Reads tg v x`: the text `v` of a plain scalar stands for `x` if its tag is `tg`. A tag that is not of the core schema is kept. With `full =
false`, integers are in decimal notation, and `true`, `false` and `null` in lower case, after a tag of the core schema. -/
inductive Reads {F : Type} (full : Bool) (fo : FloatOps F) : Option Tag → List Byte → Yaml F → Prop
  | untagged {v x} : Resolves full fo v x → Reads full fo none v (.scalar x)
  | custom {tg v x} : tg.handle ≠ coreTags → Resolves full fo v x → Reads full fo (some tg) v (.tagged tg (.scalar x))
  | str {v} : Reads full fo (some ⟨coreTags, bs!"str"⟩) v (.scalar (.str v))
  | int {v i} : CoreInt v i → Fits64 i → (full = false → Decimal v i) → Reads full fo (some ⟨coreTags, bs!"int"⟩) v (.scalar (.int i))
  | special {v f} : Special fo v f → Reads full fo (some ⟨coreTags, bs!"float"⟩) v (.scalar (.float f))
  | float {v f} : Float fo v f → Reads full fo (some ⟨coreTags, bs!"float"⟩) v (.scalar (.float f))
  | true {v} : v ∈ [bs!"true", bs!"True", bs!"TRUE"] → (full = false → v = bs!"true") → Reads full fo (some ⟨coreTags, bs!"bool"⟩) v (.scalar (.bool true))
  | false {v} : v ∈ [bs!"false", bs!"False", bs!"FALSE"] → (full = false → v = bs!"false") →
      Reads full fo (some ⟨coreTags, bs!"bool"⟩) v (.scalar (.bool false))
  | null {v} : v ∈ [bs!"~", bs!"null", bs!"Null", bs!"NULL"] → (full = false → v = bs!"~" ∨ v = bs!"null") →
      Reads full fo (some ⟨coreTags, bs!"null"⟩) v (.scalar .null)

/-- the same for a quoted scalar or a block scalar; with `full = false`, `!!str` is the only tag of the core schema -/
inductive Quoted {F : Type} (full : Bool) (fo : FloatOps F) : Option Tag → List Byte → Yaml F → Prop
  | untagged {v} : Quoted full fo none v (.scalar (.str v))
  | custom {tg v} : tg.handle ≠ coreTags → Quoted full fo (some tg) v (.tagged tg (.scalar (.str v)))
  | str {v} : Quoted full fo (some ⟨coreTags, bs!"str"⟩) v (.scalar (.str v))
  | core {s v x} : full = true → Reads full fo (some ⟨coreTags, s⟩) v x → Quoted full fo (some ⟨coreTags, s⟩) v x

/-- the same for a collection -/
inductive Wrap {F : Type} : Option Tag → Yaml F → Yaml F → Prop
  | untagged {x} : Wrap none x x
  | custom {tg x} : tg.handle ≠ coreTags → Wrap (some tg) x (.tagged tg x)
  | seq {xs} : Wrap (some ⟨coreTags, bs!"seq"⟩) (.seq xs) (.seq xs)
  | map {es} : Wrap (some ⟨coreTags, bs!"map"⟩) (.map es) (.map es)

/-- the same for a missing node: it has no tag, or `!!str`, or one that is not of the core schema -/
inductive Missing {F : Type} (absent : Yaml F) : Option Tag → Yaml F → Prop
  | untagged : Missing absent none absent
  | custom {tg} : tg.handle ≠ coreTags → Missing absent (some tg) (.tagged tg absent)
  | str : Missing absent (some ⟨coreTags, bs!"str"⟩) (.scalar (.str []))

/-- a scalar with the tag `tg`, and its value; lines after the first begin at column `p` or further right -/
inductive TallAs {F : Type} (full : Bool) (fo : FloatOps F) (p : Nat) : Option Tag → List Byte → Yaml F → Prop
  | plain {tg t v x} : Begins t → PlainLines full p t v → Reads full fo tg v x → TallAs full fo p tg t x
  | double {tg w s x} : Double p w s → Quoted full fo tg s x → TallAs full fo p tg (b%'"' :: (w ++ [b%'"'])) x
  | single {tg w s x} : Single p w s → Quoted full fo tg s x → TallAs full fo p tg (b%'\'' :: (w ++ [b%'\''])) x

/-- With `full = false`, a key has no tag that is kept. (`bad` is not the value of any text.) -/
def KeyOk {F : Type} (full : Bool) (x : Yaml F) : Prop := full = false → x ≠ .bad ∧ ∀ t y, x ≠ .tagged t y

/-! ## Flow collections -/

/-- between the tokens of a flow collection: spaces, or more, up to column `p` or further right on a later line -/
def Space (p : Nat) (g : List Byte) : Prop := (∃ n, g = spaces n) ∨ ∃ n, p ≤ n ∧ Break n g

/-- the kinds of nodes in a flow collection; `mark` is an alias, or a label without a node -/
inductive Kind
  | plain | quoted | nested | mark
  deriving DecidableEq

/-- the last of several words is `-` -/
def Dashed (t : List Byte) : Prop := ∃ r, t = r ++ bs!" -" ∨ t = r ++ bs!"\n-"

mutual
  /-- `FlowBody p E tg k t x E'`: the text `t` of a node of kind `k`, in a flow collection or itself a flow collection, stands for `x` if its
  tag is `tg`; lines after the first begin at column `p` or further right; `E` are the anchors before it and `E'` those at its end. Plain
  scalars have no `,`, `[`, `]`, `{` or `}` in them. -/
  inductive FlowBody [Handles] {F : Type} (full : Bool) (fo : FloatOps F) (absent : Yaml F) (p : Nat) : Names F → Option Tag → Kind → List Byte → Yaml F → Names F → Prop
    | plain {E tg t v x} : Begins t → PlainLines full p t v → (∀ b ∈ t, b ∉ bs!",[]{}") → (full = false → t.head? ≠ some b%':' ∧ ¬ Dashed t) →
        Reads full fo tg v x → FlowBody full fo absent p E tg .plain t x E
    | double {E tg w s x} : Double p w s → Quoted full fo tg s x → FlowBody full fo absent p E tg .quoted (b%'"' :: (w ++ [b%'"'])) x E
    | single {E tg w s x} : Single p w s → Quoted full fo tg s x → FlowBody full fo absent p E tg .quoted (b%'\'' :: (w ++ [b%'\''])) x E
    | seq {E E' tg g r xs x} : Space p g → FlowItems full fo absent p E r xs E' → Wrap tg (.seq xs) x →
        FlowBody full fo absent p E tg .nested (b%'[' :: (g ++ (r ++ [b%']']))) x E'
    | map {E E' tg g r es x} : Space p g → FlowEntries full fo absent p E r es E' → Wrap tg (.map es) x →
        FlowBody full fo absent p E tg .nested (b%'{' :: (g ++ (r ++ [b%'}']))) x E'
  /-- a node in a flow collection: with or without a label, an alias, or nothing but a label -/
  inductive Flow [Handles] {F : Type} (full : Bool) (fo : FloatOps F) (absent : Yaml F) (p : Nat) : Names F → Kind → List Byte → Yaml F → Names F → Prop
    | body {E k t x E'} : FlowBody full fo absent p E none k t x E' → Flow full fo absent p E k t x E'
    | alias {E a x} : Name a → Known E a x → Flow full fo absent p E .mark (b%'*' :: a) x E
    | missing {E l a tg y E'} : Label full l a tg → Missing absent tg y → Closed E a y (opened E a) E' → Flow full fo absent p E .mark l y E'
    | labelled {E l a tg g k t y E₁ E'} : Label full l a tg → Space p g → g ≠ [] → FlowBody full fo absent p (opened E a) tg k t y E₁ → Closed E a y E₁ E' →
        Flow full fo absent p E k (l ++ (g ++ t)) y E'
  /-- what stands between `[` and `]`: items with commas between them, and perhaps one at the end -/
  inductive FlowItems [Handles] {F : Type} (full : Bool) (fo : FloatOps F) (absent : Yaml F) (p : Nat) : Names F → List Byte → List (Yaml F) → Names F → Prop
    | nil {E} : FlowItems full fo absent p E [] [] E
    | last {E E' t x g} : FlowItem full fo absent p E t x E' → Space p g → FlowItems full fo absent p E (t ++ g) [x] E'
    | more {E E₁ E' t x g g' r xs} : FlowItem full fo absent p E t x E₁ → Space p g → Space p g' → FlowItems full fo absent p E₁ r xs E' →
        FlowItems full fo absent p E (t ++ (g ++ b%',' :: (g' ++ r))) (x :: xs) E'
  /-- a node; or a key and a value on one line, which are a mapping with one entry -/
  inductive FlowItem [Handles] {F : Type} (full : Bool) (fo : FloatOps F) (absent : Yaml F) (p : Nat) : Names F → List Byte → Yaml F → Names F → Prop
    | node {E E' k t x} : Flow full fo absent p E k t x E' → FlowItem full fo absent p E t x E'
    | pair {E E' t e} : full = true → FlowPair full fo absent p E t e E' → b%'\n' ∉ t → t.length ≤ 1024 → FlowItem full fo absent p E t (.map [e]) E'
  /-- what stands between `{` and `}` -/
  inductive FlowEntries [Handles] {F : Type} (full : Bool) (fo : FloatOps F) (absent : Yaml F) (p : Nat) :
      Names F → List Byte → List (Yaml F × Yaml F) → Names F → Prop
    | nil {E} : FlowEntries full fo absent p E [] [] E
    | last {E E' t e g} : FlowEntry full fo absent p E t e E' → Space p g → FlowEntries full fo absent p E (t ++ g) [e] E'
    | more {E E₁ E' t e g g' r es} : FlowEntry full fo absent p E t e E₁ → Space p g → Space p g' → FlowEntries full fo absent p E₁ r es E' →
        FlowEntries full fo absent p E (t ++ (g ++ b%',' :: (g' ++ r))) (e :: es) E'
  /-- a key alone, or with `:` and perhaps a value -/
  inductive FlowEntry [Handles] {F : Type} (full : Bool) (fo : FloatOps F) (absent : Yaml F) (p : Nat) : Names F → List Byte → Yaml F × Yaml F → Names F → Prop
    | alone {E E' k t x} : Flow full fo absent p E k t x E' → KeyOk full x → FlowEntry full fo absent p E t (x, absent) E'
    | pair {E E' t e} : FlowPair full fo absent p E t e E' → FlowEntry full fo absent p E t e E'
  /-- A key, `:`, and perhaps a value. White space comes before the `:` if it could belong to a name or a tag. The value comes directly after `:`
  only if the key is in quotes or a collection. With `full = false`, no line ends between a collection and the `:`, then. -/
  inductive FlowPair [Handles] {F : Type} (full : Bool) (fo : FloatOps F) (absent : Yaml F) (p : Nat) : Names F → List Byte → Yaml F × Yaml F → Names F → Prop
    | absent {E E' k t x g} : Flow full fo absent p E k t x E' → KeyOk full x → Space p g → (k = .mark → g ≠ []) →
        FlowPair full fo absent p E (t ++ (g ++ [b%':'])) (x, absent) E'
    | value {E E₁ E' k t x g g' k' t' y} : Flow full fo absent p E k t x E₁ → KeyOk full x → Space p g → (k = .mark → g ≠ []) → Space p g' →
        (g' = [] → (k = .quoted ∨ k = .nested) ∧ (full = false → k = .nested → b%'\n' ∉ g)) → Flow full fo absent p E₁ k' t' y E' →
        FlowPair full fo absent p E (t ++ (g ++ b%':' :: (g' ++ t'))) (x, y) E'
end

/-! ## Collections -/

mutual
  /-- `Bare E p tg f t x E'`: the text `t` of a scalar or a flow collection stands for `x` if its tag is `tg`; `p` is the least column for the lines of
  the node; `f` is the column of its content if it is a block scalar; `E` are the anchors before it and `E'` those at its end -/
  inductive Bare [Handles] {F : Type} (full : Bool) (fo : FloatOps F) (absent : Yaml F) : Names F → Nat → Option Tag → Option Nat → List Byte → Yaml F → Names F → Prop
    | leaf {E p tg t x} : TallAs full fo p tg t x → Bare full fo absent E p tg none t x E
    | block {E p tg c t v x} : Scroll full p c t v → Quoted full fo tg v x → Bare full fo absent E p tg (some c) t x E
    | flow {E E' p tg t x} : FlowBody full fo absent p E tg .nested t x E' → Bare full fo absent E p tg none t x E'
  /-- the same, for what may come on a line of its own: also a block collection; the text begins at column `n` -/
  inductive Body [Handles] {F : Type} (full : Bool) (fo : FloatOps F) (absent : Yaml F) : Names F → Nat → Nat → Option Tag → Option Nat → List Byte → Yaml F → Names F → Prop
    | bare {E E' p n tg f t x} : Bare full fo absent E p tg f t x E' → Body full fo absent E p n tg f t x E'
    | seq {E E' p n tg f t xs x} : Items full fo absent E n f t xs E' → Wrap tg (.seq xs) x → Body full fo absent E p n tg f t x E'
    | map {E E' p n tg f t es x} : Entries full fo absent E n f t es E' → Wrap tg (.map es) x → Body full fo absent E p n tg f t x E'
  /-- an alias, nothing but a label, or a label with a node on the same line or on a later line -/
  inductive Marked [Handles] {F : Type} (full : Bool) (fo : FloatOps F) (absent : Yaml F) : Names F → Nat → Option Nat → List Byte → Yaml F → Names F → Prop
    | alias {E p a x} : Name a → Known E a x → Marked full fo absent E p none (b%'*' :: a) x E
    | missing {E p l a tg y E'} : Label full l a tg → Missing absent tg y → Closed E a y (opened E a) E' → Marked full fo absent E p none l y E'
    | inline {E p l a tg m f t y E₁ E'} : Label full l a tg → Bare full fo absent (opened E a) p tg f t y E₁ → Closed E a y E₁ E' →
        Marked full fo absent E p f (l ++ (spaces (m + 1) ++ t)) y E'
    | under {E p l a tg m g f t y E₁ E'} : Label full l a tg → Break m g → p ≤ m → Body full fo absent (opened E a) p m tg f t y E₁ → Closed E a y E₁ E' →
        Marked full fo absent E p f (l ++ (g ++ t)) y E'
  /-- `Node E p n f t x E'`: the text `t`, beginning at column `n`, stands for `x`; `f` is the column of the content of the block scalar it ends with,
  if it does -/
  inductive Node [Handles] {F : Type} (full : Bool) (fo : FloatOps F) (absent : Yaml F) : Names F → Nat → Nat → Option Nat → List Byte → Yaml F → Names F → Prop
    | body {E E' p n f t x} : Body full fo absent E p n none f t x E' → Node full fo absent E p n f t x E'
    | marked {E E' p n f t x} : Marked full fo absent E p f t x E' → Node full fo absent E p n f t x E'
  /-- items below each other -/
  inductive Items [Handles] {F : Type} (full : Bool) (fo : FloatOps F) (absent : Yaml F) : Names F → Nat → Option Nat → List Byte → List (Yaml F) → Names F → Prop
    | one {E E' n f t x} : Item full fo absent E n f t x E' → Items full fo absent E n f t [x] E'
    | more {E E₁ E' n f₀ f t x g r xs} : Item full fo absent E n f₀ t x E₁ → Gap f₀ n g → Items full fo absent E₁ n f r xs E' →
        Items full fo absent E n f (t ++ (g ++ r)) (x :: xs) E'
  /-- `-` and what comes after it -/
  inductive Item [Handles] {F : Type} (full : Bool) (fo : FloatOps F) (absent : Yaml F) : Names F → Nat → Option Nat → List Byte → Yaml F → Names F → Prop
    | dash {E E' n f r x} : After full fo absent E n f r x E' → Item full fo absent E n f (b%'-' :: r) x E'
  /-- after an indicator at column `n`: nothing, a node on the same line, or a node further right on a later line -/
  inductive After [Handles] {F : Type} (full : Bool) (fo : FloatOps F) (absent : Yaml F) : Names F → Nat → Option Nat → List Byte → Yaml F → Names F → Prop
    | absent {E n} : After full fo absent E n none [] absent E
    | inline {E E' n f m t x} : Node full fo absent E (n + 1) (n + 2 + m) f t x E' → After full fo absent E n f (spaces (m + 1) ++ t) x E'
    | under {E E' n f m g t x} : Break m g → n < m → Node full fo absent E (n + 1) m f t x E' → After full fo absent E n f (g ++ t) x E'
  /-- after `?`, or after a `:` that begins a line: the same, or a sequence in the same column on a later line -/
  inductive Side [Handles] {F : Type} (full : Bool) (fo : FloatOps F) (absent : Yaml F) : Names F → Nat → Option Nat → List Byte → Yaml F → Names F → Prop
    | after {E E' n f r x} : After full fo absent E n f r x E' → Side full fo absent E n f r x E'
    | beside {E E' n f g t vs} : Break n g → Items full fo absent E n f t vs E' → Side full fo absent E n f (g ++ t) (.seq vs) E'
    | labelled {E n f m l a tg g t vs y E₁ E'} : Label full l a tg → Break n g → Items full fo absent (opened E a) n f t vs E₁ →
        Wrap tg (.seq vs) y → Closed E a y E₁ E' → Side full fo absent E n f (spaces (m + 1) ++ (l ++ (g ++ t))) y E'
  /-- entries below each other -/
  inductive Entries [Handles] {F : Type} (full : Bool) (fo : FloatOps F) (absent : Yaml F) :
      Names F → Nat → Option Nat → List Byte → List (Yaml F × Yaml F) → Names F → Prop
    | one {E E' n f t e} : Entry full fo absent E n f t e E' → Entries full fo absent E n f t [e] E'
    | more {E E₁ E' n f₀ f t e g r es} : Entry full fo absent E n f₀ t e E₁ → Gap f₀ n g → Entries full fo absent E₁ n f r es E' →
        Entries full fo absent E n f (t ++ (g ++ r)) (e :: es) E'
  /-- A key, `:`, and after it nothing, a scalar, a flow collection, an alias or a label on the same line, a node further right on a later line, or a
  sequence in the same column on a later line. Such keys have at most 1024 bytes. Or `?` and any key, and perhaps, on a later line, `:` and any value.
  With `full = false`, something comes after a `?` that has no `:`. -/
  inductive Entry [Handles] {F : Type} (full : Bool) (fo : FloatOps F) (absent : Yaml F) : Names F → Nat → Option Nat → List Byte → Yaml F × Yaml F → Names F → Prop
    | absent {E n k j x} : Leaf full fo k x → k.length + j ≤ 1024 → Entry full fo absent E n none (k ++ (spaces j ++ [b%':'])) (x, absent) E
    | bare {E E' n f k j x m t v} : Leaf full fo k x → k.length + j ≤ 1024 → Bare full fo absent E (n + 1) none f t v E' →
        Entry full fo absent E n f (k ++ (spaces j ++ b%':' :: (spaces (m + 1) ++ t))) (x, v) E'
    | marked {E E' n f k j x m t v} : Leaf full fo k x → k.length + j ≤ 1024 → Marked full fo absent E (n + 1) f t v E' →
        Entry full fo absent E n f (k ++ (spaces j ++ b%':' :: (spaces (m + 1) ++ t))) (x, v) E'
    | under {E E' n f k j x g m t v} : Leaf full fo k x → k.length + j ≤ 1024 → Break m g → n < m → Node full fo absent E (n + 1) m f t v E' →
        Entry full fo absent E n f (k ++ (spaces j ++ b%':' :: (g ++ t))) (x, v) E'
    | beside {E E' n f k j x g t vs} : Leaf full fo k x → k.length + j ≤ 1024 → Break n g → Items full fo absent E n f t vs E' →
        Entry full fo absent E n f (k ++ (spaces j ++ b%':' :: (g ++ t))) (x, .seq vs) E'
    | labelled {E n f k j x m l a tg g t vs y E₁ E'} : Leaf full fo k x → k.length + j ≤ 1024 → Label full l a tg → Break n g →
        Items full fo absent (opened E a) n f t vs E₁ → Wrap tg (.seq vs) y → Closed E a y E₁ E' →
        Entry full fo absent E n f (k ++ (spaces j ++ b%':' :: (spaces (m + 1) ++ (l ++ (g ++ t))))) (x, y) E'
    | explicit {E E₁ E' n f₀ f r x g r' y} : Side full fo absent E n f₀ r x E₁ → KeyOk full x → Gap f₀ n g → Side full fo absent E₁ n f r' y E' →
        Entry full fo absent E n f (b%'?' :: (r ++ (g ++ b%':' :: r'))) (x, y) E'
    | explicitAlone {E E' n f r x} : Side full fo absent E n f r x E' → KeyOk full x → (full = false → r ≠ []) →
        Entry full fo absent E n f (b%'?' :: r) (x, absent) E'
end

/-- a text with one document: a node, idle lines before it, and anything idle after it; it does not begin with a byte order mark -/
def Text {F : Type} (full : Bool) (fo : FloatOps F) (absent : Yaml F) (t : List Byte) (x : Yaml F) : Prop :=
  ∃ a n f w b E, IdleLines a ∧ Node full fo absent [] 0 n f w x E ∧ End full f b ∧ t = a ++ (spaces n ++ (w ++ b)) ∧ t.take 3 ≠ [0xEF, 0xBB, 0xBF]

/-! ### Nodes without labels -/

theorem Item.absent [Handles] {F : Type} {full : Bool} {fo : FloatOps F} {a : Yaml F} {E : Names F} {n} : Item full fo a E n none bs!"-" a E := .dash .absent

section
variable [Handles] {F : Type} {full : Bool} {fo : FloatOps F} {absent : Yaml F} {E E' : Names F}

omit [Handles] in
theorem Tall.as {p t x} (h : Tall full fo p t x) : TallAs full fo p none t x := by
  cases h with
  | plain h1 h2 h3 => exact .plain h1 h2 (.untagged h3)
  | double h => exact .double h .untagged
  | single h => exact .single h .untagged

theorem Flow.plain {p t v x} (h1 : Begins t) (h2 : PlainLines full p t v) (h3 : ∀ b ∈ t, b ∉ bs!",[]{}") (h4 : full = false → t.head? ≠ some b%':' ∧ ¬ Dashed t)
    (h5 : Resolves full fo v x) : Flow full fo absent p E .plain t (.scalar x) E := .body (.plain h1 h2 h3 h4 (.untagged h5))

theorem Flow.double {p w s} (h : Double p w s) : Flow full fo absent p E .quoted (b%'"' :: (w ++ [b%'"'])) (.scalar (.str s)) E := .body (.double h .untagged)

theorem Flow.single {p w s} (h : Single p w s) : Flow full fo absent p E .quoted (b%'\'' :: (w ++ [b%'\''])) (.scalar (.str s)) E := .body (.single h .untagged)

theorem Flow.seq {p g r xs} (hg : Space p g) (h : FlowItems full fo absent p E r xs E') : Flow full fo absent p E .nested (b%'[' :: (g ++ (r ++ [b%']']))) (.seq xs) E' :=
  .body (.seq hg h .untagged)

theorem Flow.map {p g r es} (hg : Space p g) (h : FlowEntries full fo absent p E r es E') : Flow full fo absent p E .nested (b%'{' :: (g ++ (r ++ [b%'}']))) (.map es) E' :=
  .body (.map hg h .untagged)

theorem Node.leaf {p n t x} (h : Tall full fo p t x) : Node full fo absent E p n none t x E := .body (.bare (.leaf h.as))

theorem Node.block {p n c t v} (h : Scroll full p c t v) : Node full fo absent E p n (some c) t (.scalar (.str v)) E := .body (.bare (.block h .untagged))

theorem Node.flow {p n t x} (h : FlowBody full fo absent p E none .nested t x E') : Node full fo absent E p n none t x E' := .body (.bare (.flow h))

theorem Node.seq {p n f t xs} (h : Items full fo absent E n f t xs E') : Node full fo absent E p n f t (.seq xs) E' := .body (.seq h .untagged)

theorem Node.map {p n f t es} (h : Entries full fo absent E n f t es E') : Node full fo absent E p n f t (.map es) E' := .body (.map h .untagged)

theorem Item.inline {n f m t x} (h : Node full fo absent E (n + 1) (n + 2 + m) f t x E') : Item full fo absent E n f (b%'-' :: (spaces (m + 1) ++ t)) x E' := .dash (.inline h)

theorem Item.under {n f m g t x} (hg : Break m g) (hm : n < m) (h : Node full fo absent E (n + 1) m f t x E') : Item full fo absent E n f (b%'-' :: (g ++ t)) x E' :=
  .dash (.under hg hm h)

theorem Entry.inline {n k j x m t v} (hk : Leaf full fo k x) (hj : k.length + j ≤ 1024) (h : Tall full fo (n + 1) t v) :
    Entry full fo absent E n none (k ++ (spaces j ++ b%':' :: (spaces (m + 1) ++ t))) (x, v) E := .bare hk hj (.leaf h.as)

theorem Entry.block {n c k j x m t v} (hk : Leaf full fo k x) (hj : k.length + j ≤ 1024) (h : Scroll full (n + 1) c t v) :
    Entry full fo absent E n (some c) (k ++ (spaces j ++ b%':' :: (spaces (m + 1) ++ t))) (x, .scalar (.str v)) E := .bare hk hj (.block h .untagged)

theorem Entry.flow {n k j x m t v} (hk : Leaf full fo k x) (hj : k.length + j ≤ 1024) (h : FlowBody full fo absent (n + 1) E none .nested t v E') :
    Entry full fo absent E n none (k ++ (spaces j ++ b%':' :: (spaces (m + 1) ++ t))) (x, v) E' := .bare hk hj (.flow h)

end

/-! ## Several documents -/

/-- a document after `---`: nothing, a scalar, a flow collection or a label on the same line, or a node on a later line -/
inductive Explicit [Handles] {F : Type} (full : Bool) (fo : FloatOps F) (absent : Yaml F) : Option Nat → List Byte → Yaml F → Prop
  | absent : Explicit full fo absent none bs!"---" absent
  | inline {f m t x E} : Bare full fo absent [] 0 none f t x E → Explicit full fo absent f (bs!"---" ++ (spaces (m + 1) ++ t)) x
  | marked {f m t x E} : Marked full fo absent [] 0 f t x E → Explicit full fo absent f (bs!"---" ++ (spaces (m + 1) ++ t)) x
  | under {f m g t x E} : Break m g → Node full fo absent [] 0 m f t x E → Explicit full fo absent f (bs!"---" ++ (g ++ t)) x

/-- what a directive is for -/
inductive Aim
  | version | tag (handle pref : List Byte) | other
deriving DecidableEq

/-- a handle, as `%TAG` declares it: `!`, `!!` or `!h!` -/
def Handle (h : List Byte) : Prop := h = bs!"!" ∨ ∃ n, (∀ b ∈ n, HandleByte b) ∧ h = b%'!' :: (n ++ bs!"!")

/-- A prefix, as `%TAG` declares it. It is that of the core schema or has nothing to do with it. -/
def Prefix (p : List Byte) : Prop :=
  (∃ c r, p = c :: r ∧ (UriByte c ∨ c = b%'!') ∧ ∀ b ∈ r, UriByte b ∨ b = b%',' ∨ b = b%'!') ∧ (p = coreTags ∨ ∀ r, p ≠ coreTags ++ r ∧ coreTags ≠ p ++ r)

/-- A directive: `%YAML 1.d`, `%TAG handle prefix`, or any other name and anything after it. -/
inductive Directive : List Byte → Aim → Prop
  | version {n d} : b%'0' ≤ d → d ≤ b%'9' → Directive (bs!"%YAML" ++ (spaces (n + 1) ++ (bs!"1." ++ [d]))) .version
  | tag {n m h p} : Handle h → Prefix p → Directive (bs!"%TAG" ++ (spaces (n + 1) ++ (h ++ (spaces (m + 1) ++ p)))) (.tag h p)
  | other {n r} : n ≠ [] → (∀ b ∈ n, HandleByte b) → n ≠ bs!"YAML" → n ≠ bs!"TAG" → (r = [] ∨ r.head? = some b%' ') → (∀ b ∈ r, b ≠ b%'\n' ∧ b ≠ b%'\r' ∧ b ≠ 0) →
      Directive (b%'%' :: (n ++ r)) .other

/-- directives, each on a line, with idle lines between them and after them -/
inductive Directives : List Byte → List Aim → Prop
  | nil : Directives [] []
  | cons {t d e ls r ds} : Directive t d → Eol e → IdleLines ls → Directives r ds → Directives (t ++ (e ++ b%'\n' :: (ls ++ r))) (d :: ds)

/-- the handles that directives declare -/
def declares : List Aim → List Byte → Option (List Byte)
  | [], _ => none
  | .tag h' p :: ds, h => if h' = h then some p else declares ds h
  | _ :: ds, h => declares ds h

/-- The directives of one document: at most one is `%YAML`, and no handle is declared twice. With `full = false` there are at most two, and the
first of two is `%YAML`. -/
def Proper (full : Bool) (ds : List Aim) : Prop :=
  (ds.countP (· = .version) ≤ 1 ∧ ds.Pairwise fun d d' => ∀ h p p', ¬ (d = .tag h p ∧ d' = .tag h p')) ∧
  (full = false → (∃ d, ds = [d]) ∨ ∃ d, ds = [.version, d])

/-- A document, from column `n`: a node (a bare document), or `---` and a document after it, with or without directives before it. `bare`: whether the
document may be bare or have directives. -/
inductive Doc {F : Type} (full : Bool) (fo : FloatOps F) (absent : Yaml F) : Bool → Nat → Option Nat → List Byte → Yaml F → Prop
  | bare {n f t x E} : Node full fo absent [] 0 n f t x E → Doc full fo absent true n f t x
  | explicit {bare f t x} : Explicit full fo absent f t x → Doc full fo absent bare 0 f t x
  | directed {f t ds r x} : Directives t ds → ds ≠ [] → Proper full ds → @Explicit ⟨declares ds⟩ F full fo absent f r x → Doc full fo absent true 0 f (t ++ r) x

/-- From the end of a node to a marker in the first column. With `left = true`, also a block scalar with its content in the first column ends
at the marker. -/
def MarkGap (left : Bool) (f : Option Nat) (g : List Byte) : Prop := Gap f 0 g ∨ (left = true ∧ f = some 0 ∧ g = bs!"\n")

/-- Documents, the first from column `n`: one may end with `...`; then the next one may be bare. -/
inductive Docs {F : Type} (full : Bool) (fo : FloatOps F) (absent : Yaml F) : Bool → Nat → List Byte → List (Yaml F) → Prop
  | one {bare n f t x b} : Doc full fo absent bare n f t x → End full f b → Docs full fo absent bare n (t ++ b) [x]
  | last {bare n f t x g b} : Doc full fo absent bare n f t x → MarkGap true f g → Tail b → Docs full fo absent bare n (t ++ (g ++ (bs!"..." ++ b))) [x]
  | next {bare n f t x g r xs} : Doc full fo absent bare n f t x → MarkGap full f g → Docs full fo absent false 0 r xs →
      Docs full fo absent bare n (t ++ (g ++ r)) (x :: xs)
  | closed {bare n f t x g m e r xs} : Doc full fo absent bare n f t x → MarkGap true f g → Break m e → Docs full fo absent true m r xs →
      Docs full fo absent bare n (t ++ (g ++ (bs!"..." ++ (e ++ r)))) (x :: xs)

/-- a text with any number of documents, which does not begin with a byte order mark -/
def Stream {F : Type} (full : Bool) (fo : FloatOps F) (absent : Yaml F) (t : List Byte) (xs : List (Yaml F)) : Prop :=
  (∃ a n r, IdleLines a ∧ Docs full fo absent true n r xs ∧ t = a ++ (spaces n ++ r) ∧ t.take 3 ≠ [0xEF, 0xBB, 0xBF]) ∨
  ∃ a l, IdleLines a ∧ Idle l ∧ t = a ++ l ∧ xs = []

end Verif.Spec.Block
