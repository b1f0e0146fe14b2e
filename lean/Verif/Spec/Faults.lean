import Verif.Spec.Block
/-!
# Specification: texts with a mistake

A text in block style (`Verif.Spec.Block`) up to some place, and there something that no YAML text can have at such a place. What comes after
the mistake is arbitrary: nobody can make such a text right by going on. Written without reference to the scanner, the parser or the loader.
-/
namespace Verif.Spec.Faults
open Verif Verif.Spec.Core Verif.Spec.Block

/-! ## Mistakes -/

/-- the letters after `\` that mean something, and a line end -/
def meaningful : List Byte := bs!"0abt\tnvfre \"/\\N_LPxuU\n\r"

/-- a hexadecimal digit -/
def Hex (b : Byte) : Prop := (b%'0' ≤ b ∧ b ≤ b%'9') ∨ (b%'a' ≤ b ∧ b ≤ b%'f') ∨ (b%'A' ≤ b ∧ b ≤ b%'F')

/-- what comes after `"` when the quotation mark is not closed before the end of the text, or before an escape that does not exist or a numeric escape
with too few digits -/
inductive NoDouble : List Byte → Prop
  | nil : NoDouble []
  | last : NoDouble bs!"\\"
  | raw {b r} : b ≠ b%'"' → b ≠ b%'\\' → NoDouble r → NoDouble (b :: r)
  | escape {b r} : NoDouble r → NoDouble (b%'\\' :: b :: r)
  | unknown {b r} : b ∉ meaningful → NoDouble (b%'\\' :: b :: r)
  | short {x k h b r} : (x, k) ∈ codes → h.length < k → ¬ Hex b → NoDouble (b%'\\' :: x :: (h ++ b :: r))

/-- what comes after `'` when the quotation mark is not closed before the end of the text -/
inductive NoSingle : List Byte → Prop
  | nil : NoSingle []
  | raw {b r} : b ≠ b%'\'' → NoSingle r → NoSingle (b :: r)
  | pair {r} : NoSingle r → NoSingle (b%'\'' :: b%'\'' :: r)

/-- nothing, or something that begins with a space or a line feed -/
def Blank (r : List Byte) : Prop := r = [] ∨ ∃ b r', r = b :: r' ∧ (b = b%' ' ∨ b = b%'\n')

/-! ### Brackets -/

/-- where a reader of a flow collection is: where a token may begin; directly after a closing bracket; after a closing quotation mark and white space; in
a plain scalar; in the name of an anchor; in quotation marks, and there behind a `\`, or between two `'` -/
inductive Mode
  | start | glued | quoted | word | name | double | escape | single | pair
deriving DecidableEq

/-- a document marker, `---` or `...`, and then white space, NUL or nothing -/
def marks (t : List Byte) : Bool :=
  (t.take 3 == bs!"---" || t.take 3 == bs!"...") && (t.drop 3).head?.all ((0 :: bs!" \t\n\r").contains ·)

/-- ends a word: white space, a bracket, a comma, or nothing -/
def ends (t : List Byte) : Bool := t.head?.all (bs!" \t\n,[]{}".contains ·)

/-- The text `t` of a flow collection, read from mode `m` on, ends although more brackets of one kind have been opened than closed. Before it, `s` more
`[` than `]` and `b` more `{` than `}` have been read. Brackets in quotation marks do not count. If the last bracket is closed by the wrong kind, only
white space may follow. (Not considered, and so `false`: texts with comments, tags, `\r`, NUL, `:` at the beginning of a word or document markers
outside quotation marks.) -/
def unclosed : List Byte → Mode → Int → Int → Bool
  | [], _, s, b => decide (0 < s ∨ 0 < b)
  | _ :: r, .escape, s, b => unclosed r .double s b
  | _ :: r, .pair, s, b => unclosed r .single s b
  | c :: r, .double, s, b => unclosed r (if c = b%'"' then .quoted else if c = b%'\\' then .escape else .double) s b
  | c :: r, .single, s, b =>
    unclosed r (if c = b%'\'' then (if r.head? = some b%'\'' then .pair else .quoted) else .single) s b
  | c :: r, m, s, b =>
    if marks (c :: r) ∨ c = b%'\r' ∨ c = b%'#' ∨ c = 0 then false
    else if c = b%'[' then unclosed r .start (s + 1) b
    else if c = b%'{' then unclosed r .start s (b + 1)
    else if c = b%']' then
      if 1 < s + b then unclosed r .glued (s - 1) b else decide (0 < s - 1 ∨ 0 < b) && r.all (bs!" \t\n".contains ·)
    else if c = b%'}' then
      if 1 < s + b then unclosed r .glued s (b - 1) else decide (0 < s ∨ 0 < b - 1) && r.all (bs!" \t\n".contains ·)
    else if c = b%',' then unclosed r .start s b
    else if c = b%':' ∧ ends r then unclosed r .start s b
    else if m = .word then unclosed r .word s b
    else if c = b%' ' ∨ c = b%'\t' ∨ c = b%'\n' then unclosed r (if m = .quoted then .quoted else .start) s b
    else if m = .name then unclosed r .name s b
    else if c = b%':' then decide (m = .glued ∨ m = .quoted) && unclosed r .start s b
    else if c = b%'"' then unclosed r .double s b
    else if c = b%'\'' then unclosed r .single s b
    else if c = b%'&' ∨ c = b%'*' then unclosed r .name s b
    else if c = b%'?' ∧ r.head?.all (bs!" \t\n".contains ·) then unclosed r .start s b
    else if c = b%'!' ∨ c = b%'%' then false
    else unclosed r .word s b

/-- A mistake at column `n` where a node ought to be. `own = false`: on a line where a key and a `:` have already been, so that neither a block sequence
nor a block mapping may begin here. -/
inductive Fault {F : Type} (full : Bool) (fo : FloatOps F) : Nat → Bool → List Byte → Prop
  /-- `@` and the backtick are reserved -/
  | reserved {n own b r} : b ∈ bs!"@`" → Fault full fo n own (b :: r)
  /-- `%` begins nothing but a directive, in the first column -/
  | percent {n own r} : n ≠ 0 → Fault full fo n own (b%'%' :: r)
  | double {n own r} : NoDouble r → Fault full fo n own (b%'"' :: r)
  | single {n own r} : NoSingle r → Fault full fo n own (b%'\'' :: r)
  /-- something after the closing quotation mark -/
  | afterDouble {n own w s j b r} : Double 0 w s → b%'\n' ∉ w → b ∉ bs!" \t\n\r:#" → b ≠ 0 →
      Fault full fo n own (b%'"' :: (w ++ b%'"' :: (spaces j ++ b :: r)))
  | afterSingle {n own w s j b r} : Single 0 w s → b%'\n' ∉ w → b ∉ bs!" \t\n\r:#" → b ≠ 0 → b ≠ b%'\'' →
      Fault full fo n own (b%'\'' :: (w ++ b%'\'' :: (spaces j ++ b :: r)))
  /-- an anchor or an alias without a name -/
  | nameless {n own c r} : c ∈ bs!"&*" → (r = [] ∨ ∃ b r', r = b :: r' ∧ b ∈ bs!" \t\n\r,[]{}") → Fault full fo n own (c :: r)
  /-- the indentation of a block scalar is given as 0 -/
  | zero {n own c s r} : c ∈ bs!"|>" → s ∈ [[], bs!"-", bs!"+"] → Fault full fo n own (c :: (s ++ b%'0' :: r))
  /-- something after the header of a block scalar -/
  | header {n own c ch d h j b r} : c ∈ bs!"|>" → Header ch d h → b ∉ bs!" \t\n\r#" → b ≠ 0 → (j = 0 → b ∉ bs!"0123456789+-") →
      Fault full fo n own (c :: (h ++ (spaces j ++ b :: r)))
  /-- a flow collection that is not closed -/
  | brackets {n own c r} : c ∈ bs!"[{" → unclosed (c :: r) .start 0 0 = true → Fault full fo n own (c :: r)
  /-- `key: - item` -/
  | dash {n r} : Blank r → Fault full fo n false (b%'-' :: r)
  /-- `key: ? key` -/
  | question {n r} : Blank r → Fault full fo n false (b%'?' :: r)
  /-- `key: key: value` -/
  | colon {n k j x r} : Leaf full fo k x → Blank r → Fault full fo n false (k ++ (spaces j ++ b%':' :: r))

/-! ## Places -/

/-- where a text is wrong: in a node at column `n`, in the items of a block sequence or the entries of a block mapping at column `n`, or in the next item
or entry -/
inductive Place
  | node (n : Nat) (own : Bool) | items (n : Nat) | item (n : Nat) | entries (n : Nat) | entry (n : Nat)

/-- where the line after a scalar at column `n` is: the text ends, or goes on at column `n` or further left -/
def Leaves (n : Nat) (b : List Byte) : Prop := Tail b ∨ ∃ m g c r, m ≤ n ∧ Break m g ∧ c ∉ bs!" \t\n\r#" ∧ c ≠ 0 ∧ b = g ++ c :: r

/-- `Faulty E l t`: at the place `l`, the text has a mistake, and `t` is all of it from there on. `E`: the anchors before it. -/
inductive Faulty {F : Type} (full : Bool) (fo : FloatOps F) (absent : Yaml F) : Names F → Place → List Byte → Prop
  | here {E n own t} : Fault full fo n own t → Faulty full fo absent E (.node n own) t
  | seq {E n t} : Faulty full fo absent E (.items n) t → Faulty full fo absent E (.node n true) t
  | map {E n t} : Faulty full fo absent E (.entries n) t → Faulty full fo absent E (.node n true) t
  | firstItem {E n t} : Faulty full fo absent E (.item n) t → Faulty full fo absent E (.items n) t
  /-- items without a mistake before the one with the mistake -/
  | laterItem {E E' n f t xs g r} : Items full fo absent E n f t xs E' → Gap f n g → Faulty full fo absent E' (.item n) r →
      Faulty full fo absent E (.items n) (t ++ (g ++ r))
  | firstEntry {E n t} : Faulty full fo absent E (.entry n) t → Faulty full fo absent E (.entries n) t
  | laterEntry {E E' n f t es g r} : Entries full fo absent E n f t es E' → Gap f n g → Faulty full fo absent E' (.entry n) r →
      Faulty full fo absent E (.entries n) (t ++ (g ++ r))
  /-- after entries without a mistake, a line without `:` -/
  | noColon {E E' n f t es g k x b} : Entries full fo absent E n f t es E' → Gap f n g → Leaf full fo k x → Leaves n b →
      Faulty full fo absent E (.entries n) (t ++ (g ++ (k ++ b)))
  /-- a mistake where the next item or the next entry ought to begin -/
  | atItem {E n t} : Fault full fo n true t → Faulty full fo absent E (.item n) t
  | atEntry {E n t} : Fault full fo n true t → Faulty full fo absent E (.entry n) t
  | inItem {E n m t} : Faulty full fo absent E (.node (n + 2 + m) true) t → Faulty full fo absent E (.item n) (b%'-' :: (spaces (m + 1) ++ t))
  | underItem {E n m g t} : Break m g → n < m → Faulty full fo absent E (.node m true) t → Faulty full fo absent E (.item n) (b%'-' :: (g ++ t))
  | inEntry {E n k j x m t} : Leaf full fo k x → k.length + j ≤ 1024 → Faulty full fo absent E (.node (n + k.length + j + m + 2) false) t →
      Faulty full fo absent E (.entry n) (k ++ (spaces j ++ b%':' :: (spaces (m + 1) ++ t)))
  | underEntry {E n k j x m g t} : Leaf full fo k x → k.length + j ≤ 1024 → Break m g → n < m → Faulty full fo absent E (.node m true) t →
      Faulty full fo absent E (.entry n) (k ++ (spaces j ++ b%':' :: (g ++ t)))
  | besideEntry {E n k j x g t} : Leaf full fo k x → k.length + j ≤ 1024 → Break n g → Faulty full fo absent E (.items n) t →
      Faulty full fo absent E (.entry n) (k ++ (spaces j ++ b%':' :: (g ++ t)))

/-- A text with a mistake somewhere; before it, it is a document in block style. -/
def Text {F : Type} (full : Bool) (fo : FloatOps F) (absent : Yaml F) (t : List Byte) : Prop :=
  ∃ a n r, IdleLines a ∧ Faulty full fo absent [] (.node n true) r ∧ t = a ++ (spaces n ++ r) ∧ t.take 3 ≠ [0xEF, 0xBB, 0xBF]

/-! ## Directives -/

/-- `r` is the end of the text or does not begin with one of those bytes -/
def Stops (p : Byte → Prop) (r : List Byte) : Prop := ∀ b, r.head? = some b → ¬ p b

/-- a space or a tab -/
def Sp (b : Byte) : Prop := b = b%' ' ∨ b = b%'\t'

/-- a line feed or a carriage return -/
def Lb (b : Byte) : Prop := b = b%'\n' ∨ b = b%'\r'

/-- a decimal digit -/
def Dec (b : Byte) : Prop := b%'0' ≤ b ∧ b ≤ b%'9'

/-- a byte of the prefix of a tag; `%` begins an escape -/
def PrefixByte (b : Byte) : Prop := UriByte b ∨ b ∈ bs!",![]%"

/-- spaces and tabs, at least one -/
def Sps (w : List Byte) : Prop := w ≠ [] ∧ ∀ b ∈ w, Sp b

/-- what comes after the name of a directive that needs an argument: white space, or the line ends -/
def Apart (w r : List Byte) : Prop := (∀ b ∈ w, Sp b) ∧ (w = [] → ∃ b r', r = b :: r' ∧ Lb b)

/-- `w` is white space, and `w ++ r` is not the end of a line: something comes after the white space that is not a comment, or the text ends -/
def NoEnd (w r : List Byte) : Prop :=
  (∀ b ∈ w, Sp b) ∧ (Stops (fun b => Sp b ∨ Lb b ∨ (w ≠ [] ∧ b = b%'#')) r ∨ (w ≠ [] ∧ ∃ k, r = b%'#' :: k ∧ ∀ b ∈ k, ¬ Lb b))

/-- The text from a `%` in the first column on is not a directive. -/
inductive WrongDirective : List Byte → Prop
  /-- no name -/
  | noName {r} : Stops HandleByte r → WrongDirective (b%'%' :: r)
  /-- after the name neither white space nor the end of the line; or the text ends there -/
  | name {n r} : (∀ b ∈ n, HandleByte b) → Stops (fun b => HandleByte b ∨ Sp b ∨ Lb b) r → WrongDirective (b%'%' :: (n ++ r))
  /-- `%YAML` without a number -/
  | noMajor {w r} : Apart w r → Stops (fun b => Dec b ∨ Sp b) r → WrongDirective (bs!"%YAML" ++ (w ++ r))
  /-- after the first number something other than a point -/
  | noPoint {w ds r} : Sps w → ds ≠ [] → (∀ b ∈ ds, Dec b) → Stops (fun b => Dec b ∨ b = b%'.') r → WrongDirective (bs!"%YAML" ++ (w ++ (ds ++ r)))
  /-- no number after the point -/
  | noMinor {w ds r} : Sps w → (∀ b ∈ ds, Dec b) → Stops Dec r → WrongDirective (bs!"%YAML" ++ (w ++ (ds ++ b%'.' :: r)))
  /-- the line does not end after the version -/
  | afterVersion {w ds es v r} : Sps w → (∀ b ∈ ds, Dec b) → (∀ b ∈ es, Dec b) → NoEnd v r → (v = [] → Stops Dec r) →
      WrongDirective (bs!"%YAML" ++ (w ++ (ds ++ b%'.' :: (es ++ (v ++ r)))))
  /-- `%TAG` without a handle -/
  | noHandle {w r} : Apart w r → Stops (fun b => Sp b ∨ b = b%'!') r → WrongDirective (bs!"%TAG" ++ (w ++ r))
  /-- a handle without `!` at its end -/
  | openHandle {w n r} : Sps w → n ≠ [] → (∀ b ∈ n, HandleByte b) → Stops (fun b => HandleByte b ∨ b = b%'!') r →
      WrongDirective (bs!"%TAG" ++ (w ++ b%'!' :: (n ++ r)))
  /-- a handle without a prefix -/
  | noPrefix {w h v r} : Sps w → Handle h → (∀ b ∈ v, Sp b) → Stops (fun b => Sp b ∨ UriByte b ∨ b = b%'!' ∨ b = b%'%') r → WrongDirective (bs!"%TAG" ++ (w ++ (h ++ (v ++ r))))
  /-- the line does not end after the prefix -/
  | afterPrefix {w h v c p x r} : Sps w → Handle h → Sps v → (UriByte c ∨ c = b%'!') → (∀ b ∈ p, PrefixByte b ∧ b ≠ b%'%') → NoEnd x r → (x = [] → Stops PrefixByte r) →
      WrongDirective (bs!"%TAG" ++ (w ++ (h ++ (v ++ c :: (p ++ (x ++ r))))))
  /-- the text ends in another directive -/
  | last {n r} : n ≠ bs!"YAML" → n ≠ bs!"TAG" → (∀ b ∈ n, HandleByte b) → Stops HandleByte r → (∀ b ∈ r, ¬ Lb b) → WrongDirective (b%'%' :: (n ++ r))

/-- A text with a wrong directive, after any number of directives that are right. -/
def DirectiveText (t : List Byte) : Prop := ∃ a d ds r, IdleLines a ∧ Directives d ds ∧ WrongDirective r ∧ t = a ++ (d ++ r)

end Verif.Spec.Faults
