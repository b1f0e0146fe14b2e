import Verif.Model.Ser
import Verif.Model.LoadText
/-!
# Specification: strings the serialiser writes and wraps faithfully
-/
namespace Verif.Spec
open Verif

/-- `words`, each with some number of grapheme clusters, are a division of `v` into non-empty pieces -/
def Segmentation (v : List Byte) (words : List (List Byte × Nat)) : Prop :=
  (words.map (·.1)).flatten = v ∧ ∀ w ∈ words, w.1 ≠ []

/-- the number of grapheme clusters -/
def totalLength (words : List (List Byte × Nat)) : Nat := (words.map (·.2)).sum

/-- neither a quotation mark, nor a backslash, a line break or a NUL -/
def NoSpecials (v : List Byte) : Prop := ∀ b ∈ v, b ≠ b%'"' ∧ b ≠ b%'\\' ∧ b ≠ b%'\n' ∧ b ≠ b%'\r' ∧ b ≠ 0

/-- a space or a tab -/
def Blank (b : Byte) : Prop := b = b%' ' ∨ b = b%'\t'

/-- no two adjacent blanks -/
def SingleBlanks (v : List Byte) : Prop := ∀ x y, Blank x → Blank y → ¬ [x, y] <:+: v

/-- neither `---` nor `...` between blanks -/
def NoMarkers (v : List Byte) : Prop := ∀ d c, d = b%'-' ∨ d = b%'.' → Blank c → ¬ [b%' ', d, d, d, c] <:+: v

/-- Both ways of loading the text give the string `v`. `cfg.fuel` bounds the iterations of the scanner's loops and `n` the tokens asked
for; some bound is enough. -/
def LoadsAs {F} (fo : FloatOps F) (text v : List Byte) : Prop :=
  ∃ N, ∀ cfg n, N ≤ cfg.fuel → N ≤ n →
    Loader.loadFrom fo cfg n text = .ok [.scalar (.str v)] ∧ Loader.loadSingle fo cfg n text = .ok (.scalar (.str v))

end Verif.Spec
