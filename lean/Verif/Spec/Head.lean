import Verif.Spec.Block
/-!
# Directives that no document follows

A text may begin with directives; what they look like is in `Verif.Spec.Block`. They belong to the document after them, which has to begin with
`---`, and `%YAML` may stand there only once.
-/
namespace Verif.Spec.Faults
open Verif Verif.Spec Verif.Spec.Block

/-- a text with two `%YAML` directives before its first document, whatever follows the second -/
def TwoVersions (t : List Byte) : Prop :=
  ∃ a d ds v e q, IdleLines a ∧ Directives d ds ∧ .version ∈ ds ∧ Directive v .version ∧ Eol e ∧ t = a ++ (d ++ (v ++ (e ++ b%'\n' :: q)))

/-- a text of directives alone -/
def OnlyDirectives (t : List Byte) : Prop := ∃ a d ds, IdleLines a ∧ Directives d ds ∧ ds ≠ [] ∧ t = a ++ d

/-- `q` begins with a line that begins a document: `---`, alone or with white space after it (or NUL, which counts as the end) -/
def StartLine (q : List Byte) : Prop := ∃ r, q = b%'-' :: b%'-' :: b%'-' :: r ∧ ∀ c, r.head? = some c → c ∈ [0, b%' ', b%'\t', b%'\n', b%'\r']

/-- a text with directives, and after them, behind `k` spaces, something else: not `---` and not `%` in the first column, anything in a later one -/
def NoDocument (t : List Byte) : Prop :=
  ∃ a d ds k q, IdleLines a ∧ Directives d ds ∧ ds ≠ [] ∧ (∀ c, q.head? = some c → c ∉ [0, b%' ', b%'\t', b%'\n', b%'\r', b%'#']) ∧
    (k = 0 → q.head? ≠ some b%'%' ∧ ¬ StartLine q) ∧ t = a ++ (d ++ (spaces k ++ q))

end Verif.Spec.Faults
