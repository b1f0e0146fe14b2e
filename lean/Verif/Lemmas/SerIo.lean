import Verif.Model.SerIo
import Verif.Lemmas.EmitterIo
/-!
# The serialiser on a writer that may fail

Every function of `Model/SerIo.lean` writes the text of its twin in `Model/Ser.lean`, up to the first call that fails.
-/
namespace Verif.SerIo
open Verif Verif.Ser Verif.De Verif.EmitterIo Verif.Spec
variable {F : Type} {W : Writer} {cut : Cut} {fo : FloatOps F} {ext : Extern F}

/-- `m` writes the text `t` -/
abbrev Writes (W : Writer) (m : WM) (t : List Byte) : Prop := Emits W m (fun st => st.put t)

theorem Writes.then {m k a b} (h : Writes W m a) (h' : Writes W k b) : Writes W (m ?; k) (a ++ b) :=
  emits_eq (Emits.then h h') fun st => put_put st a b

theorem writes_indentors (fm : Formatter) : ∀ n, Writes W (writeIndentorsIo W fm n) (List.replicate n fm.indentor).flatten
  | 0 => emits_eq emits_done fun st => by simp [put_nil]
  | n + 1 => by
    rw [List.replicate_succ, List.flatten_cons]
    exact Writes.then (emits_write _) (writes_indentors fm n)

theorem writes_split (fm : Formatter) (d : Nat) (l s : List Byte) : Writes W (lineSplitAtIo W fm d l s) (lineSplitAt fm d l s) := by
  unfold lineSplitAtIo lineSplitAt
  rw [List.append_assoc]
  exact Writes.then (emits_write _) (Writes.then (emits_write _) (writes_indentors fm d))

theorem writes_multiLoop (fm : Formatter) (d : Nat) : ∀ ws buff len, Writes W (multiLoopIo W fm d ws buff len) (multiLoop fm d ws buff len)
  | [], buff, _ => emits_write _
  | (word, n) :: ws, buff, len => by
    unfold multiLoopIo multiLoop
    split
    · split
      · exact Writes.then (writes_split fm d _ _) (writes_multiLoop fm d ws _ _)
      split
      · exact Writes.then (writes_split fm d _ _) (writes_multiLoop fm d ws _ _)
      · exact writes_multiLoop fm d ws _ _
    · exact writes_multiLoop fm d ws _ _

theorem writes_multi (fm : Formatter) (d : Nat) (ws) : Writes W (writeDoubleQuoteMultiIo W fm d ws) (writeDoubleQuoteMulti fm d ws) :=
  Writes.then (a := bs!"\"") (emits_write _) (Writes.then (writes_multiLoop fm d ws [] 0) (emits_write _))

/-- both panic, or one writes the text of the other -/
def Same (W : Writer) : Option WM → Option (List Byte) → Prop
  | some m, some t => Writes W m t
  | none, none => True
  | _, _ => False

theorem same_str (fm : Formatter) (d : Nat) (v ws) : Same W (serializeStrIo W fm d v ws) (serializeStr fm d v ws) := by
  unfold serializeStrIo serializeStr
  split
  · exact writes_multi fm d ws
  · unfold writeDoubleQuoteSingleIo writeDoubleQuoteSingle
    cases escapeDoubleQuotes v with
    | none => trivial
    | some e => exact Writes.then (a := bs!"\"") (emits_write _) (Writes.then (emits_write e) (emits_write _))

theorem writes_char (c : Nat) : Writes W (serializeCharIo W c) (serializeChar c) := by
  unfold serializeCharIo serializeChar
  generalize (if c = b%'\'' then b%'"' else b%'\'') = q
  exact Writes.then (a := [q]) (emits_write _) (Writes.then (emits_write _) (emits_write _))

theorem writes_float (hc : ∀ b, (cut b).flatten = b) (x : F) : Writes W (serializeFloatIo W cut fo ext x) (serializeFloat fo ext x) := by
  unfold serializeFloatIo serializeFloat
  refine Writes.then ?_ (emits_cut hc _)
  split
  · exact emits_write _
  · exact emits_eq emits_done fun st => (put_nil st).symm

theorem same_value (hc : ∀ b, (cut b).flatten = b) (fm : Formatter) : ∀ v, Same W (serializeIo W cut fo ext fm v) (serialize fo ext fm v)
  | .int i => emits_cut hc _
  | .bool b => emits_write _
  | .float x => writes_float hc x
  | .str s => same_str fm 0 s (ext.words s)
  | .unit => emits_write _
  | .none => emits_write _
  | .some v => same_value hc fm v
  | .vec _ | .map _ | .tuple _ | .record _ | .variant _ _ => trivial

end Verif.SerIo
