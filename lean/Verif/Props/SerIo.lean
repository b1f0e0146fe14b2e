import Verif.Lemmas.SerIo
/-!
# C77: the serialiser on a writer that fails

`Model/SerIo.lean` is the serialiser on any writer, `Ser.toPrettyString` the text it writes to a string. `Spec/Writers.lean` says what calls of a writer are.
-/
namespace Verif.Props
open Verif Verif.Spec Verif.De Verif.EmitterIo Verif.SerIo

/-- what a text of which the serialiser writes as much as it can looks like, if `r` is its result and `calls` are all calls of the writer up to then -/
private theorem ser_after {W : Writer} {m : WM} {t before level} (h : Writes W m t) (h1 : AllOk before) (h2 : Honest W before) :
    match m ⟨before, level⟩ with
    | (true, s) => Honest W s.calls ∧ AllOk s.calls ∧ passed s.calls = passed before ++ t
    | (false, s) => Honest W s.calls ∧ ∃ cs p, s.calls = cs ++ [(p, false)] ∧ AllOk cs ∧ passed cs ++ p <+: passed before ++ t := by
  have h := h.2 ⟨before, level⟩ h1 h2
  rcases hr : m ⟨before, level⟩ with ⟨r, s⟩
  rw [hr] at h
  cases r with
  | true => exact ⟨h.2.1, h.1, congrArg Emitter.ESt.out h.2.2⟩
  | false => exact h

variable {F : Type} (fo : FloatOps F) (ext : Ser.Extern F) (cut : Cut) (hc : ∀ b, (cut b).flatten = b)
include hc

/-- **C77** Whatever the writer does, and however formatted values are cut into pieces, after any calls `before` that succeeded: a value that can be serialised to
a string is serialised. If that succeeds, no call of the writer failed and the pieces it was given are that string. If it fails, the last call failed, the
ones before did not, and what was written, followed by the piece that was refused, is a beginning of the string. -/
theorem C77_serialize (W : Writer) (fm : Ser.Formatter) (v : Val F) (before : List (List Byte × Bool)) (level : Int) (h1 : AllOk before) (h2 : Honest W before)
    {t} (ht : Ser.toPrettyString fo ext fm v = some t) :
    ∃ m, serializeIo W cut fo ext fm v = some m ∧
    match m ⟨before, level⟩ with
    | (true, s) => Honest W s.calls ∧ AllOk s.calls ∧ passed s.calls = passed before ++ t
    | (false, s) => Honest W s.calls ∧ ∃ cs p, s.calls = cs ++ [(p, false)] ∧ AllOk cs ∧ passed cs ++ p <+: passed before ++ t := by
  have h := same_value (W := W) (fo := fo) (ext := ext) hc fm v
  unfold Ser.toPrettyString at ht
  rw [ht] at h
  cases hm : serializeIo W cut fo ext fm v with
  | none => rw [hm] at h; exact h.elim
  | some m => rw [hm] at h; exact ⟨m, rfl, ser_after h h1 h2⟩

/-- **C77** And a value that cannot be serialised to a string cannot be serialised to any writer: it panics before it writes. -/
theorem C77_panics_exact (W : Writer) (fm : Ser.Formatter) (v : Val F) :
    serializeIo W cut fo ext fm v = none ↔ Ser.toPrettyString fo ext fm v = none := by
  have h := same_value (W := W) (fo := fo) (ext := ext) hc fm v
  unfold Ser.toPrettyString
  revert h
  cases serializeIo W cut fo ext fm v <;> cases Ser.serialize fo ext fm v <;> simp [Same]

/-- **C77** Serialising succeeds exactly if the writer has room for the whole text. -/
theorem C77_room_exact (n : Nat) (fm : Ser.Formatter) (v : Val F) (level : Int) {t} (ht : Ser.toPrettyString fo ext fm v = some t) :
    ∃ m, serializeIo (room n) cut fo ext fm v = some m ∧ ((m ⟨[], level⟩).1 = true ↔ t.length ≤ n) := by
  obtain ⟨m, hm, h⟩ := C77_serialize fo ext cut hc (room n) fm v [] level (fun c hc => by cases hc) (fun a c b e => by simp at e) ht
  refine ⟨m, hm, ?_⟩
  rw [show passed [] ++ t = t from rfl] at h
  rcases hr : m ⟨[], level⟩ with ⟨r, s⟩
  rw [hr] at h
  cases r with
  | true =>
    obtain ⟨h1, h2, h3⟩ := h
    refine ⟨fun _ => ?_, fun _ => rfl⟩
    rcases List.eq_nil_or_concat s.calls with e | ⟨cs, c, e⟩
    · rw [← h3, e]
      exact Nat.zero_le _
    · have h4 := h1 cs c [] (by rw [e]; simp)
      rw [h2 c (by rw [e]; simp), room] at h4
      rw [← h3, e]
      simpa [passed] using h4.symm
  | false =>
    obtain ⟨h1, cs, p, h2, -, h3⟩ := h
    have h4 := h1 cs (p, false) [] h2
    rw [room] at h4
    have h5 := of_decide_eq_false h4.symm
    have h6 := h3.length_le
    simp only [passed, List.length_append] at h5 h6
    refine ⟨fun h => absurd h (by simp), fun h => ?_⟩
    omega

omit hc in
/-- **C77** The same for a character. -/
theorem C77_char (W : Writer) (c : Nat) (before : List (List Byte × Bool)) (level : Int) (h1 : AllOk before) (h2 : Honest W before) :
    match serializeCharIo W c ⟨before, level⟩ with
    | (true, s) => Honest W s.calls ∧ AllOk s.calls ∧ passed s.calls = passed before ++ Ser.serializeChar c
    | (false, s) => Honest W s.calls ∧ ∃ cs p, s.calls = cs ++ [(p, false)] ∧ AllOk cs ∧ passed cs ++ p <+: passed before ++ Ser.serializeChar c :=
  ser_after (writes_char c) h1 h2

/-! ## Writers it applies to -/

/-- a line width of 6 bytes, and every byte a word of its own -/
private def exFm : Ser.Formatter := { Ser.Formatter.pretty with prefStringLength := 6 }
private def exExt : Ser.Extern Unit := ⟨fun _ => false, fun v => v.map fun b => ([b], 1)⟩

/-- a string that is broken into two lines, to a string -/
example : Ser.toPrettyString (F := Unit) ⟨fun _ => none, fun _ => [], (), (), ()⟩ exExt exFm (.some (.str bs!"hello world")) = some bs!"\"hello\nworld\"" := by decide +kernel

/-- to a writer with room for 9 bytes: it refuses the second line -/
example : (serializeIo (F := Unit) (room 9) (fun b => [b]) ⟨fun _ => none, fun _ => [], (), (), ()⟩ exExt exFm (.some (.str bs!"hello world"))).map (· ⟨[], 0⟩) =
    some (false, ⟨[(bs!"\"", true), (bs!"hello", true), (bs!"\n", true), (bs!"world", false)], 0⟩) := by decide +kernel

/-- and to one with room for 13 -/
example : (serializeIo (F := Unit) (room 13) (fun b => [b]) ⟨fun _ => none, fun _ => [], (), (), ()⟩ exExt exFm (.some (.str bs!"hello world"))).map (fun m => (m ⟨[], 0⟩).1) =
    some true := by decide +kernel

end Verif.Props
