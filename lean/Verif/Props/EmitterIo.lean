import Verif.Lemmas.EmitterIo
/-!
# C76: a writer that fails

`Model/EmitterIo.lean` is the emitter on any writer, `Emitter.dump` the text it writes to a string. `Spec/Writers.lean` says what calls of a writer are.
-/
namespace Verif.Props
open Verif Verif.Spec Verif.EmitterIo

variable {F : Type} (fo : FloatOps F) (cut : Cut) (hc : ∀ b, (cut b).flatten = b)
include hc

/-- **C76** Whatever the writer does, and however formatted values are cut into pieces, after any calls `before` that succeeded (such as those of earlier
dumps): if `dump` succeeds, no call of the writer failed and the pieces it was given by `dump` are the text of the document. If `dump` fails, the last call failed,
the ones before did not, and what was written, followed by the piece that was refused, is a beginning of the text. -/
theorem C76_dump (W : Writer) (cfg : Emitter.Config) (y : Yaml F) (before : List (List Byte × Bool)) (level : Int) (h1 : AllOk before) (h2 : Honest W before) :
    match dumpIo W cut fo cfg y ⟨before, level⟩ with
    | (true, s) => Honest W s.calls ∧ AllOk s.calls ∧ passed s.calls = passed before ++ Emitter.dump fo cfg y
    | (false, s) => Honest W s.calls ∧
      ∃ cs p, s.calls = cs ++ [(p, false)] ∧ AllOk cs ∧ passed cs ++ p <+: passed before ++ Emitter.dump fo cfg y := by
  have h := (emits_dump (W := W) (fo := fo) hc cfg y).2 ⟨before, level⟩ h1 h2
  have e : (Emitter.emitNode fo cfg ⟨passed before ++ bs!"---\n", -1⟩ y).out = passed before ++ Emitter.dump fo cfg y := by
    have hn : ∀ o l, Emitter.emitNode fo cfg ⟨o, l⟩ y = _ := (emits_node (W := W) (fo := fo) hc cfg y).1
    rw [Emitter.dump, hn (passed before ++ bs!"---\n") (-1), hn bs!"---\n" (-1), List.append_assoc]
  rcases hr : dumpIo W cut fo cfg y ⟨before, level⟩ with ⟨r, s⟩
  rw [hr] at h
  cases r with
  | true => exact ⟨h.2.1, h.1, (congrArg Emitter.ESt.out h.2.2).trans e⟩
  | false =>
    rw [← e]
    exact h

/-- **C76** `dump` succeeds exactly if the writer has room for the whole text. -/
theorem C76_room_exact (n : Nat) (cfg : Emitter.Config) (y : Yaml F) (level : Int) :
    (dumpIo (room n) cut fo cfg y ⟨[], level⟩).1 = true ↔ (Emitter.dump fo cfg y).length ≤ n := by
  have h := C76_dump fo cut hc (room n) cfg y [] level (fun c hc => by cases hc) (fun a c b e => by simp at e)
  have hd : bs!"---\n" <+: Emitter.dump fo cfg y := (emits_node (W := room n) (fo := fo) hc cfg y).1.mono ⟨bs!"---\n", -1⟩
  rw [show passed [] ++ Emitter.dump fo cfg y = Emitter.dump fo cfg y from rfl] at h
  rcases hr : dumpIo (room n) cut fo cfg y ⟨[], level⟩ with ⟨r, s⟩
  rw [hr] at h
  cases r with
  | true =>
    obtain ⟨h1, h2, h3⟩ := h
    refine ⟨fun _ => ?_, fun _ => rfl⟩
    rcases List.eq_nil_or_concat s.calls with e | ⟨cs, c, e⟩
    · rw [← h3, e] at hd
      exact absurd hd (by decide)
    · have h4 := h1 cs c [] (by rw [e]; simp)
      rw [h2 c (by rw [e]; simp), room] at h4
      rw [← h3, e]
      simpa [passed] using h4.symm
  | false =>
    obtain ⟨h1, cs, p, h2, -, h3⟩ := h
    have h4 := h1 cs (p, false) [] h2
    rw [room] at h4
    have h5 := of_decide_eq_false h4.symm
    have h6 := h3.length_le
    simp only [passed, List.length_append] at h5 h6
    refine ⟨fun h => absurd h (by simp), fun h => ?_⟩
    omega

omit hc in
/-- **C76** A dump does not depend on what an earlier one left behind: the calls and the result are the same at every level. -/
theorem C76_again (W : Writer) (cfg : Emitter.Config) (y : Yaml F) (before : List (List Byte × Bool)) (level level' : Int) :
    (dumpIo W cut fo cfg y ⟨before, level⟩).1 = (dumpIo W cut fo cfg y ⟨before, level'⟩).1 ∧
    (dumpIo W cut fo cfg y ⟨before, level⟩).2.calls = (dumpIo W cut fo cfg y ⟨before, level'⟩).2.calls := by
  unfold dumpIo andThen write
  cases h : W (before.map (·.1)) bs!"---\n" <;> simp [h]

/-! ## Writers it applies to -/

/-- a sequence with a quoted string, on a writer with room for 8 bytes: the text has 16 bytes, the writer takes the first 8 -/
example : dumpIo (F := Unit) (room 8) (fun b => [b]) ⟨fun _ => none, fun _ => [], (), (), ()⟩ {} (.seq [.scalar (.int 7), .scalar (.str bs!"a\nb")]) ⟨[], 0⟩ =
    (false, ⟨[(bs!"---\n", true), (bs!"-", true), (bs!" ", true), (bs!"7", true), (bs!"\n", true), (bs!"-", false)], 0⟩) := by decide +kernel

/-- and on one with room for all of it -/
example : (dumpIo (F := Unit) (room 16) (fun b => [b]) ⟨fun _ => none, fun _ => [], (), (), ()⟩ {} (.seq [.scalar (.int 7), .scalar (.str bs!"a\nb")]) ⟨[], 0⟩).1 = true ∧
    Emitter.dump (F := Unit) ⟨fun _ => none, fun _ => [], (), (), ()⟩ {} (.seq [.scalar (.int 7), .scalar (.str bs!"a\nb")]) = bs!"---\n- 7\n- \"a\\nb\"" := by decide +kernel

end Verif.Props
