import Verif.Lemmas.Pieces
import Verif.Props.EmitterIo
import Verif.Props.SerIo
/-!
# C78: text is never cut inside a character

The emitter and the serialiser pass parts of a string to their writer that they take between two byte positions; Rust stops the program if such a position is inside
a character. `Spec/Utf8.lean` says what a text is, `Spec/TextTree.lean` which trees and values have texts as strings.
-/
namespace Verif.Props
open Verif Verif.Spec Verif.De Verif.EmitterIo Verif.SerIo

variable {F : Type} (fo : FloatOps F) (cut : Cut)
  (hcut : ∀ b, Utf8Text b → ∀ p ∈ cut b, Utf8Text p) (hf : ∀ x, Utf8Text (fo.display x))
include hcut hf

/-- **C78** Whatever the writer does: if all strings in the tree are texts, everything that the emitter passes to the writer in one call is a text. -/
theorem C78_emitter (W : Writer) (cfg : Emitter.Config) {y : Yaml F} (hy : TextTree y) (before : List (List Byte × Bool)) (level : Int)
    (hb : ∀ c ∈ before, Utf8Text c.1) : ∀ c ∈ (dumpIo W cut fo cfg y ⟨before, level⟩).2.calls, Utf8Text c.1 := fun c h =>
  v_iff.1 (clean_dump (fun b h p hp => v_iff.2 (hcut b (v_iff.1 h) p hp)) (fun x => v_iff.2 (hf x)) hy ⟨before, level⟩ (fun c h => v_iff.2 (hb c h)) c h)

/-- **C78** So is everything that the serialiser passes to it, if the words that the string is split into and the parts of the format are texts. -/
theorem C78_serialize (ext : Ser.Extern F) (hw : ∀ s, Utf8Text s → ∀ w ∈ ext.words s, Utf8Text w.1) (W : Writer) (fm : Ser.Formatter)
    (hi : Utf8Text fm.indentor) (hn : Utf8Text fm.nullFormat) {v : Val F} (hv : TextVal v) {m} (hm : serializeIo W cut fo ext fm v = some m)
    (before : List (List Byte × Bool)) (level : Int) (hb : ∀ c ∈ before, Utf8Text c.1) : ∀ c ∈ (m ⟨before, level⟩).2.calls, Utf8Text c.1 := fun c h =>
  v_iff.1 (clean_value (fun b h p hp => v_iff.2 (hcut b (v_iff.1 h) p hp)) (fun x => v_iff.2 (hf x)) (v_iff.2 hi) (v_iff.2 hn)
    (fun s h w hw' => v_iff.2 (hw s (v_iff.1 h) w hw')) v m hv hm ⟨before, level⟩ (fun c h => v_iff.2 (hb c h)) c h)

omit hcut hf in
private theorem text_passed : ∀ cs : List (List Byte × Bool), (∀ c ∈ cs, Utf8Text c.1) → Utf8Text (passed cs) := by
  intro cs
  induction cs with
  | nil => exact fun _ => v_iff.1 rfl
  | cons c cs ih =>
    intro h
    have := v_append (v_iff.2 (h c (by simp))) (v_iff.2 (ih fun x hx => h x (List.mem_cons_of_mem _ hx)))
    exact v_iff.1 (by simpa [passed] using this)

omit hcut in
/-- **C78** What the emitter writes to a `String` for a tree is a text. -/
theorem C78_dump (cfg : Emitter.Config) {y : Yaml F} (hy : TextTree y) : Utf8Text (Emitter.dump fo cfg y) := by
  have h1 := C76_dump fo (fun b => [b]) (fun b => by simp) (fun _ _ => true) cfg y [] 0 (fun c hc => by cases hc) (fun a c b e => by simp at e)
  have h2 := C78_emitter fo (fun b => [b]) (fun b h p hp => by rw [List.mem_singleton.1 hp]; exact h) hf (fun _ _ => true) cfg hy [] 0 (fun c hc => by cases hc)
  rcases hr : dumpIo (fun _ _ => true) (fun b => [b]) fo cfg y ⟨[], 0⟩ with ⟨r, s⟩
  rw [hr] at h1 h2
  cases r with
  | true =>
    have h3 := text_passed s.calls h2
    rw [h1.2.2] at h3
    exact h3
  | false =>
    obtain ⟨h1, cs, p, e, _⟩ := h1
    have := h1 cs (p, false) [] e
    simp at this

omit hcut in
/-- **C78** What the serialiser writes to a `String` for a value is a text. -/
theorem C78_toPrettyString (ext : Ser.Extern F) (hw : ∀ s, Utf8Text s → ∀ w ∈ ext.words s, Utf8Text w.1) (fm : Ser.Formatter)
    (hi : Utf8Text fm.indentor) (hn : Utf8Text fm.nullFormat) {v : Val F} (hv : TextVal v) {t} (ht : Ser.toPrettyString fo ext fm v = some t) : Utf8Text t := by
  obtain ⟨m, hm, h1⟩ := C77_serialize fo ext (fun b => [b]) (fun b => by simp) (fun _ _ => true) fm v [] 0 (fun c hc => by cases hc) (fun a c b e => by simp at e) ht
  have h2 := C78_serialize fo (fun b => [b]) (fun b h p hp => by rw [List.mem_singleton.1 hp]; exact h) hf ext hw (fun _ _ => true) fm hi hn hv hm [] 0 (fun c hc => by cases hc)
  rcases hr : m ⟨[], 0⟩ with ⟨r, s⟩
  rw [hr] at h1 h2
  cases r with
  | true =>
    have h3 := text_passed s.calls h2
    rw [h1.2.2] at h3
    exact h3
  | false =>
    obtain ⟨h1, cs, p, e, _⟩ := h1
    have := h1 cs (p, false) [] e
    simp at this

omit hcut hf in
/-- **C78** And everything that is passed for a character. -/
theorem C78_char (W : Writer) (c : Char) (before : List (List Byte × Bool)) (level : Int) (hb : ∀ c ∈ before, Utf8Text c.1) :
    ∀ p ∈ (serializeCharIo W c.toNat ⟨before, level⟩).2.calls, Utf8Text p.1 := fun p h =>
  v_iff.1 (clean_char c ⟨before, level⟩ (fun c h => v_iff.2 (hb c h)) p h)

/-! ## Trees it applies to -/

/-- `"é\n€: 1"` in a sequence: the string is quoted, the parts around the line break are passed on their own -/
example : TextTree (F := Unit) (.seq [.scalar (.str bs!"é\n€: 1")]) ∧
    ((dumpIo (F := Unit) (fun _ _ => true) (fun b => [b]) ⟨fun _ => none, fun _ => [], (), (), ()⟩ {} (.seq [.scalar (.str bs!"é\n€: 1")]) ⟨[], 0⟩).2.calls.map (·.1)) =
      [bs!"---\n", bs!"-", bs!" ", bs!"\"", bs!"é", bs!"\\n", bs!"€: 1", bs!"\""] :=
  ⟨.seq (by simp only [List.mem_singleton, forall_eq]; exact .str (v_iff.1 (by unfold V; decide +kernel))), by decide +kernel⟩

/-- `Some("aé b")` with one word for each character and lines of 3 characters: the line is passed without its last byte, a space -/
example : TextVal (F := Unit) (.some (.str bs!"aé b")) ∧
    (serializeIo (F := Unit) (fun _ _ => true) (fun b => [b]) ⟨fun _ => none, fun _ => [], (), (), ()⟩
      ⟨fun _ => false, fun _ => [(bs!"a", 1), (bs!"é", 1), (bs!" ", 1), (bs!"b", 1)]⟩ { Ser.Formatter.pretty with prefStringLength := 3 } (.some (.str bs!"aé b"))).map
        (fun m => (m ⟨[], 0⟩).2.calls.map (·.1)) = some [bs!"\"", bs!"aé", bs!"\n", bs!"b", bs!"\""] :=
  ⟨.some (.str (v_iff.1 (by unfold V; decide +kernel))), by decide +kernel⟩

end Verif.Props
