import Verif.Lemmas.LoadOut
import Verif.Lemmas.TextLoad
import Verif.Model.LoadText
import Verif.Spec.PullRuns
import Verif.Props.Scanner
import Verif.Props.Pieces
/-!
# C79: what is loaded from a text is text

`Spec/Utf8.lean` says what a text is, `Spec/TextTree.lean` what trees and events of texts are.
-/
namespace Verif.Props
open Verif Verif.Spec Verif.Scanner Verif.Parser Verif.Loader

theorem holds_on {cfg : Cfg} {t : List Byte} {n : Nat} (hf : t.length + 4 ≤ cfg.fuel) (ht : Utf8Text t) : Holds (parserOn cfg n t) :=
  holds_new fun x hx => C36_token_text_utf8 cfg t n hf ht x hx

theorem pulled_text : ∀ k {s : PSt}, Holds s → ∀ r ∈ (pullAll k s).1, TextEvent r.1
  | 0, _, _, r, hr => by cases hr
  | k + 1, s, h, r, hr => by
    have hn : ∀ x, (nextEvent s).1 = .ok (some x) → TextEv x ∧ Holds (nextEvent s).2 := by
      intro x hx
      have h1 := txt_nextEventImpl s h
      revert hx
      unfold nextEvent
      split
      · intro e; cases e
      · split
        · next ev sp s' e =>
          intro hx
          cases hx
          rw [e] at h1
          refine ⟨h1.2 _ rfl, ?_⟩
          dsimp only
          split
          · exact ⟨h1.1.toks, h1.1.token, h1.1.tags, h1.1.current⟩
          · exact h1.1
        · intro e; cases e
        · intro e; cases e
        · intro e; cases e
    unfold pullAll at hr
    split at hr
    · next e s' he =>
      rw [he] at hn
      obtain ⟨h1, h2⟩ := hn e rfl
      rcases List.mem_cons.1 hr with rfl | hr
      · exact h1
      · exact pulled_text k h2 r hr
    all_goals cases hr

/-- **C79** All texts and tags of the events of a text are texts, for any number of calls of `next_event`. -/
theorem C79_events {cfg : Cfg} {t : List Byte} {n k : Nat} (hf : t.length + 4 ≤ cfg.fuel) (ht : Utf8Text t) :
    ∀ r ∈ (pullAll k (parserOn cfg n t)).1, TextEvent r.1 := pulled_text k (holds_on hf ht)

variable {F : Type} (fo : FloatOps F)

theorem sent_text {cfg : Cfg} {t : List Byte} {n : Nat} (hf : t.length + 4 ≤ cfg.fuel) (ht : Utf8Text t) {multi l}
    (h : onEvents fo init ((load multi ⟨parserOn cfg n t, []⟩).2.out.map (·.1)) = some l) : ∀ y ∈ l.docs, TextTree y := by
  have h1 := (snd_whole (multi := multi) ⟨parserOn cfg n t, []⟩ ⟨holds_on hf ht, by simp⟩).1.2
  exact (held_events _ held_init (fun e he => by obtain ⟨r, hr, rfl⟩ := List.mem_map.1 he; exact h1 r hr) h).docs

/-- **C79** All strings and tags in the documents that are loaded from a text are texts. -/
theorem C79_load {cfg : Cfg} {t : List Byte} {n : Nat} (hf : t.length + 4 ≤ cfg.fuel) (ht : Utf8Text t) {ys} (h : loadFrom fo cfg n t = .ok ys) :
    ∀ y ∈ ys, TextTree y := by
  unfold loadFrom loadFromParser at h
  split at h
  · next s e =>
    split at h
    · next l hl =>
      cases h
      exact sent_text fo hf ht (by rw [e]; exact hl)
    · cases h
  all_goals cases h

/-- **C79** And in the first one, if only that is loaded. -/
theorem C79_load_single {cfg : Cfg} {t : List Byte} {n : Nat} (hf : t.length + 4 ≤ cfg.fuel) (ht : Utf8Text t) {y} (h : loadSingle fo cfg n t = .ok y) :
    TextTree y := by
  unfold loadSingle loadSingleFromParser at h
  split at h
  · next s e =>
    split at h
    · next l hl =>
      split at h
      · next d ds hd =>
        cases h
        exact sent_text fo hf ht (by rw [e]; exact hl) y (by simp [hd])
      · cases h
    · cases h
  all_goals cases h

/-- **C79** So a document that was loaded from a text is written as a text again. -/
theorem C79_again (hd : ∀ x, Utf8Text (fo.display x)) {cfg : Cfg} {t : List Byte} {n : Nat} (hf : t.length + 4 ≤ cfg.fuel) (ht : Utf8Text t) {ys}
    (h : loadFrom fo cfg n t = .ok ys) (ecfg : Emitter.Config) : ∀ y ∈ ys, Utf8Text (Emitter.dump fo ecfg y) :=
  fun y hy => C78_dump fo hd ecfg (C79_load fo hf ht h y hy)

/-! ## Texts it applies to -/

/-- a tag with a prefix, an escape and two documents -/
private def exText : List Byte := bs!"%TAG !e! my:\n--- !e!x [\"\\u20AC\", ü]\n--- ä\n"

example : Utf8Text exText ∧ exText.length + 4 ≤ 80 ∧
    (match loadFrom (F := Unit) ⟨fun _ => none, fun _ => [], (), (), ()⟩ ⟨80, true⟩ 80 exText with
      | .ok [.tagged t (.seq [.scalar (.str a), .scalar (.str b)]), .scalar (.str c)] => [t.handle, t.suffix, a, b, c] == [bs!"my:", bs!"x", bs!"€", bs!"ü", bs!"ä"]
      | _ => false) = true :=
  ⟨EmitterIo.v_iff.1 (by unfold EmitterIo.V; decide +kernel), by decide, by decide +kernel⟩

end Verif.Props
