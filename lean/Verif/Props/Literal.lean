import Verif.Props.RoundTrip
import Verif.Lemmas.LoadEval
/-!
# Property C32: a string written as a literal block loads as the same string
-/
namespace Verif.Props
open Verif Verif.Spec Verif.Emitter Verif.Scanner Verif.Loader
variable {F : Type}

/-- C32 as stated: every string that is written as a literal block is loaded as itself, as a document and as an item of a sequence (unless the
bounds on the scanner's loops and on the number of tokens are too small). -/
def C32_full (fo : FloatOps F) : Prop :=
  ∀ (ec : Config) (v : List Byte) (cfg : Cfg) (n : Nat), ec.bestIndent = 2 → shouldEmitStringAsBlock ec v = true →
    ∀ x, x = .scalar (.str v) ∨ x = .seq [.scalar (.str v)] → loadFrom fo cfg n (dump fo ec x) ≠ .hang → loadFrom fo cfg n (dump fo ec x) = .ok [x]

/-- **C32 (partial)** A string that the emitter writes as a literal block loads as the same string: as a whole document, as an item of a sequence
between other items, and as the value of a key. It may have any number of lines and empty lines, and its lines may begin with any number of
spaces except for the first. Blocks at any depth of a tree are part of `C44_roundtrip_partial`. Partial: `LiteralBack` leaves out the strings for
which it is false, see `C32_literal_false`. -/
theorem C32_literal_partial (fo : FloatOps F) (ec : Config) (v : List Byte) (hi : ec.bestIndent = 2) (hb : shouldEmitStringAsBlock ec v = true) :
    (LiteralBack true v → ∃ N, ∀ cfg n, N ≤ cfg.fuel → N ≤ n →
      loadFrom fo cfg n (dump fo ec (.scalar (.str v))) = .ok [.scalar (.str v)]) ∧
    (LiteralBack false v → ∀ xs ys, (∀ x ∈ xs ++ ys, Printable fo ec false x) → ∃ N, ∀ cfg n, N ≤ cfg.fuel → N ≤ n →
      loadFrom fo cfg n (dump fo ec (.seq (xs ++ .scalar (.str v) :: ys))) = .ok [.seq (xs ++ .scalar (.str v) :: ys)]) ∧
    (LiteralBack false v → ∀ b, ∃ N, ∀ cfg n, N ≤ cfg.fuel → N ≤ n →
      loadFrom fo cfg n (dump fo ec (.map [(.scalar (.bool b), .scalar (.str v))])) = .ok [.map [(.scalar (.bool b), .scalar (.str v))]]) := by
  have leaf : ∀ doc, LiteralBack doc v → Printable fo ec doc (.scalar (.str v)) := fun doc h => .scalar (by rw [ScalarBack, if_pos hb]; exact h)
  have load : ∀ x, Printable fo ec true x → ∃ N, ∀ cfg n, N ≤ cfg.fuel → N ≤ n → loadFrom fo cfg n (dump fo ec x) = .ok [x] := by
    intro x hx
    obtain ⟨N, h⟩ := C44_roundtrip_partial fo ec x hi hx
    exact ⟨N, fun cfg n h1 h2 => (h cfg n h1 h2).1⟩
  refine ⟨fun h => load _ (leaf true h), fun h xs ys hp => load _ (.seq fun x hx => ?_), fun h b => load _ (.map ?_ ?_ ?_ ?_ ?_)⟩
  · simp only [List.mem_append, List.mem_cons] at hx hp
    rcases hx with hx | rfl | hx
    · exact hp x (.inl hx)
    · exact leaf false h
    · exact hp x (.inr hx)
  · simp; exact .scalar trivial
  · simp; exact leaf false h
  · intro e he k hk
    simp at he
    subst he
    simp at hk
    subst hk
    cases b <;> simp [dump, emitNode, emitScalar, ESt.put]
  · simp
  · simp

/-- a text of several lines, with empty lines and indented lines -/
def exText : List Byte := bs!"\nlet x =\n\n    1;\n\tprint x\n"

/-- how it is written in a sequence -/
example : dump noFloats ⟨2, true, true⟩ (.seq [.scalar (.str exText), .scalar (.int 1)] : Yaml Unit) =
    bs!"---\n- |\n  \n  let x =\n  \n      1;\n  \tprint x\n- 1" := by decide +kernel

/-- no line of `v` looks like the end of a document, when the lines of `v` after the first begin with other bytes -/
theorem noDots {v : List Byte} (h : ∀ p, p ≤ v.length → ¬ bs!"..." <+: v.drop p) (a b : List Byte) (hv : v = a ++ b) : ¬ DocumentEndAt b := by
  intro hd
  refine h a.length (by rw [hv]; simp) ?_
  rw [hv, List.drop_left]
  exact hd.1

/-- the hypotheses are met by it -/
example : shouldEmitStringAsBlock ⟨2, true, true⟩ exText = true ∧ LiteralBack true exText ∧ LiteralBack false exText := by
  refine ⟨by decide +kernel, ⟨by decide, by decide, by decide, by decide, by decide, fun _ a b h _ => noDots (v := exText) (by decide) a b h⟩,
    ⟨by decide, by decide, by decide, by decide, by simp, by simp⟩⟩

/-- **C32 as stated is false.** The emitter writes each of these strings as a literal block, and each loads as something else: a string whose
first line begins with a space loses that space (and if a later line is indented less, the document cannot be loaded),
line feeds at the end are lost but one, a string of line feeds only becomes empty in front of another item. As a whole document, a string that begins
with a tab cannot be loaded, and a string with a line `...` ends there. A mapping whose key is such a string loads as a string. -/
theorem C32_literal_false :
    let ec : Config := ⟨2, true, true⟩
    let load (x : Yaml Unit) := loadFrom noFloats ⟨50, false⟩ 50 (dump noFloats ec x)
    let str (v : List Byte) : Yaml Unit := .scalar (.str v)
    (∀ v ∈ [bs!" a\nb", bs!" a\n b", bs!"a\n\n", bs!"\n", bs!"\ta\nb", bs!"a\n...\nb", bs!"a\nb"], shouldEmitStringAsBlock ec v = true) ∧
    load (str bs!" a\n b") = .ok [str bs!"a\nb"] ∧
    (∃ e, load (str bs!" a\nb") = .err e) ∧
    load (.seq [str bs!"a\n\n"]) = .ok [.seq [str bs!"a\n"]] ∧
    load (.seq [str bs!"\n", str bs!"b"]) = .ok [.seq [str [], str bs!"b"]] ∧
    (∃ e, load (str bs!"\ta\nb") = .err e) ∧
    load (str bs!"a\n...\nb") = .ok [str bs!"a", str bs!"b"] ∧
    load (.map [(str bs!"a\nb", str bs!"c")]) = .ok [str bs!"a\nb: c"] ∧
    ¬ C32_full noFloats := by
  have h1 : loadFrom noFloats ⟨50, false⟩ 50 (dump noFloats ⟨2, true, true⟩ (.scalar (.str bs!" a\n b"))) = .ok [.scalar (.str bs!"a\nb")] :=
    load_ok (evs := [.streamStart, .documentStart true, .scalar ⟨bs!"a\nb", .literal, 0, none⟩, .documentEnd, .streamEnd]) (by decide +kernel) rfl
  refine ⟨by decide +kernel,
    h1,
    ⟨_, load_err (e := .scanner ⟨10, 1, 4⟩ "did not find expected <document start>") (by decide +kernel)⟩,
    load_ok (evs := [.streamStart, .documentStart true, .sequenceStart 0 none, .scalar ⟨bs!"a\n", .literal, 0, none⟩, .sequenceEnd, .documentEnd,
      .streamEnd]) (by decide +kernel) rfl,
    load_ok (evs := [.streamStart, .documentStart true, .sequenceStart 0 none, .scalar ⟨[], .literal, 0, none⟩, .scalar ⟨bs!"b", .plain, 0, none⟩,
      .sequenceEnd, .documentEnd, .streamEnd]) (by decide +kernel) rfl,
    ⟨_, load_err (e := .scanner ⟨4, 1, 2⟩ "a block scalar content cannot start with a tab") (by decide +kernel)⟩,
    load_ok (evs := [.streamStart, .documentStart true, .scalar ⟨bs!"a", .literal, 0, none⟩, .documentEnd, .documentStart false,
      .scalar ⟨bs!"b", .plain, 0, none⟩, .documentEnd, .streamEnd]) (by decide +kernel) rfl,
    load_ok (evs := [.streamStart, .documentStart true, .scalar ⟨bs!"a\nb: c", .literal, 0, none⟩, .documentEnd, .streamEnd])
      (by decide +kernel) rfl, fun h => ?_⟩
  have := h ⟨2, true, true⟩ bs!" a\n b" ⟨50, false⟩ 50 rfl (by decide +kernel) _ (.inl rfl) (by rw [h1]; nofun)
  rw [h1] at this
  simp at this

end Verif.Props
