import Verif.Lemmas.ScanDocs
import Verif.Props.Scroll
/-!
# C57: several documents

`Stream` is in `Verif.Spec.Block`.
-/
namespace Verif.Props
open Verif Verif.Spec Verif.Spec.Block Verif.Scanner
variable {F : Type}

/-- C57, the full statement: a text with any number of documents in block style loads, with enough iterations, as the values the documents
stand for. -/
def C57_full (fo : FloatOps F) : Prop :=
  ∀ t xs, Stream true fo (.scalar .null) t xs → ∃ N, ∀ cfg n, N ≤ cfg.fuel → N ≤ n → Loader.loadFrom fo cfg n t = .ok xs

/-- C57 with the empty string for nodes that are missing, and for texts where no block scalar with its content in the first column is
followed by `---`. What is missing: these, for which the claim is false, and what is missing in C54–C56. -/
theorem C57_documents_partial {fo : FloatOps F} {t xs} (h : Stream false fo (.scalar (.str [])) t xs) :
    ∃ N, ∀ cfg n, N ≤ cfg.fuel → N ≤ n → Loader.loadFrom fo cfg n t = .ok xs := load_stream h

/-- five documents: a bare one, a block scalar beside its marker, a missing one, a sequence below its marker, a bare one after `...` -/
def docsText : List Byte := bs!"a: x\n--- |-\n\n   # a\n    b\n\n\n---\n---  # four\n- y\n...\n# five\n  z\n...\n"

def docsTrees (absent : Yaml F) : List (Yaml F) :=
  [.map [(.scalar (.str bs!"a"), .scalar (.str bs!"x"))], .scalar (.str bs!"\n# a\n b"), absent, .seq [.scalar (.str bs!"y")], .scalar (.str bs!"z")]

theorem docs_hello {full} {fo : FloatOps F} {absent} : Stream full fo absent docsText (docsTrees absent) := by
  have w : ∀ {p}, ∀ c ∈ bs!"axyz", Tall full fo p [c] (.scalar (.str [c])) := fun c hc => by
    simp at hc
    rcases hc with rfl | rfl | rfl | rfl <;> exact block_word ⟨by simp, by simp [Block.Ink], by simp, by simp⟩ (by decide) (resolves_str rfl (by decide))
  refine .inl ⟨[], 0, docsText, .nil, ?_, rfl, by decide⟩
  refine .next (f := none) (t := bs!"a: x") (g := bs!"\n") (r := bs!"--- |-\n\n   # a\n    b\n\n\n---\n---  # four\n- y\n...\n# five\n  z\n...\n") (.bare (E := []) (.map (.one ?_))) (.inl gap_lf) ?_
  · exact .inline (k := bs!"a") (j := 0) (m := 0) (t := bs!"x") ⟨w 97 (by simp), by simp⟩ (by decide) (w 120 (by simp))
  refine .next (f := some 3) (t := bs!"--- |-\n\n   # a\n    b\n\n") (g := bs!"\n") (r := bs!"---\n---  # four\n- y\n...\n# five\n  z\n...\n") (.explicit (.inline (m := 0) (.block (scroll_literal (by decide)) .untagged)))
    (.inl (.inl ⟨by decide, rfl⟩)) ?_
  refine .next (f := none) (t := bs!"---") (g := bs!"\n") (r := bs!"---  # four\n- y\n...\n# five\n  z\n...\n") (.explicit .absent) (.inl gap_lf) ?_
  refine .closed (f := none) (t := bs!"---  # four\n- y") (g := bs!"\n") (m := 2) (e := bs!"\n# five\n  ") (r := bs!"z\n...\n") ?_ (.inl gap_lf) ?_ ?_
  · refine .explicit ?_
    exact .under (m := 0) (g := bs!"  # four\n") (t := bs!"- y") ⟨bs!"  # four", [], .inr ⟨1, bs!"# four", ⟨bs!" four", rfl, by simp⟩, rfl⟩, .nil, rfl⟩
      (.seq (.one (.inline (m := 0) (.leaf (w 121 (by simp))))))
  · exact ⟨[], bs!"# five\n", .inl ⟨0, rfl⟩, .cons (l := bs!"# five") (.inr ⟨0, _, ⟨bs!" five", rfl, by simp⟩, rfl⟩) .nil, rfl⟩
  · exact .last (f := none) (t := bs!"z") (g := bs!"\n") (b := bs!"\n") (.bare (.leaf (w 122 (by simp)))) (.inl gap_lf) (.inr ⟨[], [], [], .inl ⟨0, rfl⟩, .nil, .inl ⟨0, rfl⟩, rfl⟩)

example (fo : FloatOps F) : ∃ N, ∀ cfg n, N ≤ cfg.fuel → N ≤ n → Loader.loadFrom fo cfg n docsText = .ok (docsTrees (.scalar (.str []))) :=
  C57_documents_partial docs_hello

/-- a text without documents -/
example (fo : FloatOps F) : ∃ N, ∀ cfg n, N ≤ cfg.fuel → N ≤ n → Loader.loadFrom fo cfg n bs!"# nothing\n  " = .ok [] :=
  C57_documents_partial (.inr ⟨bs!"# nothing\n", bs!"  ", .cons (l := bs!"# nothing") (.inr ⟨0, _, ⟨bs!" nothing", rfl, by simp⟩, rfl⟩) .nil, .inl ⟨2, rfl⟩, rfl, rfl⟩)

/-- C57 is false: a document that is missing loads as the empty string; and a block scalar with its content in the first column swallows
the marker `---` and all that follows. -/
theorem C57_documents_false (fo : FloatOps F) :
    (Stream true fo (.scalar .null) bs!"---\n---\na" [.scalar .null, .scalar (.str bs!"a")] ∧
      ∃ N, ∀ cfg n, N ≤ cfg.fuel → N ≤ n → Loader.loadFrom fo cfg n bs!"---\n---\na" = .ok [.scalar (.str []), .scalar (.str bs!"a")]) ∧
    (∀ absent, Stream true fo absent bs!"|\na\n---\nb\n" [.scalar (.str bs!"a\n"), .scalar (.str bs!"b")] ∧
      ∀ cfg n, 40 ≤ cfg.fuel → 40 ≤ n → Loader.loadFrom fo cfg n bs!"|\na\n---\nb\n" = .ok [.scalar (.str bs!"a\n---\nb\n")]) ∧
    ¬ C57_full fo := by
  have w : ∀ {full p}, ∀ c ∈ bs!"ab", Tall full fo p [c] (.scalar (.str [c])) := fun c hc => by
    simp at hc
    rcases hc with rfl | rfl <;> exact block_word ⟨by simp, by simp [Block.Ink], by simp, by simp⟩ (by decide) (resolves_str rfl (by decide))
  have h1 : ∀ full absent, Stream full fo absent bs!"---\n---\na" [absent, .scalar (.str bs!"a")] := fun full absent =>
    .inl ⟨[], 0, _, .nil, .next (f := none) (t := bs!"---") (g := bs!"\n") (r := bs!"---\na") (.explicit .absent) (.inl gap_lf)
      (.one (f := none) (t := bs!"---\na") (b := []) (.explicit (.under (m := 0) (g := bs!"\n") (t := bs!"a") break_lf (.leaf (w 97 (by simp))))) (.inl (.inl ⟨0, rfl⟩))), rfl, by decide⟩
  have h2 : ∀ absent, Stream true fo absent bs!"|\na\n---\nb\n" [.scalar (.str bs!"a\n"), .scalar (.str bs!"b")] := fun absent => by
    refine .inl ⟨[], 0, _, .nil, .next (f := some 0) (t := bs!"|\na") (g := bs!"\n") (r := bs!"---\nb\n") (.bare (E := []) (.block ?_)) (.inr ⟨rfl, rfl, rfl⟩)
      (.one (f := none) (t := bs!"---\nb") (b := bs!"\n") (.explicit (.under (m := 0) (g := bs!"\n") (t := bs!"b") break_lf (.leaf (w 98 (by simp))))) ?_), rfl, by decide⟩
    · exact .mk (folded := false) (ch := .clip) (d := none) (h := []) (o := []) (m₀ := 0) (e₀ := []) (l := bs!"a") (t := bs!"a") (v := bs!"a") (m := 0) (e := [])
        ⟨[], .none, .inl rfl⟩ (.inl ⟨0, rfl⟩) .nil (.one (row (by simp) (by simp))) .nil ⟨by omega, by simp⟩ (by simp)
    · exact .inr ⟨[], [], [], .inl ⟨0, rfl⟩, .nil, .inl ⟨0, rfl⟩, rfl⟩
  have h3 : ∀ cfg n, 40 ≤ cfg.fuel → 40 ≤ n → Loader.loadFrom fo cfg n bs!"|\na\n---\nb\n" = .ok [.scalar (.str bs!"a\n---\nb\n")] := fun cfg n =>
    load_more (i := bs!"|\na\n---\nb\n") (evs := [.streamStart, .documentStart false, .scalar ⟨bs!"a\n---\nb\n", .literal, 0, none⟩, .documentEnd, .streamEnd]) (by decide +kernel) rfl (by decide +kernel)
  refine ⟨⟨h1 _ _, C57_documents_partial (h1 _ _)⟩, fun absent => ⟨h2 absent, h3⟩, fun h => ?_⟩
  obtain ⟨N, hN⟩ := h _ _ (h2 _)
  have := hN ⟨N + 40, false⟩ (N + 40) (by simp) (by simp)
  rw [h3 _ _ (by simp) (by simp)] at this
  cases this

end Verif.Props
