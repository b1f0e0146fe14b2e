import Verif.Props.Block
import Verif.Props.Scanner
/-!
# C56: block scalars

`Scroll`, `Gap` and `End` are in `Verif.Spec.Block`. C54 has block scalars at any depth of a text in block style.
-/
namespace Verif.Props
open Verif Verif.Spec Verif.Spec.Block Verif.Scanner
variable {F : Type}

/-- C56, the full statement: a text that is one block scalar loads, with enough iterations, as the string the block scalar stands for. -/
def C56_full (fo : FloatOps F) : Prop :=
  ∀ c t v b, Scroll true 0 c t v → End true (some c) b → ∃ N, ∀ cfg n, N ≤ cfg.fuel → N ≤ n → Loader.loadFrom fo cfg n (t ++ b) = .ok [.scalar (.str v)]

/-- a block scalar begins with `|` or `>` -/
theorem scroll_head {full p c t v} (h : Scroll full p c t v) : t.head? = some b%'|' ∨ t.head? = some b%'>' := by
  cases h with
  | @mk folded => cases folded <;> simp
  | @empty folded => cases folded <;> simp

theorem head_bom {t b : List Byte} (h : t.head? = some b%'|' ∨ t.head? = some b%'>') : (t ++ b).take 3 ≠ [0xEF, 0xBB, 0xBF] := by
  cases t with
  | nil => simp at h
  | cons x t => intro hx; simp at h hx; omega

/-- C56 for block scalars with content; at the end of the text, the content begins to the left of column 125. What is missing: the others, for
which the claim is false. -/
theorem C56_scroll_partial {fo : FloatOps F} {c t v b} (h : Scroll false 0 c t v) (hb : End false (some c) b) :
    ∃ N, ∀ cfg n, N ≤ cfg.fuel → N ≤ n → Loader.loadFrom fo cfg n (t ++ b) = .ok [.scalar (.str v)] ∧ Loader.loadSingle fo cfg n (t ++ b) = .ok (.scalar (.str v)) :=
  C54_block_partial ⟨[], 0, some c, t, b, [], .nil, .block h, hb, by simp [spaces], head_bom (scroll_head h)⟩

/-- C56 for an item, followed by more items. What is missing: as above. -/
theorem C56_item_partial {fo : FloatOps F} {c f t v g r xs b E} (h : Scroll false 1 c t v) (hg : Gap (some c) 0 g) (hr : Items false fo (.scalar (.str [])) [] 0 f r xs E)
    (hb : End false f b) :
    ∃ N, ∀ cfg n, N ≤ cfg.fuel → N ≤ n → Loader.loadFrom fo cfg n (bs!"- " ++ (t ++ (g ++ (r ++ b)))) = .ok [.seq (.scalar (.str v) :: xs)] := by
  obtain ⟨N, hN⟩ := C54_block_partial (fo := fo) (t := bs!"- " ++ (t ++ (g ++ (r ++ b)))) (x := .seq (.scalar (.str v) :: xs))
    ⟨[], 0, f, (bs!"- " ++ t) ++ (g ++ r), b, E, .nil, .seq (.more (.inline (m := 0) (.block h)) hg hr), hb, by simp [spaces], by simp⟩
  exact ⟨N, fun cfg n hf hn => (hN cfg n hf hn).1⟩

/-- C56 for the value of an entry, followed by more entries. What is missing: as above. -/
theorem C56_value_partial {fo : FloatOps F} {c f k y t v g r es b E} (hk : Leaf false fo k y) (hl : k.length ≤ 1024) (hbom : k.take 3 ≠ [0xEF, 0xBB, 0xBF])
    (h : Scroll false 1 c t v) (hg : Gap (some c) 0 g) (hr : Entries false fo (.scalar (.str [])) [] 0 f r es E) (hb : End false f b) :
    ∃ N, ∀ cfg n, N ≤ cfg.fuel → N ≤ n → Loader.loadFrom fo cfg n (k ++ (bs!": " ++ (t ++ (g ++ (r ++ b))))) = .ok [.map ((y, .scalar (.str v)) :: es)] := by
  have hb' : (k ++ (bs!": " ++ (t ++ (g ++ (r ++ b))))).take 3 ≠ [0xEF, 0xBB, 0xBF] := by
    intro hx
    apply hbom
    match k, hx with
    | [], hx => simp at hx
    | [a], hx => simp at hx
    | [a, b], hx => simp at hx
    | a :: b :: c :: k, hx => simpa using hx
  obtain ⟨N, hN⟩ := C54_block_partial (fo := fo) (t := k ++ (bs!": " ++ (t ++ (g ++ (r ++ b))))) (x := .map ((y, .scalar (.str v)) :: es))
    ⟨[], 0, f, (k ++ (bs!": " ++ t)) ++ (g ++ r), b, E, .nil, .map (.more (.block (j := 0) (m := 0) hk (by omega) h) hg hr), hb, by simp [spaces], hb'⟩
  exact ⟨N, fun cfg n hf hn => (hN cfg n hf hn).1⟩

/-! ## Cases -/

theorem row {c : Nat} {x : Byte} {l : List Byte} (h : ∀ b ∈ x :: l, b ≠ b%'\n' ∧ b ≠ b%'\r') (hm : x ≠ b%'-' ∧ x ≠ b%'.') : Row c (x :: l) :=
  ⟨by simp, h, fun _ m r' hm' e => by rcases hm' with rfl | rfl <;> simp at e <;> omega⟩

/-- folded, with a digit, a comment after the header, empty lines, a line further right, and all line ends kept -/
theorem scroll_folded {full} : Scroll full 1 2 bs!">2+ # folded\n\n  one\n  two\n\n \n  three\n    four\n\n  five\n  "
    bs!"\none two\n\nthree\n  four\n\nfive\n\n" := by
  refine .mk (folded := true) (ch := .keep) (d := some 2) (h := bs!"2+") (o := bs!" # folded") (m₀ := 1) (e₀ := bs!"\n") (l := bs!"one")
    (t := bs!"one\n  two\n\n \n  three\n    four\n\n  five") (v := bs!"one two\n\nthree\n  four\n\nfive") (m := 1) (e := bs!"\n  ")
    ⟨bs!"2", .some (by decide) (by decide), .inr rfl⟩ (.inr ⟨0, bs!"# folded", ⟨bs!" folded", rfl, by simp⟩, rfl⟩) (.cons (k := 0) (by decide) .nil)
    ?_ (.cons (k := 2) (by decide) .nil) rfl (by simp)
  refine .more (l := bs!"one") (m := 0) (e := []) (l' := bs!"two") (t := bs!"two\n\n \n  three\n    four\n\n  five") (v := bs!"two\n\nthree\n  four\n\nfive") (row (by simp) (by simp)) .nil ?_
  refine .more (l := bs!"two") (m := 2) (e := bs!"\n \n") (l' := bs!"three") (t := bs!"three\n    four\n\n  five") (v := bs!"three\n  four\n\nfive") (row (by simp) (by simp))
    (.cons (k := 0) (by decide) (.cons (k := 1) (by decide) .nil)) ?_
  refine .more (l := bs!"three") (m := 0) (e := []) (l' := bs!"  four") (t := bs!"  four\n\n  five") (v := bs!"  four\n\nfive") (row (by simp) (by simp)) .nil ?_
  exact .more (l := bs!"  four") (m := 1) (e := bs!"\n") (l' := bs!"five") (t := bs!"five") (v := bs!"five") (row (by simp) (by simp)) (.cons (k := 0) (by decide) .nil) (.one (row (by simp) (by simp)))

/-- literal, with its last line end removed -/
theorem scroll_literal {full p} (hp : p ≤ 3) : Scroll full p 3 bs!"|-\n\n   # a\n    b\n\n" bs!"\n# a\n b" := by
  refine .mk (folded := false) (ch := .strip) (d := none) (h := bs!"-") (o := []) (m₀ := 1) (e₀ := bs!"\n") (l := bs!"# a")
    (t := bs!"# a\n    b") (v := bs!"# a\n b") (m := 2) (e := bs!"\n\n")
    ⟨[], .none, .inl rfl⟩ (.inl ⟨0, rfl⟩) (.cons (k := 0) (by decide) .nil) ?_ (.cons (k := 0) (by decide) (.cons (k := 0) (by decide) .nil)) ⟨hp, by simp⟩ (by simp)
  exact .more (l := bs!"# a") (m := 0) (e := []) (l' := bs!" b") (t := bs!" b") (v := bs!" b") (row (by simp) (by simp)) .nil (.one (row (by simp) (by simp)))

example (fo : FloatOps F) : ∃ N, ∀ cfg n, N ≤ cfg.fuel → N ≤ n →
    Loader.loadFrom fo cfg n bs!"|-\n\n   # a\n    b\n\n\n  # end" = .ok [.scalar (.str bs!"\n# a\n b")] ∧
    Loader.loadSingle fo cfg n bs!"|-\n\n   # a\n    b\n\n\n  # end" = .ok (.scalar (.str bs!"\n# a\n b")) :=
  C56_scroll_partial (t := bs!"|-\n\n   # a\n    b\n\n") (b := bs!"\n  # end") (scroll_literal (by decide)) (.inr ⟨2, bs!"# end", by decide, ⟨bs!" end", rfl, by simp⟩, .inl rfl⟩)

example (fo : FloatOps F) : ∃ N, ∀ cfg n, N ≤ cfg.fuel → N ≤ n →
    Loader.loadFrom fo cfg n bs!"- >2+ # folded\n\n  one\n  two\n\n \n  three\n    four\n\n  five\n  \n- |-\n\n   # a\n    b\n\n\n" =
      .ok [.seq [.scalar (.str bs!"\none two\n\nthree\n  four\n\nfive\n\n"), .scalar (.str bs!"\n# a\n b")]] :=
  C56_item_partial (t := bs!">2+ # folded\n\n  one\n  two\n\n \n  three\n    four\n\n  five\n  ") (g := bs!"\n") (r := bs!"- |-\n\n   # a\n    b\n\n") (b := bs!"\n") scroll_folded (.inl ⟨by decide, rfl⟩) (.one (.inline (m := 0) (.block (scroll_literal (by decide)))))
    (.inl ⟨0, by decide, by simp, rfl⟩)

example (fo : FloatOps F) : ∃ N, ∀ cfg n, N ≤ cfg.fuel → N ≤ n →
    Loader.loadFrom fo cfg n bs!"a: |-\n\n   # a\n    b\n\n\nb: |-\n\n   # a\n    b\n\n\n" =
      .ok [.map [(.scalar (.str bs!"a"), .scalar (.str bs!"\n# a\n b")), (.scalar (.str bs!"b"), .scalar (.str bs!"\n# a\n b"))]] :=
  C56_value_partial (k := bs!"a") (t := bs!"|-\n\n   # a\n    b\n\n") (g := bs!"\n") (r := bs!"b: |-\n\n   # a\n    b\n\n") (b := bs!"\n") (leaf_word ⟨by simp, by simp [Block.Ink], by simp, by simp⟩ (by decide) (resolves_str rfl (by decide)))
    (by decide) (by decide) (scroll_literal (by decide)) (.inl ⟨by decide, rfl⟩)
    (.one (.block (k := bs!"b") (j := 0) (m := 0) (leaf_word ⟨by simp, by simp [Block.Ink], by simp, by simp⟩ (by decide) (resolves_str rfl (by decide))) (by decide) (scroll_literal (by decide))))
    (.inl ⟨0, by decide, by simp, rfl⟩)

/-! ## What is false -/

/-- the library loops on a text if the scanner does, on its first token -/
theorem load_hang {fo : FloatOps F} {i cfg n} (h : Hangs (fetchNextToken cfg) (started i)) (hf : 2 ≤ cfg.fuel) (hn : 2 ≤ n) : Loader.loadFrom fo cfg n i = .hang := by
  have h2 := hangs_next (cfg := cfg) (s := started i) rfl rfl rfl h
  obtain ⟨m, rfl⟩ : ∃ m, n = m + 2 := ⟨n - 2, by omega⟩
  have : Spec.scanInput cfg i (m + 2) = ([⟨⟨⟨0, 1, 1⟩, ⟨0, 1, 1⟩⟩, .streamStart⟩], .hung) := by
    unfold Spec.scanInput
    simp only [Spec.scan, next_new hf]
    revert h2
    rcases next cfg (started i) with ⟨_ | _ | _ | _, s1⟩ <;> simp
  unfold Loader.loadFrom Loader.parserOn
  rw [this]
  rfl

/-- what the library loads from a text with some limits, it loads with larger ones -/
theorem load_more {fo : FloatOps F} {i k evs l} (h : ∀ d, Loader.pushed true ⟨k, d⟩ k i = (.ok (), evs)) (hl : Loader.onEvents fo Loader.init evs = some l)
    (hs : ∀ d, (Spec.scanInput ⟨k, d⟩ i k).2 = .ended) {cfg n} (hf : k ≤ cfg.fuel) (hn : k ≤ n) : Loader.loadFrom fo cfg n i = .ok l.docs := by
  have := Loader.load_ok (fo := fo) (h cfg.debug) hl
  rw [← this, Loader.loadFrom, Loader.loadFrom, parserOn_more (cfg := ⟨k, cfg.debug⟩) (cfg' := cfg) ⟨hf, rfl⟩ hn (.inl (hs _))]

/-- C56 is false: a block scalar without content at the end of the text loads as a line feed, and one whose content begins at column 125
(or to the right of it) at the end of the text makes the library loop for ever. -/
theorem C56_scroll_false (fo : FloatOps F) :
    (Scroll true 0 0 bs!">" [] ∧ End true (some 0) bs!"\n" ∧
      ∀ cfg n, 40 ≤ cfg.fuel → 40 ≤ n → Loader.loadFrom fo cfg n (bs!">" ++ bs!"\n") = .ok [.scalar (.str bs!"\n")]) ∧
    (∀ c, 125 ≤ c → Scroll true 0 c (bs!"|\n" ++ (spaces c ++ bs!"x")) bs!"x\n" ∧ End true (some c) bs!"\n" ∧
      ∀ cfg n, c + 2 ≤ cfg.fuel → 2 ≤ n → Loader.loadFrom fo cfg n (bs!"|\n" ++ (spaces c ++ bs!"x") ++ bs!"\n") = .hang) ∧
    ¬ C56_full fo := by
  have h1 : Scroll true 0 0 bs!">" [] :=
    .empty (folded := true) (ch := .clip) (d := none) (h := []) (o := []) (m := 0) (e := []) rfl ⟨[], .none, .inl rfl⟩ (.inl ⟨0, rfl⟩) .nil
  have h2 : End true (some 0) bs!"\n" := .inl ⟨0, by decide, by simp, rfl⟩
  have h3 : ∀ cfg n, 40 ≤ cfg.fuel → 40 ≤ n → Loader.loadFrom fo cfg n (bs!">" ++ bs!"\n") = .ok [.scalar (.str bs!"\n")] := fun cfg n =>
    load_more (i := bs!">" ++ bs!"\n") (evs := [.streamStart, .documentStart false, .scalar ⟨bs!"\n", .folded, 0, none⟩, .documentEnd, .streamEnd]) (by decide +kernel) rfl (by decide +kernel)
  refine ⟨⟨h1, h2, h3⟩, fun c hc => ⟨?_, .inl ⟨0, by omega, by simp, rfl⟩, ?_⟩, fun h => ?_⟩
  · exact .mk (folded := false) (ch := .clip) (d := none) (h := []) (o := []) (m₀ := 0) (e₀ := []) (l := bs!"x") (t := bs!"x") (v := bs!"x") (m := 0) (e := [])
      ⟨[], .none, .inl rfl⟩ (.inl ⟨0, rfl⟩) .nil (.one (row (by simp) (by simp))) .nil ⟨by omega, by simp⟩ (by simp)
  · intro ⟨m, d⟩ n hf hn
    have := hangs_deep (m := m) (d := d) (n := c) hf hc
    exact load_hang (by simpa [spaces] using this) (by simp at hf ⊢; omega) hn
  · obtain ⟨N, hN⟩ := h _ _ _ _ h1 h2
    have := hN ⟨N + 40, false⟩ (N + 40) (by simp) (by simp)
    rw [h3 _ _ (by simp) (by simp)] at this
    cases this

end Verif.Props
