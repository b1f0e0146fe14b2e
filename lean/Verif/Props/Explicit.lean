import Verif.Props.Flow
/-!
# C61: Keys after a question mark

The grammar and the tree each text stands for are in `Verif.Spec.Block`.
-/
namespace Verif.Props
open Verif Verif.Spec Verif.Spec.Block Verif.Spec.Core Verif.Scanner Verif.Scalar
variable {F : Type}

/-- C61, the full statement: `?` with any key and, on a later line, `:` with any value are an entry of a mapping; the value may be missing. -/
def C61_full (fo : FloatOps F) : Prop :=
  (∀ f₀ f k x g v y b E E', Side true fo (.scalar .null) [] 0 f₀ k x E → Gap f₀ 0 g → Side true fo (.scalar .null) E 0 f v y E' → End true f b →
    ∃ N, ∀ cfg n, N ≤ cfg.fuel → N ≤ n → Loader.loadFrom fo cfg n (b%'?' :: (k ++ (g ++ b%':' :: v)) ++ b) = .ok [.map [(x, y)]]) ∧
  ∀ f k x b E, Side true fo (.scalar .null) [] 0 f k x E → End true f b →
    ∃ N, ∀ cfg n, N ≤ cfg.fuel → N ≤ n → Loader.loadFrom fo cfg n (b%'?' :: k ++ b) = .ok [.map [(x, .scalar .null)]]

/-- C61 with the limits of C54 for keys and values, and without tagged keys. What is missing: those. -/
theorem C61_explicit_partial {fo : FloatOps F} {f₀ f k x g v y b E E'} (hk : Side false fo (.scalar (.str [])) [] 0 f₀ k x E) (hx : x ≠ .bad ∧ ∀ t z, x ≠ .tagged t z)
    (hg : Gap f₀ 0 g) (hv : Side false fo (.scalar (.str [])) E 0 f v y E') (hb : End false f b) :
    ∃ N, ∀ cfg n, N ≤ cfg.fuel → N ≤ n → Loader.loadFrom fo cfg n (b%'?' :: (k ++ (g ++ b%':' :: v)) ++ b) = .ok [.map [(x, y)]] := by
  obtain ⟨N, hN⟩ := C54_block_partial (fo := fo) (t := b%'?' :: (k ++ (g ++ b%':' :: v)) ++ b) (x := .map [(x, y)])
    ⟨[], 0, f, _, b, E', .nil, .map (.one (.explicit hk (fun _ => hx) hg hv)), hb, by simp [spaces], by simp⟩
  exact ⟨N, fun cfg n hf hn => (hN cfg n hf hn).1⟩

/-- C61 for a key without a value, which is the empty string then; something comes after the `?`. What is missing: as above. -/
theorem C61_alone_partial {fo : FloatOps F} {f k x b E} (hk : Side false fo (.scalar (.str [])) [] 0 f k x E) (hx : x ≠ .bad ∧ ∀ t z, x ≠ .tagged t z)
    (hne : k ≠ []) (hb : End false f b) :
    ∃ N, ∀ cfg n, N ≤ cfg.fuel → N ≤ n → Loader.loadFrom fo cfg n (b%'?' :: k ++ b) = .ok [.map [(x, .scalar (.str []))]] := by
  obtain ⟨N, hN⟩ := C54_block_partial (fo := fo) (t := b%'?' :: k ++ b) (x := .map [(x, .scalar (.str []))])
    ⟨[], 0, f, _, b, E, .nil, .map (.one (.explicitAlone hk (fun _ => hx) (fun _ => hne))), hb, by simp [spaces], by simp⟩
  exact ⟨N, fun cfg n hf hn => (hN cfg n hf hn).1⟩

/-! ## Cases -/

/-- a sequence as a key, a mapping as a value -/
theorem explicit_hello (fo : FloatOps F) : ∃ N, ∀ cfg n, N ≤ cfg.fuel → N ≤ n →
    Loader.loadFrom fo cfg n bs!"? - a\n  - b\n: c: d" =
      .ok [.map [(.seq [.scalar (.str bs!"a"), .scalar (.str bs!"b")], .map [(.scalar (.str bs!"c"), .scalar (.str bs!"d"))])]] := by
  have leaf : ∀ c, c ∈ bs!"abcd" → ∀ p, Tall false fo p [c] (.scalar (.str [c])) := by
    intro c hc p
    simp at hc
    rcases hc with rfl | rfl | rfl | rfl <;> exact block_word ⟨by simp, by simp [Block.Ink], by simp, by simp⟩ (by decide) (resolves_str rfl (by decide))
  refine C61_explicit_partial (E := []) (E' := []) (f₀ := none) (f := none) (k := bs!" - a\n  - b") (g := bs!"\n") (v := bs!" c: d") (b := []) ?_ (by simp) gap_lf ?_ (.inl (.inl ⟨0, rfl⟩))
  · refine .after (.inline (m := 0) (t := bs!"- a\n  - b") (.seq ?_))
    exact .more (E₁ := []) (f₀ := none) (t := bs!"- a") (g := bs!"\n  ") (r := bs!"- b") (.inline (m := 0) (.leaf (leaf _ (by simp) _))) gap_lf (.one (.inline (m := 0) (.leaf (leaf _ (by simp) _))))
  · exact .after (.inline (m := 0) (t := bs!"c: d") (.map (.one (.inline (k := bs!"c") (j := 0) (m := 0) (t := bs!"d") ⟨leaf _ (by simp) _, by decide⟩ (by decide) (leaf _ (by simp) _)))))

/-- sequences in the column of `?` and `:` -/
example (fo : FloatOps F) : ∃ N, ∀ cfg n, N ≤ cfg.fuel → N ≤ n →
    Loader.loadFrom fo cfg n bs!"?\n- a\n:\n- b" = .ok [.map [(.seq [.scalar (.str bs!"a")], .seq [.scalar (.str bs!"b")])]] := by
  have leaf : ∀ c, c ∈ bs!"abcd" → ∀ p, Tall false fo p [c] (.scalar (.str [c])) := by
    intro c hc p
    simp at hc
    rcases hc with rfl | rfl | rfl | rfl <;> exact block_word ⟨by simp, by simp [Block.Ink], by simp, by simp⟩ (by decide) (resolves_str rfl (by decide))
  refine C61_explicit_partial (E := []) (E' := []) (f₀ := none) (f := none) (k := bs!"\n- a") (g := bs!"\n") (v := bs!"\n- b") (b := []) ?_ (by simp) gap_lf ?_ (.inl (.inl ⟨0, rfl⟩))
  · exact .beside (g := bs!"\n") (t := bs!"- a") break_lf (.one (.inline (m := 0) (.leaf (leaf _ (by simp) _))))
  · exact .beside (g := bs!"\n") (t := bs!"- b") break_lf (.one (.inline (m := 0) (.leaf (leaf _ (by simp) _))))

/-- no value -/
example (fo : FloatOps F) : ∃ N, ∀ cfg n, N ≤ cfg.fuel → N ≤ n → Loader.loadFrom fo cfg n bs!"? a" = .ok [.map [(.scalar (.str bs!"a"), .scalar (.str []))]] :=
  C61_alone_partial (E := []) (f := none) (k := bs!" a") (b := []) (.after (.inline (m := 0) (.leaf (block_word ⟨by simp, by simp [Block.Ink], by simp, by simp⟩ (by decide) (resolves_str rfl (by decide))))))
    (by simp) (by decide) (.inl (.inl ⟨0, rfl⟩))

/-! ## What is false -/

/-- C61 is false: a text that is nothing but `?`, a mapping of null to null, is refused. -/
theorem C61_explicit_false (fo : FloatOps F) :
    Text true fo (.scalar .null) bs!"?" (.map [(.scalar .null, .scalar .null)]) ∧
    (∀ cfg n, 20 ≤ cfg.fuel → 20 ≤ n → Loader.loadFrom fo cfg n bs!"?" = .err (.scanner ⟨1, 2, 1⟩ "expected whitespace")) ∧ ¬ C61_full fo := by
  have h2 : ∀ cfg n, 20 ≤ cfg.fuel → 20 ≤ n → Loader.loadFrom fo cfg n bs!"?" = .err (.scanner ⟨1, 2, 1⟩ "expected whitespace") := fun cfg n hf hn =>
    json_err (k := 20) (by decide +kernel) (by decide +kernel) hf hn
  refine ⟨⟨[], 0, none, bs!"?", [], [], .nil, .map (.one (.explicitAlone (r := []) (.after .absent) (fun h => by cases h) (fun h => by cases h))), .inl (.inl ⟨0, rfl⟩), rfl, by decide⟩, h2, fun h => ?_⟩
  obtain ⟨N, hN⟩ := h.2 none [] _ [] [] (.after .absent) (.inl (.inl ⟨0, rfl⟩))
  have h1 := hN ⟨N + 20, false⟩ (N + 20) (by simp) (by simp)
  have h3 := h2 ⟨N + 20, false⟩ (N + 20) (by simp) (by simp)
  rw [show b%'?' :: ([] : List Byte) ++ [] = bs!"?" from rfl, h3] at h1
  cases h1

end Verif.Props
