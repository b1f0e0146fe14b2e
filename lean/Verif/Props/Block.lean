import Verif.Lemmas.ScanBlockText
import Verif.Lemmas.LoadEval
import Verif.Props.Json
/-!
# C54: YAML in block style

The grammar and the tree each text stands for are in `Verif.Spec.Block`.
-/
namespace Verif.Props
open Verif Verif.Spec Verif.Spec.Block Verif.Spec.Core Verif.Scanner Verif.Scalar
variable {F : Type}

/-- C54, the full statement: every text in block style loads, with enough iterations, as one document, which is the tree it stands
for; missing nodes are null. -/
def C54_full (fo : FloatOps F) : Prop :=
  ∀ t x, Text true fo (.scalar .null) t x → ∃ N, ∀ cfg n, N ≤ cfg.fuel → N ≤ n → Loader.loadFrom fo cfg n t = .ok [x]

/-- C54 with the empty string in place of missing nodes, without integers with a misplaced sign, without plain scalars with a document
marker at the beginning of an indented line, without block scalars that have no content, and without a block scalar at the end of the
text with its content at column 125 or further right; flow collections are those of C58 and tags those of C59. What is missing: those, for
almost all of which the claim is false. -/
theorem C54_block_partial {fo : FloatOps F} {t x} (h : Text false fo (.scalar (.str [])) t x) :
    ∃ N, ∀ cfg n, N ≤ cfg.fuel → N ≤ n → Loader.loadFrom fo cfg n t = .ok [x] ∧ Loader.loadSingle fo cfg n t = .ok x :=
  load_block h

/-! ## A text with every construct -/

theorem resolves_str {full} {fo : FloatOps F} {t} (h : valueFromCowAndMetadata fo t .plain none = .scalar (.str t))
    (hd : ∀ c ∈ t, ¬ (b%'0' ≤ c ∧ c ≤ b%'9')) : Resolves full fo t (.str t) := by
  refine .str ?_ ?_ ?_ ?_ ?_ ?_ ?_
  · intro hn; rw [(C07_null_spellings_partial fo t).2 hn] at h; cases h
  · intro hn; rw [(C41_bool_exact fo t true).2 hn] at h; cases h
  · intro hn; rw [(C41_bool_exact fo t false).2 hn] at h; cases h
  · intro i hi hf; rw [(C05_int_exact fo t i).2 ⟨.inl hi, hf⟩] at h; cases h
  · intro _ i hi hf; rw [(C05_int_exact fo t i).2 ⟨.inr hi, hf⟩] at h; cases h
  · intro f hf; rw [scalar_value (.special hf)] at h; cases h
  · rintro f ⟨⟨c, hc, hx⟩, -⟩; exact hd c hc hx

/-- may begin a plain scalar -/
theorem begins {c r} (hc : c ∉ bs!"[]{},*&!|>'\"%@`-?:.") : Begins (c :: r) := by
  refine ⟨⟨c, r, rfl, fun hx => hc (List.mem_append_left (as := bs!"[]{},*&!|>'\"%@`") bs!"-?:." hx), fun hx => ?_⟩, fun m r' hm e => ?_⟩
  · exact absurd (List.mem_append_right bs!"[]{},*&!|>'\"%@`" (List.mem_append_left (as := bs!"-?:") bs!"." hx)) hc
  · rcases hm with rfl | rfl <;> cases e <;> simp at hc

def blockText : List Byte :=
  bs!"# things\n\nfruit:  # a list\n- apple\n-  'it''s'\n\n-\nsizes :\n    small: 1\n  # deep\n    \"big\\n\":\n       - - ~\n         - - x y\n       -\n          k: true # end\n\n"

def blockTree (absent : Yaml F) : Yaml F := .map
  [(.scalar (.str bs!"fruit"), .seq [.scalar (.str bs!"apple"), .scalar (.str bs!"it's"), absent]),
   (.scalar (.str bs!"sizes"), .map
      [(.scalar (.str bs!"small"), .scalar (.int 1)),
       (.scalar (.str bs!"big\n"), .seq [.seq [.scalar .null, .seq [.scalar (.str bs!"x y")]], .map [(.scalar (.str bs!"k"), .scalar (.bool true))]])])]

theorem block_word {full} {fo : FloatOps F} {p c r x} (h : Word (c :: r)) (hc : c ∉ bs!"[]{},*&!|>'\"%@`-?:.") (hx : Resolves full fo (c :: r) x) :
    Tall full fo p (c :: r) (.scalar x) := .plain (begins hc) (.one (.one h)) hx

theorem leaf_word {full} {fo : FloatOps F} {c r x} (h : Word (c :: r)) (hc : c ∉ bs!"[]{},*&!|>'\"%@`-?:.") (hx : Resolves full fo (c :: r) x) :
    Leaf full fo (c :: r) (.scalar x) := ⟨block_word h hc hx, fun hn => (h.ink _ hn).2.2.1 rfl⟩

theorem break_lf {n} : Break n (bs!"\n" ++ spaces n) := ⟨[], [], .inl ⟨0, rfl⟩, .nil, rfl⟩

theorem gap_lf {n} : Gap none n (bs!"\n" ++ spaces n) := break_lf

theorem block_hello {full} {fo : FloatOps F} {absent} : Text full fo absent blockText (blockTree absent) := by
  refine ⟨bs!"# things\n\n", 0, none, bs!"fruit:  # a list\n- apple\n-  'it''s'\n\n-\nsizes :\n    small: 1\n  # deep\n    \"big\\n\":\n       - - ~\n         - - x y\n       -\n          k: true",
    bs!" # end\n\n", [], ?_, .map ?_, ?_, by decide +kernel, by decide⟩
  · exact .cons (l := bs!"# things") (.inr ⟨0, _, ⟨bs!" things", rfl, by simp⟩, rfl⟩) (.cons (l := []) (.inl ⟨0, rfl⟩) .nil)
  · refine .more (E₁ := []) (f₀ := none) (t := bs!"fruit:  # a list\n- apple\n-  'it''s'\n\n-") (g := bs!"\n") ?_ gap_lf (.one ?_)
    · refine .beside (k := bs!"fruit") (j := 0) (g := bs!"  # a list\n") (t := bs!"- apple\n-  'it''s'\n\n-") (leaf_word ⟨by simp, by simp [Block.Ink], by simp, by simp⟩ (by decide) (resolves_str rfl (by decide))) (by decide)
        ⟨bs!"  # a list", [], .inr ⟨1, bs!"# a list", ⟨bs!" a list", rfl, by simp⟩, rfl⟩, .nil, rfl⟩ ?_
      refine .more (E₁ := []) (f₀ := none) (t := bs!"- apple") (g := bs!"\n") (.inline (m := 0) (.leaf (block_word ⟨by simp, by simp [Block.Ink], by simp, by simp⟩ (by decide) (resolves_str rfl (by decide))))) gap_lf ?_
      refine .more (E₁ := []) (f₀ := none) (t := bs!"-  'it''s'") (g := bs!"\n\n") (.inline (m := 1) (.leaf (.single (w := bs!"it''s") ?_))) ⟨[], bs!"\n", .inl ⟨0, rfl⟩, .cons (l := []) (.inl ⟨0, rfl⟩) .nil, rfl⟩ (.one .absent)
      exact .raw (by decide) (by decide) (.raw (by decide) (by decide) (.quote (.raw (by decide) (by decide) .nil)))
    · refine .under (k := bs!"sizes") (j := 1) (m := 4) (g := bs!"\n    ") (t := bs!"small: 1\n  # deep\n    \"big\\n\":\n       - - ~\n         - - x y\n       -\n          k: true")
        (leaf_word ⟨by simp, by simp [Block.Ink], by simp, by simp⟩ (by decide) (resolves_str rfl (by decide))) (by decide) break_lf (by decide) (.map ?_)
      refine .more (E₁ := []) (f₀ := none) (t := bs!"small: 1") (g := bs!"\n  # deep\n    ") ?_ ⟨[], bs!"  # deep\n", .inl ⟨0, rfl⟩, .cons (l := bs!"  # deep") (.inr ⟨2, _, ⟨bs!" deep", rfl, by simp⟩, rfl⟩) .nil, rfl⟩ (.one ?_)
      · exact .inline (k := bs!"small") (j := 0) (m := 0) (t := bs!"1") (leaf_word ⟨by simp, by simp [Block.Ink], by simp, by simp⟩ (by decide) (resolves_str rfl (by decide))) (by decide)
          (block_word ⟨by simp, by simp [Block.Ink], by simp, by simp⟩ (by decide) (.int (.dec (v := 1) ⟨by simp, by decide⟩) (by unfold Fits64; decide)))
      · refine .under (k := bs!"\"big\\n\"") (j := 0) (m := 7) (g := bs!"\n       ") (t := bs!"- - ~\n         - - x y\n       -\n          k: true") ⟨.double (w := bs!"big\\n") ?_, by decide⟩ (by decide) break_lf (by decide) (.seq ?_)
        · exact .raw (by decide) (by decide) (by decide) (.raw (by decide) (by decide) (by decide) (.raw (by decide) (by decide) (by decide) (.short (ch := '\n') (by simp [escapes]) .nil)))
        · refine .more (E₁ := []) (f₀ := none) (t := bs!"- - ~\n         - - x y") (g := bs!"\n       ") (.inline (m := 0) (t := bs!"- ~\n         - - x y") (.seq ?_)) gap_lf (.one ?_)
          · refine .more (E₁ := []) (f₀ := none) (t := bs!"- ~") (g := bs!"\n         ") (.inline (m := 0) (.leaf (block_word ⟨by simp, by simp [Block.Ink], by simp, by simp⟩ (by decide) (.null (by decide))))) gap_lf
              (.one (.inline (m := 0) (t := bs!"- x y") (.seq (.one (.inline (m := 0) (t := bs!"x y") (.leaf (.plain (begins (by decide)) (.one ?_) (resolves_str rfl (by decide)))))))))
            exact .more (w := bs!"x") (n := 0) (r := bs!"y") ⟨by simp, by simp [Block.Ink], by simp, by simp⟩ (.one ⟨by simp, by simp [Block.Ink], by simp, by simp⟩)
          · refine .under (m := 10) (g := bs!"\n          ") (t := bs!"k: true") break_lf (by decide) (.map (.one ?_))
            exact .inline (k := bs!"k") (j := 0) (m := 0) (t := bs!"true") (leaf_word ⟨by simp, by simp [Block.Ink], by simp, by simp⟩ (by decide) (resolves_str rfl (by decide))) (by decide)
              (block_word ⟨by simp, by simp [Block.Ink], by simp, by simp⟩ (by decide) (.true (by decide)))
  · exact .inr ⟨bs!" # end", bs!"\n", [], .inr ⟨0, bs!"# end", ⟨bs!" end", rfl, by simp⟩, rfl⟩, .cons (l := []) (.inl ⟨0, rfl⟩) .nil, .inl ⟨0, rfl⟩, rfl⟩

/-- and it loads -/
example (fo : FloatOps F) : ∃ N, ∀ cfg n, N ≤ cfg.fuel → N ≤ n →
    Loader.loadFrom fo cfg n blockText = .ok [blockTree (.scalar (.str []))] ∧ Loader.loadSingle fo cfg n blockText = .ok (blockTree (.scalar (.str []))) :=
  C54_block_partial block_hello

/-! ## What is false -/

/-- C54 is false: the value that is missing in `a:` loads as the empty string, not as null. -/
theorem C54_block_false (fo : FloatOps F) :
    Text true fo (.scalar .null) bs!"a:" (.map [(.scalar (.str bs!"a"), .scalar .null)]) ∧
    (∃ N, ∀ cfg n, N ≤ cfg.fuel → N ≤ n → Loader.loadFrom fo cfg n bs!"a:" = .ok [.map [(.scalar (.str bs!"a"), .scalar (.str []))]]) ∧
    ¬ C54_full fo := by
  have h1 : ∀ full absent, Text full fo absent bs!"a:" (.map [(.scalar (.str bs!"a"), absent)]) := fun full absent =>
    ⟨[], 0, none, _, [], [], .nil, .map (.one (.absent (k := bs!"a") (j := 0) (leaf_word ⟨by simp, by simp [Block.Ink], by simp, by simp⟩ (by decide) (resolves_str rfl (by decide))) (by decide))),
      .inl (.inl ⟨0, rfl⟩), rfl, by decide⟩
  obtain ⟨N, hN⟩ := C54_block_partial (h1 false (.scalar (.str [])))
  refine ⟨h1 _ _, ⟨N, fun cfg n hf hn => (hN cfg n hf hn).1⟩, fun h => ?_⟩
  obtain ⟨M, hM⟩ := h _ _ (h1 true (.scalar .null))
  have h2 := hM ⟨N + M, false⟩ (N + M) (by simp) (by simp)
  rw [(hN ⟨N + M, false⟩ (N + M) (by simp) (by simp)).1] at h2
  simp at h2

end Verif.Props
