import Verif.Props.Block
/-!
# C55: scalars over several lines

The scalars and what they stand for are `Tall` in `Verif.Spec.Block`.
-/
namespace Verif.Props
open Verif Verif.Spec Verif.Spec.Block Verif.Spec.Core Verif.Scanner Verif.Scalar
variable {F : Type}

/-- the text begins with a byte order mark -/
def HasBom (t : List Byte) : Prop := t.take 3 = [0xEF, 0xBB, 0xBF]

/-- C55, the full statement: a text that is one scalar over any number of lines loads, with enough iterations, as its value. -/
def C55_full (fo : FloatOps F) : Prop :=
  ∀ t x, Tall true fo 0 t x → ¬ HasBom t → ∃ N, ∀ cfg n, N ≤ cfg.fuel → N ≤ n → Loader.loadFrom fo cfg n t = .ok [x]

/-- C55 without document markers at the beginning of indented lines of plain scalars. What is missing: those, for which the claim is
false. -/
theorem C55_lines_partial {fo : FloatOps F} {t x} (h : Tall false fo 0 t x) (hb : ¬ HasBom t) :
    ∃ N, ∀ cfg n, N ≤ cfg.fuel → N ≤ n → Loader.loadFrom fo cfg n t = .ok [x] ∧ Loader.loadSingle fo cfg n t = .ok x :=
  C54_block_partial ⟨[], 0, none, t, [], [], .nil, .leaf h, .inl (.inl ⟨0, rfl⟩), by simp [spaces], hb⟩

/-- C55 for an item of a sequence. What is missing: as above. -/
theorem C55_item_partial {fo : FloatOps F} {t x} (h : Tall false fo 1 t x) :
    ∃ N, ∀ cfg n, N ≤ cfg.fuel → N ≤ n → Loader.loadFrom fo cfg n (bs!"- " ++ t) = .ok [.seq [x]] := by
  obtain ⟨N, hN⟩ := C54_block_partial (t := bs!"- " ++ t) (x := .seq [x])
    ⟨[], 0, none, bs!"- " ++ t, [], [], .nil, .seq (.one (.inline (m := 0) (.leaf h))), .inl (.inl ⟨0, rfl⟩), by simp [spaces], by simp⟩
  exact ⟨N, fun cfg n hf hn => (hN cfg n hf hn).1⟩

/-- C55 for the value of a key. What is missing: as above. -/
theorem C55_value_partial {fo : FloatOps F} {k y t x} (hk : Leaf false fo k y) (hl : k.length ≤ 1024) (hb : ¬ HasBom k) (h : Tall false fo 1 t x) :
    ∃ N, ∀ cfg n, N ≤ cfg.fuel → N ≤ n → Loader.loadFrom fo cfg n (k ++ (bs!": " ++ t)) = .ok [.map [(y, x)]] := by
  have hb' : (k ++ (bs!": " ++ t)).take 3 ≠ [0xEF, 0xBB, 0xBF] := by
    intro hx
    apply hb
    match k with
    | [] => simp at hx
    | [a] => simp at hx
    | [a, b] => simp at hx
    | a :: b :: c :: k => simpa [HasBom] using hx
  obtain ⟨N, hN⟩ := C54_block_partial (t := k ++ (bs!": " ++ t)) (x := .map [(y, x)])
    ⟨[], 0, none, k ++ (bs!": " ++ t), [], [], .nil, .map (.one (.inline (j := 0) (m := 0) hk (by omega) h)), .inl (.inl ⟨0, rfl⟩), by simp [spaces], hb'⟩
  exact ⟨N, fun cfg n hf hn => (hN cfg n hf hn).1⟩

/-! ## Each kind -/

theorem ink_word {w : List Byte} (h1 : w ≠ []) (h2 : ∀ b ∈ w, b ≠ 0 ∧ b ≠ b%'\t' ∧ b ≠ b%'\n' ∧ b ≠ b%'\r' ∧ b ≠ b%' ') (h3 : w.head? ≠ some b%'#')
    (h4 : w.getLast? ≠ some b%':') : Word w := ⟨h1, h2, h3, h4⟩

theorem no_mark {c r} (h : c ≠ b%'-' ∧ c ≠ b%'.') : NoMark (c :: r) := by
  intro m r' hm e
  rcases hm with rfl | rfl <;> simp at e <;> omega

/-- plain: one line feed, and three -/
theorem lines_plain {full} {fo : FloatOps F} {p} (hp : p ≤ 1) : Tall full fo p bs!"one two \n three\n\n  \n  four" (.scalar (.str bs!"one two three\n\nfour")) := by
  refine .plain (begins (by decide)) ?_ (resolves_str rfl (by decide))
  refine .more (t := bs!"one two") (m := 0) (n := 1) (g := bs!" \n ") (r := bs!"three\n\n  \n  four") (v := bs!"three\n\nfour")
    (.more (w := bs!"one") (n := 0) (r := bs!"two") (ink_word (by simp) (by simp) (by simp) (by simp)) (.one (ink_word (by simp) (by simp) (by simp) (by simp))))
    ⟨1, [], .nil, rfl⟩ hp (fun _ => no_mark (by decide)) ?_
  refine .more (t := bs!"three") (m := 2) (n := 2) (g := bs!"\n\n  \n  ") (r := bs!"four") (v := bs!"four") (.one (ink_word (by simp) (by simp) (by simp) (by simp)))
    ⟨0, bs!"\n  \n", .cons (k := 0) (.cons (k := 2) .nil), rfl⟩ (by omega) (fun _ => no_mark (by decide)) (.one (.one (ink_word (by simp) (by simp) (by simp) (by simp))))

/-- double quotes: escapes, a line feed, an empty line, and a line feed after a backslash -/
theorem lines_double {full} {fo : FloatOps F} {p} (hp : p ≤ 1) : Tall full fo p bs!"\"a\\x41 \n b\n\n c\\\n  d\"" (.scalar (.str bs!"aA b\ncd")) := by
  refine .double (w := bs!"a\\x41 \n b\n\n c\\\n  d") (.raw (by decide) (by decide) (by decide) ?_)
  refine .code (x := b%'x') (k := 2) (h := bs!"41") (c := 'A') (by simp [codes]) rfl ⟨by simp, by decide⟩ ?_
  refine .fold (m := 0) (n := 1) (g := bs!" \n ") (w := bs!"b\n\n c\\\n  d") (s := bs!"b\ncd") ⟨1, [], .nil, rfl⟩ ⟨hp, by simp [Unspaced], by simp⟩ (.raw (by decide) (by decide) (by decide) ?_)
  refine .fold (m := 1) (n := 1) (g := bs!"\n\n ") (w := bs!"c\\\n  d") (s := bs!"cd") ⟨0, bs!"\n", .cons (k := 0) .nil, rfl⟩ ⟨hp, by simp [Unspaced], by simp⟩ (.raw (by decide) (by decide) (by decide) ?_)
  exact .join (m := 0) (n := 2) (ls := []) (w := bs!"d") (s := bs!"d") .nil ⟨by omega, by simp [Unspaced], by simp⟩ (.raw (by decide) (by decide) (by decide) .nil)

/-- single quotes -/
theorem lines_single {full} {fo : FloatOps F} {p} (hp : p ≤ 1) : Tall full fo p bs!"'it''s  \n here'" (.scalar (.str bs!"it's here")) := by
  refine .single (w := bs!"it''s  \n here") (.raw (by decide) (by decide) (.raw (by decide) (by decide) (.quote (.raw (by decide) (by decide) ?_))))
  exact .fold (m := 0) (n := 1) (g := bs!"  \n ") (w := bs!"here") (s := bs!"here") ⟨2, [], .nil, rfl⟩ ⟨hp, by simp [Unspaced], by simp⟩
    (.raw (by decide) (by decide) (.raw (by decide) (by decide) (.raw (by decide) (by decide) (.raw (by decide) (by decide) .nil))))

example (fo : FloatOps F) : ∃ N, ∀ cfg n, N ≤ cfg.fuel → N ≤ n →
    Loader.loadFrom fo cfg n bs!"one two \n three\n\n  \n  four" = .ok [.scalar (.str bs!"one two three\n\nfour")] ∧
    Loader.loadSingle fo cfg n bs!"one two \n three\n\n  \n  four" = .ok (.scalar (.str bs!"one two three\n\nfour")) :=
  C55_lines_partial (lines_plain (by omega)) (by simp [HasBom])

example (fo : FloatOps F) : ∃ N, ∀ cfg n, N ≤ cfg.fuel → N ≤ n →
    Loader.loadFrom fo cfg n bs!"- \"a\\x41 \n b\n\n c\\\n  d\"" = .ok [.seq [.scalar (.str bs!"aA b\ncd")]] :=
  C55_item_partial (lines_double (by omega))

example (fo : FloatOps F) : ∃ N, ∀ cfg n, N ≤ cfg.fuel → N ≤ n →
    Loader.loadFrom fo cfg n bs!"k: 'it''s  \n here'" = .ok [.map [(.scalar (.str bs!"k"), .scalar (.str bs!"it's here"))]] :=
  C55_value_partial (k := bs!"k") (leaf_word (ink_word (by simp) (by simp) (by simp) (by simp)) (by decide) (resolves_str rfl (by decide))) (by decide) (by simp [HasBom])
    (lines_single (by omega))

/-! ## What is false -/

/-- C55 is false: a plain scalar that has `---` at the beginning of an indented line is refused. -/
theorem C55_lines_false (fo : FloatOps F) :
    Tall true fo 0 bs!"a\n  --- b" (.scalar (.str bs!"a --- b")) ∧
    (∀ cfg n, 40 ≤ cfg.fuel → 40 ≤ n → Loader.loadFrom fo cfg n bs!"a\n  --- b" = .err (.scanner ⟨4, 3, 2⟩ "unexpected end of plain scalar")) ∧
    ¬ C55_full fo := by
  have h1 : Tall true fo 0 bs!"a\n  --- b" (.scalar (.str bs!"a --- b")) := by
    refine .plain (begins (by decide)) ?_ (resolves_str rfl (by decide))
    refine .more (t := bs!"a") (m := 0) (n := 2) (g := bs!"\n  ") (r := bs!"--- b") (v := bs!"--- b") (.one (ink_word (by simp) (by simp) (by simp) (by simp)))
      ⟨0, [], .nil, rfl⟩ (by omega) (by simp) (.one ?_)
    exact .more (w := bs!"---") (n := 0) (r := bs!"b") (ink_word (by simp) (by simp) (by simp) (by simp)) (.one (ink_word (by simp) (by simp) (by simp) (by simp)))
  have h2 : ∀ cfg n, 40 ≤ cfg.fuel → 40 ≤ n → Loader.loadFrom fo cfg n bs!"a\n  --- b" = .err (.scanner ⟨4, 3, 2⟩ "unexpected end of plain scalar") :=
    fun cfg n => json_err (by decide +kernel) (by decide +kernel)
  refine ⟨h1, h2, fun h => ?_⟩
  obtain ⟨N, hN⟩ := h _ _ h1 (by simp [HasBom])
  have := hN ⟨N + 40, false⟩ (N + 40) (by simp) (by simp)
  rw [h2 _ _ (by simp) (by simp)] at this
  cases this

end Verif.Props
