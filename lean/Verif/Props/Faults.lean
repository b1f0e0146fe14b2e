import Verif.Lemmas.ScanFaults
import Verif.Props.ParserSound
import Verif.Props.Labels
import Verif.Props.Scroll
/-!
# C64: a mistake is reported

The texts with a mistake are in `Verif.Spec.Faults`.
-/
namespace Verif.Props
open Verif Verif.Spec Verif.Spec.Block Verif.Spec.Core Verif.Scanner
variable {F : Type}

/-- C64, the full statement: every text that is in block style up to some place and has a mistake there gives, with enough iterations, an error. -/
def C64_full (fo : FloatOps F) : Prop :=
  ∀ t, Faults.Text true fo (.scalar .null) t → ∃ N, ∀ cfg n, N ≤ cfg.fuel → N ≤ n → ∃ e, Loader.loadFrom fo cfg n t = .err e

/-- a parser whose tokens do not end with the end of the stream, or open more brackets than they close, does not succeed -/
theorem not_pulled {toks : List Token} {tail m} (h : BadT (toks.map (·.tt))) (n es) : pullAll n (Parser.new toks tail m false) ≠ (es, .ended) := by
  intro hp
  obtain ⟨tts, rest, es', h1, -, hd⟩ := C60_sound (toks := toks) ⟨n, es, hp, rfl⟩
  obtain ⟨d, rfl, h2, h3, h4, -⟩ := docs_count hd
  have := h (.streamStart :: d) rest (by rw [h1]; simp) (by simp [h2])
  rw [sqOf_cons, brOf_cons, show sqOf [TokenType.streamStart] = 0 by decide, show brOf [TokenType.streamStart] = 0 by decide] at this
  omega

/-- then the text they come from does not load either -/
theorem never_loads {fo : FloatOps F} {cfg n t} (h : BadT ((scanInput cfg t n).1.map (·.tt))) :
    (∀ docs, Loader.loadFrom fo cfg n t ≠ .ok docs) ∧ ∀ k es, pullAll k (Loader.parserOn cfg n t) ≠ (es, .ended) := by
  refine ⟨fun docs hl => ?_, fun k es => not_pulled h k es⟩
  unfold Loader.loadFrom Loader.loadFromParser at hl
  rcases hr : Parser.load true ⟨Loader.parserOn cfg n t, []⟩ with ⟨a, b⟩
  rw [hr] at hl
  cases a with
  | ok u => exact not_pulled h _ _ (load_pulled hr rfl)
  | err e => cases hl
  | panic => cases hl
  | hang => cases hl

/-- and it gives an error if the scanner comes to an end -/
theorem error_of_never {fo : FloatOps F} {t} {cfg : Cfg} {n : Nat} (hno : ∀ k es, pullAll k (Loader.parserOn cfg n t) ≠ (es, .ended)) (hf : t.length + 4 ≤ cfg.fuel)
    (hn : 6 * t.length + 3 ≤ n) (h1 : ¬ LoneCR t) (h2 : ¬ QuotedNul t) (h3 : ¬ (LongLine t ∧ HasBlockIndicator t)) (h4 : ¬ LateIndicator t)
    (h5 : cfg.debug = true → ¬ LongVersion t) : ∃ e, Loader.loadFrom fo cfg n t = .err e := by
  have hs : Loader.tailOf (scanInput cfg t n).2 = .ended ∨ ∃ e, Loader.tailOf (scanInput cfg t n).2 = .error e := by
    rcases C09_scan_finishes_partial cfg t n hf hn h1 h2 h3 h4 h5 with h | ⟨e, h⟩
    · rw [h]; exact .inl rfl
    · rw [h]; exact .inr ⟨e, rfl⟩
  have hc := C14_no_panic (toks := (scanInput cfg t n).1) (tail := Loader.tailOf (scanInput cfg t n).2) (m := (afterNext cfg n (Scanner.new t)).mark) (k := false) .start (.load true)
  unfold Loader.loadFrom Loader.loadFromParser
  unfold Loader.parserOn at hno ⊢
  dsimp only at hno ⊢
  generalize Loader.tailOf (scanInput cfg t n).2 = tail at *
  generalize (scanInput cfg t n).1 = toks at *
  generalize (afterNext cfg n (Scanner.new t)).mark = m at *
  simp only [call] at hc
  rcases hr : Parser.load true ⟨Parser.new toks tail m false, []⟩ with ⟨a, b⟩
  rw [hr] at hc
  cases a with
  | ok u => exact absurd (load_pulled hr rfl) (hno _ _)
  | err e => exact ⟨e, rfl⟩
  | panic =>
    have := hc.1 rfl
    rcases hs with h | ⟨e, h⟩ <;> rw [h] at this <;> cases this
  | hang =>
    have := hc.2 rfl
    rcases hs with h | ⟨e, h⟩ <;> rw [h] at this <;> cases this
theorem fault_length {fo : FloatOps F} {t} (h : Faults.Text false fo (.scalar (.str [])) t) : 0 < t.length := by
  obtain ⟨a, n, r, ha, h, rfl, hb⟩ := h
  have := (faulty_place h).1.ne
  have : 0 < r.length := List.length_pos_iff.2 this
  simp
  omega

/-- C64, the first part, with no condition but iterations enough for the length of the text: a text with a mistake never loads as documents, and pulling
events from it never comes to the end of the stream, however much of the text comes after the mistake and whatever it is. -/
theorem C64_never_ok {fo : FloatOps F} {t} (h : Faults.Text false fo (.scalar (.str [])) t) {cfg : Cfg} (hf : t.length < cfg.fuel) (n : Nat) :
    (∀ docs, Loader.loadFrom fo cfg n t ≠ .ok docs) ∧ ∀ k es, pullAll k (Loader.parserOn cfg n t) ≠ (es, .ended) := by
  have hl : 0 < t.length := fault_length h
  have hd := scan_lost (by omega) (fault_lost h hf) n
  exact never_loads hd

/-- C64 with the empty string in place of missing nodes, with the texts before the mistake those of C54, and without the texts on which the library
does not come to an end or panics (C08 and C09): a lone carriage return, a NUL in quotation marks, a long line together with a block scalar, a reserved
character among the last three of the text. What is missing: those, for which the claim is false, mistakes in flow collections other than an
open bracket (C69), after tags and anchors, and in later documents. -/
theorem C64_fault_partial {fo : FloatOps F} {t} (h : Faults.Text false fo (.scalar (.str [])) t) {cfg : Cfg} {n : Nat} (hf : t.length + 4 ≤ cfg.fuel)
    (hn : 6 * t.length + 3 ≤ n) (h1 : ¬ LoneCR t) (h2 : ¬ QuotedNul t) (h3 : ¬ (LongLine t ∧ HasBlockIndicator t)) (h4 : ¬ LateIndicator t)
    (h5 : cfg.debug = true → ¬ LongVersion t) : ∃ e, Loader.loadFrom fo cfg n t = .err e := by
  exact error_of_never (C64_never_ok h (cfg := cfg) (by omega) n).2 hf hn h1 h2 h3 h4 h5

/-! ## Texts it applies to -/

/-- without carriage returns, NUL, reserved characters and the indicators of block scalars, all conditions hold -/
theorem C64_simple {fo : FloatOps F} {t} (h : Faults.Text false fo (.scalar (.str [])) t) (hc : ∀ c ∈ t, c ≠ 13 ∧ c ≠ 0 ∧ c ∉ bs!"%@`|>") {cfg : Cfg} {n : Nat}
    (hf : t.length + 4 ≤ cfg.fuel) (hn : 6 * t.length + 3 ≤ n) : ∃ e, Loader.loadFrom fo cfg n t = .err e := by
  refine C64_fault_partial h hf hn ?_ ?_ ?_ ?_ ?_
  · rintro ⟨pre, post, rfl, -⟩
    exact (hc 13 (by simp)).1 rfl
  · rintro ⟨pre, post, rfl, -⟩
    exact (hc 0 (by simp)).2.1 rfl
  · rintro ⟨-, hb | hb⟩
    · exact absurd (hc _ hb).2.2 (by decide)
    · exact absurd (hc _ hb).2.2 (by decide)
  · rintro ⟨pre, c, post, rfl, h, -⟩
    have := (hc c (by simp)).2.2
    rcases h with rfl | rfl | rfl <;> exact absurd this (by decide)
  · rintro - ⟨pre, ds, post, rfl, h, -⟩
    exact absurd (hc 37 (by simp [h])).2.2 (by decide)

/-- the value of the second item of a sequence that is the value of the second key has an open quotation mark -/
theorem fault_open {full} {fo : FloatOps F} {absent} : Faults.Text full fo absent bs!"a: 1\nlist:\n- x\n- b: \"open\n  c\n" := by
  have ha : Entry full fo absent [] 0 none bs!"a: 1" (.scalar (.str bs!"a"), .scalar (.int 1)) [] :=
    .inline (k := bs!"a") (j := 0) (m := 0) (t := bs!"1") (leaf_word ⟨by simp, by simp [Block.Ink], by simp, by simp⟩ (by decide) (resolves_str rfl (by decide))) (by decide)
      (block_word ⟨by simp, by simp [Block.Ink], by simp, by simp⟩ (by decide) (.int (.dec (v := 1) ⟨by simp, by decide⟩) (by unfold Fits64; decide)))
  refine ⟨[], 0, _, .nil, .map (.laterEntry (f := none) (t := bs!"a: 1") (g := bs!"\n") (E' := []) (.one ha) gap_lf ?_), rfl, by decide⟩
  · refine .besideEntry (k := bs!"list") (j := 0) (g := bs!"\n") (t := bs!"- x\n- b: \"open\n  c\n") (leaf_word ⟨by simp, by simp [Block.Ink], by simp, by simp⟩ (by decide) (resolves_str rfl (by decide))) (by decide) break_lf ?_
    refine .laterItem (f := none) (t := bs!"- x") (g := bs!"\n") (E' := []) (.one (.inline (m := 0) (.leaf (block_word ⟨by simp, by simp [Block.Ink], by simp, by simp⟩ (by decide) (resolves_str rfl (by decide)))))) gap_lf ?_
    refine .inItem (m := 0) (t := bs!"b: \"open\n  c\n") (.map (.firstEntry ?_))
    refine .inEntry (k := bs!"b") (j := 0) (m := 0) (t := bs!"\"open\n  c\n") (leaf_word ⟨by simp, by simp [Block.Ink], by simp, by simp⟩ (by decide) (resolves_str rfl (by decide))) (by decide) (.here (.double ?_))
    repeat first | exact .nil | refine .raw (by decide) (by decide) ?_

/-- and it is refused -/
example (fo : FloatOps F) {cfg n} (hf : 100 ≤ cfg.fuel) (hn : 200 ≤ n) : ∃ e, Loader.loadFrom fo cfg n bs!"a: 1\nlist:\n- x\n- b: \"open\n  c\n" = .err e :=
  C64_simple fault_open (by decide) (by simp; omega) (by simp; omega)

/-- a line without `:` among the entries of a mapping -/
theorem fault_noColon {full} {fo : FloatOps F} {absent} : Faults.Text full fo absent bs!"a: 1\nb\nc: 2\n" := by
  have ha : Entry full fo absent [] 0 none bs!"a: 1" (.scalar (.str bs!"a"), .scalar (.int 1)) [] :=
    .inline (k := bs!"a") (j := 0) (m := 0) (t := bs!"1") (leaf_word ⟨by simp, by simp [Block.Ink], by simp, by simp⟩ (by decide) (resolves_str rfl (by decide))) (by decide)
      (block_word ⟨by simp, by simp [Block.Ink], by simp, by simp⟩ (by decide) (.int (.dec (v := 1) ⟨by simp, by decide⟩) (by unfold Fits64; decide)))
  refine ⟨[], 0, _, .nil, .map (.noColon (f := none) (t := bs!"a: 1") (g := bs!"\n") (E' := []) (k := bs!"b") (b := bs!"\nc: 2\n") (x := .scalar (.str bs!"b")) (.one ha) gap_lf ?_ ?_), rfl, by decide⟩
  · exact leaf_word ⟨by simp, by simp [Block.Ink], by simp, by simp⟩ (by decide) (resolves_str rfl (by decide))
  · exact .inr ⟨0, bs!"\n", b%'c', bs!": 2\n", by decide, break_lf, by decide, by decide, rfl⟩

example (fo : FloatOps F) {cfg n} (hf : 100 ≤ cfg.fuel) (hn : 200 ≤ n) : ∃ e, Loader.loadFrom fo cfg n bs!"a: 1\nb\nc: 2\n" = .err e :=
  C64_simple fault_noColon (by decide) (by simp; omega) (by simp; omega)

/-- two `:` on a line, a sequence beside its key, an escape that does not exist, something after a quoted scalar, an alias without a name -/
example (fo : FloatOps F) {cfg n} (hf : 100 ≤ cfg.fuel) (hn : 200 ≤ n) :
    (∃ e, Loader.loadFrom fo cfg n bs!"a: b: c\n" = .err e) ∧ (∃ e, Loader.loadFrom fo cfg n bs!"a: - c\n" = .err e) ∧
    (∃ e, Loader.loadFrom fo cfg n bs!"- \"\\q\"\n" = .err e) ∧ (∃ e, Loader.loadFrom fo cfg n bs!"- 'a' b\n" = .err e) ∧
    ∃ e, Loader.loadFrom fo cfg n bs!"- * a\n" = .err e := by
  have hk : ∀ {full}, Leaf full fo bs!"a" (.scalar (.str bs!"a")) := leaf_word ⟨by simp, by simp [Block.Ink], by simp, by simp⟩ (by decide) (resolves_str rfl (by decide))
  refine ⟨C64_simple ?_ (by decide) (by simp; omega) (by simp; omega), C64_simple ?_ (by decide) (by simp; omega) (by simp; omega),
    C64_simple ?_ (by decide) (by simp; omega) (by simp; omega), C64_simple ?_ (by decide) (by simp; omega) (by simp; omega),
    C64_simple ?_ (by decide) (by simp; omega) (by simp; omega)⟩
  · exact ⟨[], 0, _, .nil, .map (.firstEntry (.inEntry (k := bs!"a") (j := 0) (m := 0) (t := bs!"b: c\n") hk (by decide) (.here (.colon (k := bs!"b") (j := 0) (r := bs!" c\n")
      (leaf_word ⟨by simp, by simp [Block.Ink], by simp, by simp⟩ (by decide) (resolves_str rfl (by decide))) (.inr ⟨_, _, rfl, .inl rfl⟩))))), rfl, by decide⟩
  · exact ⟨[], 0, _, .nil, .map (.firstEntry (.inEntry (k := bs!"a") (j := 0) (m := 0) (t := bs!"- c\n") hk (by decide) (.here (.dash (.inr ⟨_, _, rfl, .inl rfl⟩))))), rfl, by decide⟩
  · exact ⟨[], 0, _, .nil, .seq (.firstItem (.inItem (m := 0) (t := bs!"\"\\q\"\n") (.here (.double (.unknown (by decide)))))), rfl, by decide⟩
  · exact ⟨[], 0, _, .nil, .seq (.firstItem (.inItem (m := 0) (t := bs!"'a' b\n") (.here (.afterSingle (w := bs!"a") (j := 1) (b := b%'b') (r := bs!"\n") (.raw (by decide) (by decide) .nil) (by decide) (by decide) (by decide) (by decide))))),
      rfl, by decide⟩
  · exact ⟨[], 0, _, .nil, .seq (.firstItem (.inItem (m := 0) (t := bs!"* a\n") (.here (.nameless (by decide) (.inr ⟨_, _, rfl, by decide⟩))))), rfl, by decide⟩

/-! ## What is false -/

/-- C64 is false: a quotation mark that is not closed, with a NUL after it, makes the library loop for ever. -/
theorem C64_fault_false (fo : FloatOps F) : ¬ C64_full fo := by
  intro h
  obtain ⟨N, hN⟩ := h [34, 0] ⟨[], 0, _, .nil, .here (.double (.raw (by decide) (by decide) .nil)), rfl, by decide⟩
  obtain ⟨e, he⟩ := hN ⟨N + 2, false⟩ (N + 2) (by simp) (by simp)
  rw [load_hang hangs_nul (by simp) (by simp)] at he
  cases he

/-- A reserved character at the end of the text makes it panic. -/
theorem C64_reserved_false (fo : FloatOps F) (d : Bool) : Faults.Text true fo (.scalar .null) bs!"a: @" ∧ Loader.loadFrom fo ⟨50, d⟩ 50 bs!"a: @" = .panic := by
  refine ⟨⟨[], 0, _, .nil, .map (.firstEntry (.inEntry (k := bs!"a") (j := 0) (m := 0) (t := bs!"@")
    (leaf_word ⟨by simp, by simp [Block.Ink], by simp, by simp⟩ (by decide) (resolves_str rfl (by decide))) (by decide) (.here (.reserved (by decide))))), rfl, by decide⟩, ?_⟩
  have h : ∀ d, (Loader.pushed true ⟨50, d⟩ 50 bs!"a: @").1 = .panic := by decide +kernel
  have h := h d
  unfold Loader.pushed at h
  unfold Loader.loadFrom Loader.loadFromParser
  rcases h' : Parser.load true ⟨Loader.parserOn ⟨50, d⟩ 50 bs!"a: @", []⟩ with ⟨a, b⟩
  rw [h'] at h
  obtain rfl := h
  rfl

end Verif.Props
