import Verif.Props.Lines
import Verif.Props.Literal
import Verif.Props.ReadBack
import Verif.Lemmas.Utf8Text
import Verif.Props.Limits
import Verif.Lemmas.ScanHang
/-!
# C02, C32, C63: which bytes are written, and for which values
-/
namespace Verif.Props
open Verif Verif.Spec Verif.Spec.Block Verif.Scanner Verif.Ser Verif.De
variable {F : Type}

/-! ## Integers -/

/-- The integers of each type, as Rust has them. C63 is about all of these. -/
theorem C63_integers_exact (i : Int) (t : IntTy) : HasType (.int t) (.int i : Val F) ↔ match t with
    | .i8 => -128 ≤ i ∧ i ≤ 127
    | .i16 => -32768 ≤ i ∧ i ≤ 32767
    | .i32 => -2147483648 ≤ i ∧ i ≤ 2147483647
    | .i64 => -9223372036854775808 ≤ i ∧ i ≤ 9223372036854775807
    | .u8 => 0 ≤ i ∧ i ≤ 255
    | .u16 => 0 ≤ i ∧ i ≤ 65535
    | .u32 => 0 ≤ i ∧ i ≤ 4294967295
    | .u64 => 0 ≤ i ∧ i ≤ 18446744073709551615 := by
  have : HasType (.int t) (.int i : Val F) ↔ t.min ≤ i ∧ i ≤ t.max := ⟨fun h => by cases h; exact ⟨‹_›, ‹_›⟩, fun h => .int h.1 h.2⟩
  rw [this]
  cases t <;> simp [IntTy.min, IntTy.max]

/-! ## NaN -/

/-- A NaN is written as `NaN` or `-NaN` (Rust shows it as `NaN`), which is a string for the reader, while `.nan` is a float. -/
theorem C63_nan (fo : FloatOps F) (ofInt : Int → F) (ext : Extern F) (fm : Formatter) (x : F) (hd : fo.display x = bs!"NaN") :
    toPrettyString fo ext fm (.float x) = some (if ext.negativeNan x then bs!"-NaN" else bs!"NaN") ∧
      (∀ w ∈ [bs!"-NaN", bs!"NaN"], Deserialises fo ofInt .str w (.str w) ∧ ∃ N, ∀ cfg n, N ≤ cfg.fuel → N ≤ n → Loader.loadFrom fo cfg n w = .ok [.scalar (.str w)]) := by
  refine ⟨?_, fun w hw => ⟨?_, ?_⟩⟩
  · simp only [toPrettyString, serialize, serializeFloat, hd]
    split <;> rfl
  · have hw' : Scalar.parseFromCowAndMetadata fo w .plain none = some (.str w) := by
      simp at hw
      rcases hw with rfl | rfl <;> rfl
    refine oneScalar_reads rfl (oneScalar_word ?_) (by rw [Spec.Reads]; exact ⟨_, ⟨_, rfl, hw'⟩, rfl⟩)
    simp at hw
    rcases hw with rfl | rfl
    · exact ⟨by simp, by simp [JByte, WordByte, CharUtils.isFlow], by simp, by simp, _, _, rfl, by decide, by simp [TokenHead]⟩
    · exact ⟨by simp, by simp [JByte, WordByte, CharUtils.isFlow], by simp, by simp, _, _, rfl, by decide, by simp [TokenHead]⟩
  · simp at hw
    obtain ⟨N, hN⟩ := C54_block_partial (fo := fo) (t := w) (x := .scalar (.str w)) (by
      rcases hw with rfl | rfl
      · exact ⟨[], 0, none, bs!"-NaN", [], [], .nil, .leaf (.plain ⟨⟨_, _, rfl, by decide, fun _ => ⟨_, _, rfl, by simp [Block.Ink]⟩⟩, by rintro m r (rfl | rfl) h <;> simp at h⟩
          (.one (.one ⟨by simp, by simp [Block.Ink], by simp, by simp⟩)) (resolves_str rfl (by decide))), .inl (.inl ⟨0, rfl⟩), by simp [spaces], by simp⟩
      · exact ⟨[], 0, none, bs!"NaN", [], [], .nil, .leaf (block_word ⟨by simp, by simp [Block.Ink], by simp, by simp⟩ (by decide) (resolves_str rfl (by decide))), .inl (.inl ⟨0, rfl⟩), by simp [spaces], by simp⟩)
    exact ⟨N, fun cfg n h1 h2 => (hN cfg n h1 h2).1⟩

/-! ## Characters -/

theorem single_raw {p} : ∀ w : List Byte, (∀ b ∈ w, b%' ' < b ∧ b ≠ b%'\'') → Single p w w
  | [], _ => .nil
  | b :: w, h => .raw (h b (by simp)).1 (h b (by simp)).2 (single_raw w fun c hc => h c (List.mem_cons_of_mem _ hc))

/-- A `char` is written so that it loads as the string of that character, whichever character it is except for the control characters up to the space. -/
theorem C63_char_partial (fo : FloatOps F) (c : Char) (hc : ' ' < c) :
    ∃ N, ∀ cfg n, N ≤ cfg.fuel → N ≤ n → Loader.loadFrom fo cfg n (serializeChar c.toNat) = .ok [.scalar (.str (utf8 [c]))] := by
  have e : utf8 [c] = Utf8.encode c.toNat := by rw [Utf8.utf8_cons, Utf8.utf8_nil, List.append_nil]
  have h32 : 32 < c.toNat := hc
  rw [e]
  have go : ∀ t, Tall false fo 0 t (.scalar (.str (Utf8.encode c.toNat))) → ¬ HasBom t → ∃ N, ∀ cfg n, N ≤ cfg.fuel → N ≤ n → Loader.loadFrom fo cfg n t = .ok [.scalar (.str (Utf8.encode c.toNat))] := by
    intro t ht hb
    obtain ⟨N, hN⟩ := C55_lines_partial ht hb
    exact ⟨N, fun cfg n h1 h2 => (hN cfg n h1 h2).1⟩
  unfold serializeChar
  by_cases hq : c.toNat = 39
  · rw [hq] at go ⊢
    exact go _ (.double (w := bs!"'") (.raw (by decide) (by decide) (by decide) .nil)) (by simp [HasBom])
  · rw [if_neg hq]
    refine go _ (.single (w := Utf8.encode c.toNat) (single_raw _ fun b hb => ?_)) (by simp [HasBom])
    unfold Utf8.encode at hb
    split at hb
    · simp at hb; omega
    · split at hb
      · simp at hb; omega
      · split at hb <;> (simp at hb; omega)

/-- A line feed as a `char` is written as it is between quotation marks, and so loads as a space; a NUL is not read at all. -/
theorem C63_char_false (fo : FloatOps F) : ∃ docs, Loader.loadFrom fo ⟨40, false⟩ 40 (serializeChar '\n'.toNat) = .ok docs ∧ docs = [.scalar (.str bs!" ")] :=
  ⟨_, Loader.load_ok (evs := [.streamStart, .documentStart false, .scalar ⟨bs!" ", .singleQuote, 0, none⟩, .documentEnd, .streamEnd]) (by decide +kernel) rfl, rfl⟩

/-- the characters up to the space: those that are read back -/
theorem char_small (d : Bool) (c : Nat) (h : c ∈ List.range 33) : c ≠ 0 → c ≠ 10 → c ≠ 13 →
    Loader.pushed true ⟨12, d⟩ 12 (serializeChar c) = (.ok (), [.streamStart, .documentStart false, .scalar ⟨[c], .singleQuote, 0, none⟩, .documentEnd, .streamEnd]) ∧
      (scanInput ⟨12, d⟩ (serializeChar c) 12).2 = .ended := by
  revert c
  cases d <;> decide +kernel

/-- a carriage return between quotation marks is never got past -/
theorem blanks_cr {r} (hr : r.head? ≠ some 10) {s : SSt} (h : s.src.rest = 13 :: r) : ∀ n p, Hangs (loopM flowBlankBody n p) s := by
  have h0 : s.src.peekz 0 = 13 := by simp [Verif.Source.Src.peekz, h]
  have h1 : s.src.peekz 1 ≠ 10 := by
    cases r with
    | nil => simp [Verif.Source.Src.peekz, h]
    | cons c r => simp [Verif.Source.Src.peekz, h] at hr ⊢; omega
  intro n
  induction n with
  | zero => exact fun _ => rfl
  | succ n ih =>
    intro p
    obtain ⟨p', hp⟩ : ∃ p', flowBlankBody p s = (.ok (.next p'), s) := by
      unfold flowBlankBody
      cases hl : p.leadingBlanks
      · exact ⟨_, by simp [bind, peekz, gets, h0, CharUtils.isBlank, CharUtils.isBreak, hl, readBreak, skipLinebreak, upd, h1, pure]; rfl⟩
      · exact ⟨_, by simp [bind, peekz, gets, h0, CharUtils.isBlank, CharUtils.isBreak, hl, readBreak, skipLinebreak, upd, h1, pure]; rfl⟩
    exact Hangs.step hp (ih p')

theorem hangs_char {m d b} (hb : b = 0 ∨ b = 13) : Hangs (fetchNextToken ⟨m + 2, d⟩) (started (39 :: b :: [39])) := by
  rcases hb with rfl | rfl
  all_goals
    unfold fetchNextToken
    refine Hangs.step (a := true) rfl ?_
    refine Hangs.step (a := ()) rfl ?_
    refine Hangs.step (a := ()) rfl ?_
    refine Hangs.step rfl ?_
    refine Hangs.step (a := ()) rfl ?_
    refine Hangs.step (a := false) rfl ?_
    show Hangs (fetchAtToken _) _
    unfold fetchAtToken
    refine Hangs.step rfl ?_
    refine Hangs.step (a := false) rfl ?_
    refine Hangs.step (a := false) rfl ?_
    refine Hangs.step (a := false) rfl ?_
    simp only [Bool.false_eq_true, if_false]
    refine Hangs.step (a := false) rfl ?_
    refine Hangs.step (a := ()) rfl ?_
    unfold fetchMain
    refine Hangs.step (a := 39) rfl ?_
  · refine Hangs.step (a := 0) rfl ?_
    refine Hangs.step (a := 0) rfl ?_
    refine Hangs.step (a := true) rfl ?_
    show Hangs (fetchFlowScalar _ true) _
    unfold fetchFlowScalar
    refine Hangs.step (a := ()) rfl ?_
    refine Hangs.step (a := ()) rfl ?_
    refine Hangs.bind ?_
    unfold scanFlowScalar
    refine Hangs.step rfl ?_
    refine Hangs.step (a := ()) rfl ?_
    refine Hangs.bind ?_
    exact Hangs.stuck rfl _
  · refine Hangs.step (a := 13) rfl ?_
    refine Hangs.step (a := 0) rfl ?_
    refine Hangs.step (a := true) rfl ?_
    show Hangs (fetchFlowScalar _ true) _
    unfold fetchFlowScalar
    refine Hangs.step (a := ()) rfl ?_
    refine Hangs.step (a := ()) rfl ?_
    refine Hangs.bind ?_
    unfold scanFlowScalar
    refine Hangs.step rfl ?_
    refine Hangs.step (a := ()) rfl ?_
    refine Hangs.bind ?_
    refine Hangs.loop1 ?_
    unfold flowBody
    refine Hangs.step (a := false) rfl ?_
    refine Hangs.step (a := ()) rfl ?_
    refine Hangs.step (a := false) rfl ?_
    refine Hangs.step (a := ()) rfl ?_
    refine Hangs.step (a := false) rfl ?_
    refine Hangs.step (a := ()) rfl ?_
    refine Hangs.step (a := ([], false)) rfl ?_
    refine Hangs.step (a := 13) rfl ?_
    rw [if_neg (by decide)]
    exact Hangs.bind (blanks_cr (r := [39]) (by decide) rfl _ _)

/-- the characters that are not read back: nothing is ever loaded -/
theorem char_never {fo : FloatOps F} {cfg : Cfg} {n b} (hb : b = 0 ∨ b = 13) (hf : 2 ≤ cfg.fuel) (hn : 2 ≤ n) : Loader.loadFrom fo cfg n (serializeChar b) = .hang := by
  have e : serializeChar b = 39 :: b :: [39] := by rcases hb with rfl | rfl <;> rfl
  obtain ⟨f, d⟩ := cfg
  obtain ⟨m, rfl⟩ : ∃ m, f = m + 2 := ⟨f - 2, by simp at hf; omega⟩
  rw [e]
  have h2 := hangs_next (cfg := ⟨m + 2, d⟩) (s := started (39 :: b :: [39])) rfl rfl rfl (hangs_char hb)
  obtain ⟨k, rfl⟩ : ∃ m, n = m + 2 := ⟨n - 2, by omega⟩
  have : Spec.scanInput ⟨m + 2, d⟩ (39 :: b :: [39]) (k + 2) = ([⟨⟨⟨0, 1, 1⟩, ⟨0, 1, 1⟩⟩, .streamStart⟩], .hung) := by
    unfold Spec.scanInput
    simp only [Spec.scan, next_new (cfg := ⟨m + 2, d⟩) (by simp)]
    revert h2
    rcases next ⟨m + 2, d⟩ (started (39 :: b :: [39])) with ⟨_ | _ | _ | _, s1⟩ <;> simp
  unfold Loader.loadFrom Loader.parserOn
  rw [this]
  rfl

/-- **C63** Exactly three characters are not read back: NUL and the carriage return, on which the scanner loops for ever, and the line feed, which becomes a space. -/
theorem C63_char_exact (fo : FloatOps F) (c : Char) :
    (∃ N, ∀ cfg n, N ≤ cfg.fuel → N ≤ n → Loader.loadFrom fo cfg n (serializeChar c.toNat) = .ok [.scalar (.str (utf8 [c]))]) ↔ c.toNat ∉ [0, b%'\n', b%'\r'] := by
  constructor
  · rintro ⟨N, h⟩ hc
    simp only [List.mem_cons, List.not_mem_nil, or_false] at hc
    rcases hc with hc | hc | hc
    · have := h ⟨N + 2, false⟩ (N + 2) (by simp) (by simp)
      rw [hc, char_never (.inl rfl) (by simp) (by simp)] at this
      cases this
    · have e : utf8 [c] = Utf8.encode c.toNat := by rw [Utf8.utf8_cons, Utf8.utf8_nil, List.append_nil]
      have := h ⟨N + 40, false⟩ (N + 40) (by simp) (by simp)
      rw [hc, (C09_limits_partial (f := 40) (k := 40) (d := false) fo (.inl (by decide +kernel)) (by simp) (by simp)).2.1] at this
      obtain ⟨docs, h1, rfl⟩ := C63_char_false fo
      rw [e, hc] at this
      rw [show serializeChar 10 = serializeChar '\n'.toNat from rfl, h1] at this
      exact absurd this (by simp [Utf8.encode])
    · have := h ⟨N + 2, false⟩ (N + 2) (by simp) (by simp)
      rw [hc, char_never (.inr rfl) (by simp) (by simp)] at this
      cases this
  · intro hc
    simp only [List.mem_cons, List.not_mem_nil, or_false, not_or] at hc
    by_cases h32 : ' ' < c
    · exact C63_char_partial fo c h32
    · have hlt : c.toNat < 33 := by
        have : ¬ 32 < c.toNat := h32
        omega
      have e : utf8 [c] = [c.toNat] := by
        rw [Utf8.utf8_cons, Utf8.utf8_nil, List.append_nil, Utf8.encode, if_pos (by omega)]
      refine ⟨12, fun cfg n h1 h2 => ?_⟩
      obtain ⟨g1, g2⟩ := char_small cfg.debug c.toNat (List.mem_range.2 hlt) hc.1 hc.2.1 hc.2.2
      have := (C09_limits_partial (f := 12) (k := 12) (d := cfg.debug) fo (.inl g2) h1 h2).2.1
      refine this.trans ?_
      rw [Loader.load_ok (l := _) g1 rfl, e]
      rfl

/-- a tab, an apostrophe and a character of four bytes are read back, a NUL is not -/
example (fo : FloatOps F) : (∀ c ∈ ['\t', '\'', '😀'], ∃ N, ∀ cfg n, N ≤ cfg.fuel → N ≤ n → Loader.loadFrom fo cfg n (serializeChar c.toNat) = .ok [.scalar (.str (utf8 [c]))]) ∧
    ¬ ∃ N, ∀ cfg n, N ≤ cfg.fuel → N ≤ n → Loader.loadFrom fo cfg n (serializeChar 0) = .ok [.scalar (.str (utf8 ['\x00']))] :=
  ⟨fun c hc => (C63_char_exact fo c).2 (by revert c; decide), fun h => (C63_char_exact fo '\x00').1 h (by decide)⟩

/-! ## Double quoted strings -/

/-- what `escape_str` writes has no control characters -/
theorem C02_printable {v q : List Byte} (h : Emitter.escapeStr v = some q) : ∀ b ∈ q, 0x20 ≤ b ∧ b ≠ 0x7f := by
  have hl : ∀ (v m : List Byte), Emitter.escapeLoop v = some m → ∀ b ∈ m, 0x20 ≤ b ∧ b ≠ 0x7f := by
    intro v
    induction v with
    | nil => intro m h; cases h; simp
    | cons c v ih =>
      intro m h
      rw [Emitter.escapeLoop] at h
      by_cases hn : Emitter.needsEscape c = true
      · rw [if_pos hn] at h
        cases he : Emitter.escapeOf c with
        | none => simp [he] at h
        | some e =>
          cases hr : Emitter.escapeLoop v with
          | none => simp [he, hr] at h
          | some r =>
            simp [he, hr] at h
            subst h
            intro b hb
            rcases List.mem_append.1 hb with hb | hb
            · unfold Emitter.escapeOf at he
              repeat' split at he
              all_goals first | (cases he; simp at hb; rcases hb with rfl | rfl <;> decide) | cases he | skip
              have hd : ∀ n < 16, 0x20 ≤ Emitter.hexDigit n ∧ Emitter.hexDigit n ≠ 0x7f := by decide
              have h1 := hd (c / 16) (by omega)
              have h2 := hd (c % 16) (by omega)
              simp at hb
              rcases hb with rfl | rfl | rfl | rfl | rfl | rfl <;> first | decide | assumption
            · exact ih r hr b hb
      · rw [if_neg hn] at h
        simp [Emitter.needsEscape] at hn
        cases hr : Emitter.escapeLoop v with
        | none => simp [hr] at h
        | some r =>
          simp [hr] at h
          subst h
          intro b hb
          rcases List.mem_cons.1 hb with rfl | hb
          · omega
          · exact ih r hr b hb
  unfold Emitter.escapeStr at h
  cases hm : Emitter.escapeLoop v with
  | none => simp [hm] at h
  | some m =>
    simp [hm] at h
    subst h
    intro b hb
    simp at hb
    rcases hb with rfl | hb | rfl
    · decide
    · exact hl v m hm b hb
    · decide

example : Emitter.escapeStr [0x1f, 0x7f, b%'a', 10] = some bs!"\"\\u001f\\u007fa\\n\"" := by decide

/-! ## Literal blocks -/

theorem chars_utf8 (cs : List Char) : Emitter.chars (utf8 cs) = cs.map Char.toNat := by
  induction cs with
  | nil => rfl
  | cons c cs ih =>
    rw [Utf8.utf8_cons, List.map_cons, ← ih]
    have hb : c.toNat < 0x110000 := by
      have hv := c.valid
      simp only [UInt32.isValidChar, Nat.isValidChar] at hv
      simp only [Char.toNat]; omega
    generalize c.toNat = v at *
    generalize utf8 cs = r
    unfold Utf8.encode
    by_cases h1 : v < 0x80
    · rw [if_pos h1, List.singleton_append, Emitter.chars.eq_def]
      simp only [if_pos h1]
    by_cases h2 : v < 0x800
    · rw [if_neg h1, if_pos h2]
      simp only [List.cons_append, List.nil_append]
      rw [Emitter.chars.eq_def]
      simp only
      rw [if_neg (by omega), if_pos (by omega)]
      congr 1; omega
    by_cases h3 : v < 0x10000
    · rw [if_neg h1, if_neg h2, if_pos h3]
      simp only [List.cons_append, List.nil_append]
      rw [Emitter.chars.eq_def]
      simp only
      rw [if_neg (by omega), if_neg (by omega), if_pos (by omega)]
      congr 1; omega
    · rw [if_neg h1, if_neg h2, if_neg h3]
      simp only [List.cons_append, List.nil_append]
      rw [Emitter.chars.eq_def]
      simp only
      rw [if_neg (by omega), if_neg (by omega), if_neg (by omega)]
      congr 1; omega

/-- Which texts are written as literal blocks: if the emitter is asked to, those with a line feed and no control characters, in particular no carriage
return. (The code has `\u{d7fff}` where YAML means `\u{d7ff}`: U+E000 to U+D7FFF are all allowed, those above are not.) -/
theorem C32_characters_exact (ec : Emitter.Config) (cs : List Char) : Emitter.shouldEmitStringAsBlock ec (utf8 cs) = true ↔
    ec.multilineStrings = true ∧ '\n' ∈ cs ∧ ∀ c ∈ cs, c = '\t' ∨ c = '\n' ∨ (' ' ≤ c ∧ c ≤ '~') ∨ c.toNat = 0x85 ∨ (0xA0 ≤ c.toNat ∧ c.toNat ≤ 0xD7FFF) := by
  have hc : Emitter.isValidLiteralBlockScalar (utf8 cs) = true ↔ ∀ c ∈ cs, c = '\t' ∨ c = '\n' ∨ (' ' ≤ c ∧ c ≤ '~') ∨ c.toNat = 0x85 ∨ (0xA0 ≤ c.toNat ∧ c.toNat ≤ 0xD7FFF) := by
    rw [Emitter.isValidLiteralBlockScalar, chars_utf8]
    simp only [List.all_map, List.all_eq_true, Function.comp]
    refine forall_congr' fun c => imp_congr_right fun _ => ?_
    have e1 : c = '\t' ↔ c.toNat = 9 := ⟨fun h => by rw [h]; rfl, fun h => Char.ext (UInt32.toNat_inj.1 h)⟩
    have e2 : c = '\n' ↔ c.toNat = 10 := ⟨fun h => by rw [h]; rfl, fun h => Char.ext (UInt32.toNat_inj.1 h)⟩
    have e3 : ' ' ≤ c ↔ 32 ≤ c.toNat := Iff.rfl
    have e4 : c ≤ '~' ↔ c.toNat ≤ 126 := Iff.rfl
    rw [e1, e2, e3, e4]
    simp [Emitter.isLiteralChar]
    omega
  have hn : ∀ cs : List Char, 10 ∈ utf8 cs ↔ '\n' ∈ cs := by
    intro cs
    induction cs with
    | nil => simp [utf8]
    | cons c cs ih =>
      rw [Utf8.utf8_cons, List.mem_append, List.mem_cons, ih]
      have e2 : '\n' = c ↔ c.toNat = 10 := ⟨fun h => by rw [← h]; rfl, fun h => ((Char.ext (UInt32.toNat_inj.1 h) : c = '\n')).symm⟩
      rw [e2]
      refine or_congr ?_ Iff.rfl
      unfold Utf8.encode
      split
      · simp; omega
      · split
        · simp; omega
        · split <;> (simp; omega)
  unfold Emitter.shouldEmitStringAsBlock
  rw [Bool.and_eq_true, Bool.and_eq_true, hc, List.contains_iff_mem, hn, and_assoc]

/-- a text of two lines; one with a carriage return -/
example : Emitter.shouldEmitStringAsBlock ⟨2, true, true⟩ (utf8 ['é', '\n', '€']) = true ∧ ¬ Emitter.shouldEmitStringAsBlock ⟨2, true, true⟩ (utf8 ['a', '\r', '\n']) = true :=
  ⟨(C32_characters_exact _ _).2 ⟨rfl, by decide, by decide⟩, fun h => by have := ((C32_characters_exact _ _).1 h).2.2 '\r' (by decide); revert this; decide⟩

end Verif.Props
