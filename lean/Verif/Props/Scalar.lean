import Verif.Lemmas.Quotes
/-!
# C03–C07: what a scalar means

`Scalar.valueFromCowAndMetadata fo text style tag` is the value a scalar node of that text, style and tag loads as.
`fo` is an arbitrary float parser/printer: every theorem holds for all of them.
-/
namespace Verif.Props
open Verif Verif.Scalar Verif.Emitter Verif.Spec.Core

/-- A concrete float parser for the examples: accepts nothing. -/
def noFloats : FloatOps Unit := ⟨fun _ => none, fun _ => [], (), (), ()⟩

/-! ## C03 -/

/-- **C03** A scalar that is not plain (quoted or block) and has no tag loads as the string it spells. -/
theorem C03_quoted_is_string {F} (fo : FloatOps F) (text : List Byte) (style : ScalarType) (h : style ≠ .plain) :
    valueFromCowAndMetadata fo text style none = .scalar (.str text) := by
  simp [valueFromCowAndMetadata, parseFromCowAndMetadata, h]

example : ScalarType.doubleQuote ≠ .plain ∧
    valueFromCowAndMetadata noFloats bs!"12" .plain none = .scalar (.int 12) := ⟨by decide, rfl⟩

/-- **C03** The same under a tag outside the core schema: the tag is kept and wraps that string. -/
theorem C03_quoted_is_string_tagged {F} (fo : FloatOps F) (text : List Byte) (style : ScalarType) (tag : Tag)
    (h : style ≠ .plain) (ht : tag.handle ≠ bs!"tag:yaml.org,2002:") :
    valueFromCowAndMetadata fo text style (some tag) = .tagged tag (.scalar (.str text)) := by
  simp [valueFromCowAndMetadata, parseFromCowAndMetadata, h, Tag.isYamlCoreSchema, ht]

example : (⟨bs!"!", bs!"t"⟩ : Tag).handle ≠ bs!"tag:yaml.org,2002:" := by decide

/-! ## C04 -/

/-- **C04, the full statement is false.** `0o17`, `++5`, `+-5` and `+.inf` are emitted without quotes and load as numbers
(for every float parser that rejects these texts, as Rust's does). -/
theorem C04_unquoted_strings_false {F} (fo : FloatOps F) :
    (fo.parse bs!"0o17" = none →
      needQuotes fo bs!"0o17" = false ∧ valueFromCowAndMetadata fo bs!"0o17" .plain none = .scalar (.int 15)) ∧
    (fo.parse bs!"++5" = none →
      needQuotes fo bs!"++5" = false ∧ valueFromCowAndMetadata fo bs!"++5" .plain none = .scalar (.int 5)) ∧
    (fo.parse bs!"+-5" = none →
      needQuotes fo bs!"+-5" = false ∧ valueFromCowAndMetadata fo bs!"+-5" .plain none = .scalar (.int (-5))) ∧
    (fo.parse bs!"+.inf" = none →
      needQuotes fo bs!"+.inf" = false ∧ valueFromCowAndMetadata fo bs!"+.inf" .plain none = .scalar (.float fo.inf)) := by
  refine ⟨fun h => ⟨?_, rfl⟩, fun h => ⟨?_, rfl⟩, fun h => ⟨?_, rfl⟩, fun h => ⟨?_, rfl⟩⟩
  all_goals unfold needQuotes; rw [h]; rfl

/-- **C04 (partial: excludes strings starting with `0o` or `+`)** A string the emitter leaves unquoted loads, as a plain
scalar, as that same string. -/
theorem C04_unquoted_strings_partial {F} (fo : FloatOps F) (s : List Byte) (h : needQuotes fo s = false)
    (h0o : ¬ bs!"0o" <+: s) (hplus : s.head? ≠ some b%'+') :
    valueFromCowAndMetadata fo s .plain none = .scalar (.str s) := by
  have : parseFromCow fo s = .str s := by
    rcases parseFromCow_unquoted fo s h with h1 | ⟨i, h1⟩ | ⟨h1, _⟩
    · exact h1
    · exfalso
      obtain ⟨hs, _⟩ := needQuotes_not_dec h h1
      rcases hs with ⟨t, v, rfl, _⟩ | hs
      · exact h0o ⟨t, rfl⟩
      · cases hs with
        | octPlus _ => exact h0o ⟨_, rfl⟩
        | octMinus _ => exact h0o ⟨_, rfl⟩
        | hexPlus _ => simp [needQuotes] at h
        | hexMinus _ => simp [needQuotes] at h
        | plusPlus _ => simp at hplus
        | plusMinus _ => simp at hplus
    · exfalso
      simp [plusInf] at h1
      rcases h1 with rfl | rfl | rfl <;> simp at hplus
  simp [valueFromCowAndMetadata, parseFromCowAndMetadata, this]

example : needQuotes noFloats bs!"a b-c" = false ∧ ¬ bs!"0o" <+: bs!"a b-c" ∧ (bs!"a b-c").head? ≠ some b%'+' := by decide

/-- **C04 (exact)** What an unquoted emitted string can load as: itself, or the integer it spells in octal or with a
misplaced sign, or positive infinity spelled with a sign. Nothing else. -/
theorem C04_unquoted_strings_exact {F} (fo : FloatOps F) (s : List Byte) (h : needQuotes fo s = false) :
    valueFromCowAndMetadata fo s .plain none = .scalar (.str s) ∨
    (∃ i, valueFromCowAndMetadata fo s .plain none = .scalar (.int i) ∧
      ((∃ t, ∃ v : Nat, s = bs!"0o" ++ t ∧ IsNumeral 8 t v ∧ i = v) ∨ SignedTwice s i)) ∨
    (s ∈ [bs!"+.inf", bs!"+.Inf", bs!"+.INF"] ∧
      valueFromCowAndMetadata fo s .plain none = .scalar (.float fo.inf)) := by
  rcases parseFromCow_unquoted fo s h with h1 | ⟨i, h1⟩ | ⟨h1, h2⟩
  · left; simp [valueFromCowAndMetadata, parseFromCowAndMetadata, h1]
  · right; left
    exact ⟨i, by simp [valueFromCowAndMetadata, parseFromCowAndMetadata, h1], (needQuotes_not_dec h h1).1⟩
  · right; right
    exact ⟨h1, by simp [valueFromCowAndMetadata, parseFromCowAndMetadata, h2]⟩

/-! ## C05 -/

/-- **C05** Every 64-bit integer, printed and loaded as a plain scalar, is the same integer. -/
theorem C05_int_roundtrip {F} (fo : FloatOps F) (i : Int) (h : Fits64 i) :
    valueFromCowAndMetadata fo (displayI64 i) .plain none = .scalar (.int i) := by
  have := (parseFromCow_int_iff fo _ i).2 ⟨.inl (displayI64_coreInt i), h⟩
  simp [valueFromCowAndMetadata, parseFromCowAndMetadata, this]

example : Fits64 (-9223372036854775808) ∧ displayI64 (-9223372036854775808) = bs!"-9223372036854775808" := by
  constructor
  · unfold Fits64; decide
  · decide +kernel

/-- **C05** Every decimal, octal or hexadecimal integer of the YAML core schema that fits 64 bits loads as the integer it
denotes. -/
theorem C05_core_int_accepted {F} (fo : FloatOps F) (s : List Byte) (i : Int) (hs : CoreInt s i) (h : Fits64 i) :
    valueFromCowAndMetadata fo s .plain none = .scalar (.int i) := by
  have := (parseFromCow_int_iff fo _ i).2 ⟨.inl hs, h⟩
  simp [valueFromCowAndMetadata, parseFromCowAndMetadata, this]

example : CoreInt bs!"0xfF" 255 ∧ CoreInt bs!"-0012" (-12) ∧ Fits64 255 :=
  ⟨.hex (s := bs!"fF") (v := 255) ⟨by simp, by decide⟩, .minus (s := bs!"0012") (v := 12) ⟨by simp, by decide⟩,
    by unfold Fits64; decide⟩

/-- **C05, soundness is false**: `0x-5`, `++5` are no integers of the core schema but load as integers. -/
theorem C05_only_core_ints_false {F} (fo : FloatOps F) :
    (valueFromCowAndMetadata fo bs!"0x-5" .plain none = .scalar (.int (-5)) ∧ ∀ i, ¬ CoreInt bs!"0x-5" i) ∧
    (valueFromCowAndMetadata fo bs!"++5" .plain none = .scalar (.int 5) ∧ ∀ i, ¬ CoreInt bs!"++5" i) := by
  refine ⟨⟨rfl, ?_⟩, ⟨rfl, ?_⟩⟩
  · rintro i h
    cases h with
    | dec h => have := h.2; revert this; simp [value, digit]
    | hex h => have := h.2; revert this; simp [value, digit]
  · rintro i h
    cases h with
    | dec h => have := h.2; revert this; simp [value, digit]
    | plus h => have := h.2; revert this; simp [value, digit]

/-- **C05 (exact)** A plain untagged scalar loads as integer `i` exactly when `i` fits 64 bits and the text is a core-schema
integer denoting `i`, or such an integer with a misplaced sign. In particular it never loads as a different integer. -/
theorem C05_int_exact {F} (fo : FloatOps F) (s : List Byte) (i : Int) :
    valueFromCowAndMetadata fo s .plain none = .scalar (.int i) ↔ (CoreInt s i ∨ SignedTwice s i) ∧ Fits64 i := by
  rw [← parseFromCow_int_iff fo]
  simp [valueFromCowAndMetadata, parseFromCowAndMetadata]

/-! ## C06 -/

/-- **C06** `!!str` on any scalar gives the string it spells. -/
theorem C06_str_tag {F} (fo : FloatOps F) (text : List Byte) (style : ScalarType) :
    valueFromCowAndMetadata fo text style (some ⟨bs!"tag:yaml.org,2002:", bs!"str"⟩) = .scalar (.str text) := by
  cases style <;> simp [valueFromCowAndMetadata, parseFromCowAndMetadata, Tag.isYamlCoreSchema]

/-- The type named by a core tag suffix. -/
def HasCoreType {F} (suffix : List Byte) : Yaml F → Prop
  | .scalar (.bool _) => suffix = bs!"bool"
  | .scalar (.int _) => suffix = bs!"int"
  | .scalar (.float _) => suffix = bs!"float"
  | .scalar .null => suffix = bs!"null"
  | .scalar (.str _) => suffix = bs!"str"
  | _ => False

/-- **C06, false for quoted scalars**: `!!int "5"` loads as the string `5`. -/
theorem C06_core_tag_false {F} (fo : FloatOps F) :
    valueFromCowAndMetadata fo bs!"5" .doubleQuote (some ⟨bs!"tag:yaml.org,2002:", bs!"int"⟩) =
      .scalar (.str bs!"5") := rfl

/-- **C06 (partial: plain scalars only)** A plain scalar with a core-schema tag loads as a value of exactly the type the tag
names, or as a bad value. -/
theorem C06_core_tag_partial {F} (fo : FloatOps F) (text suffix : List Byte) :
    let v := valueFromCowAndMetadata fo text .plain (some ⟨bs!"tag:yaml.org,2002:", suffix⟩)
    v = .bad ∨ HasCoreType suffix v := by
  simp only [valueFromCowAndMetadata, parseFromCowAndMetadata, Tag.isYamlCoreSchema]
  simp only [ne_eq, not_true_eq_false, if_false, BEq.rfl, Bool.not_true, Bool.false_eq_true, if_true]
  by_cases h1 : suffix = bs!"bool"
  · subst h1; rw [if_pos rfl]; cases parseBool text <;> simp [HasCoreType]
  · rw [if_neg h1]
    by_cases h2 : suffix = bs!"int"
    · subst h2; rw [if_pos rfl]; cases parseI64 text <;> simp [HasCoreType]
    · rw [if_neg h2]
      by_cases h3 : suffix = bs!"float"
      · subst h3; rw [if_pos rfl]; cases parseCoreSchemaFp fo text <;> simp [HasCoreType]
      · rw [if_neg h3]
        by_cases h4 : suffix = bs!"null"
        · subst h4; rw [if_pos rfl]
          cases isNullTagged text ⟨bs!"tag:yaml.org,2002:", bs!"null"⟩ <;> simp [HasCoreType]
        · rw [if_neg h4]
          by_cases h5 : suffix = bs!"str"
          · subst h5; simp [HasCoreType]
          · simp [h5]

/-- **C06** The value under `!!int` is the integer a plain decimal scalar denotes, under `!!bool` the named truth value,
under `!!null` null for the empty text, `~` and `null` only. -/
theorem C06_core_tag_values {F} (fo : FloatOps F) (text : List Byte) :
    (∀ i, valueFromCowAndMetadata fo text .plain (some ⟨bs!"tag:yaml.org,2002:", bs!"int"⟩) = .scalar (.int i) ↔
      Fits64 i ∧ ∃ t, ∃ v : Nat, IsNumeral 10 t v ∧
        ((text = t ∧ i = v) ∨ (text = b%'+' :: t ∧ i = v) ∨ (text = b%'-' :: t ∧ i = -(v : Int)))) ∧
    (∀ b, valueFromCowAndMetadata fo text .plain (some ⟨bs!"tag:yaml.org,2002:", bs!"bool"⟩) = .scalar (.bool b) ↔
      text = if b then bs!"true" else bs!"false") ∧
    (valueFromCowAndMetadata fo text .plain (some ⟨bs!"tag:yaml.org,2002:", bs!"null"⟩) = .scalar .null ↔
      text = [] ∨ text = bs!"~" ∨ text = bs!"null") := by
  refine ⟨fun i => ?_, fun b => ?_, ?_⟩
  · have : valueFromCowAndMetadata fo text .plain (some ⟨bs!"tag:yaml.org,2002:", bs!"int"⟩) = .scalar (.int i) ↔
        parseI64 text = some i := by
      simp [valueFromCowAndMetadata, parseFromCowAndMetadata, Tag.isYamlCoreSchema]
      cases parseI64 text <;> simp
    rw [this, parseI64_iff]
    constructor
    · rintro ⟨⟨v, hv, rfl⟩ | ⟨t, v, rfl, hv, rfl⟩ | ⟨t, v, rfl, hv, rfl⟩, hf⟩
      · exact ⟨hf, _, _, hv, .inl ⟨rfl, rfl⟩⟩
      · exact ⟨hf, _, _, hv, .inr (.inl ⟨rfl, rfl⟩)⟩
      · exact ⟨hf, _, _, hv, .inr (.inr ⟨rfl, rfl⟩)⟩
    · rintro ⟨hf, t, v, hv, ⟨rfl, rfl⟩ | ⟨rfl, rfl⟩ | ⟨rfl, rfl⟩⟩
      · exact ⟨.inl ⟨_, hv, rfl⟩, hf⟩
      · exact ⟨.inr (.inl ⟨_, _, rfl, hv, rfl⟩), hf⟩
      · exact ⟨.inr (.inr ⟨_, _, rfl, hv, rfl⟩), hf⟩
  · have : valueFromCowAndMetadata fo text .plain (some ⟨bs!"tag:yaml.org,2002:", bs!"bool"⟩) = .scalar (.bool b) ↔
        parseBool text = some b := by
      simp [valueFromCowAndMetadata, parseFromCowAndMetadata, Tag.isYamlCoreSchema]
      cases parseBool text <;> simp
    rw [this]
    unfold parseBool
    split
    · subst text; cases b <;> simp
    · split
      · subst text; cases b <;> simp
      · cases b <;> simp_all
  · simp only [valueFromCowAndMetadata, parseFromCowAndMetadata, Tag.isYamlCoreSchema, isNullTagged]
    simp
    by_cases h1 : text = []
    · simp [h1]
    · by_cases h2 : text = bs!"null"
      · simp [h2]
      · by_cases h3 : text = bs!"~"
        · simp [h3]
        · simp [h1, h2, h3]

/-! ## C07 -/

/-- **C07 is false.** The scalar event the parser synthesises for an empty node (empty text, plain, no tag) loads as the
empty *string*, not as null. -/
theorem C07_empty_is_null_false {F} (fo : FloatOps F) :
    valueFromCowAndMetadata fo [] .plain none = .scalar (.str []) ∧
    valueFromCowAndMetadata fo [] .plain none ≠ .scalar .null := by
  constructor
  · simp [valueFromCowAndMetadata, parseFromCowAndMetadata, parseFromCow, earlyInt, earlyWord, parseI64, parseI64Radix,
      parseCoreSchemaFp]
  · simp [valueFromCowAndMetadata, parseFromCowAndMetadata, parseFromCow, earlyInt, earlyWord, parseI64, parseI64Radix,
      parseCoreSchemaFp]

/-- **C07 (partial: only texts that are not empty)** Plain untagged scalars that load as null are exactly `~`, `null`, `Null`
and `NULL`. -/
theorem C07_null_spellings_partial {F} (fo : FloatOps F) (text : List Byte) :
    valueFromCowAndMetadata fo text .plain none = .scalar .null ↔
      text ∈ [bs!"~", bs!"null", bs!"Null", bs!"NULL"] := by
  constructor
  · intro h
    have h : parseFromCow fo text = .null := by
      simpa [valueFromCowAndMetadata, parseFromCowAndMetadata] using h
    unfold parseFromCow at h
    cases he : earlyInt text with
    | some i => simp [he] at h
    | none =>
      cases hw : earlyWord (F := F) text with
      | none =>
        simp only [he, hw] at h
        split at h
        · simp at h
        · split at h <;> simp at h
      | some w =>
        simp only [he, hw] at h
        subst h
        unfold earlyWord at hw
        simp only at hw
        repeat' split at hw
        all_goals try simp at hw
        · simp [*]
        · rename_i h; obtain ⟨-, rfl | rfl | rfl⟩ := h <;> simp
  · intro h
    simp at h
    rcases h with rfl | rfl | rfl | rfl <;> rfl

/-! ## C41 -/

/-- **C41** A plain untagged scalar loads as a truth value exactly for the six spellings of the core schema. -/
theorem C41_bool_exact {F} (fo : FloatOps F) (text : List Byte) (b : Bool) :
    valueFromCowAndMetadata fo text .plain none = .scalar (.bool b) ↔
      text ∈ (if b then [bs!"true", bs!"True", bs!"TRUE"] else [bs!"false", bs!"False", bs!"FALSE"]) := by
  constructor
  · intro h
    have h : parseFromCow fo text = .bool b := by
      simpa [valueFromCowAndMetadata, parseFromCowAndMetadata] using h
    unfold parseFromCow at h
    cases he : earlyInt text with
    | some i => simp [he] at h
    | none =>
      cases hw : earlyWord (F := F) text with
      | none =>
        simp only [he, hw] at h
        split at h
        · simp at h
        · split at h <;> simp at h
      | some w =>
        simp only [he, hw] at h
        subst h
        unfold earlyWord at hw
        simp only at hw
        repeat' split at hw
        all_goals try (simp at hw; done)
        · simp only [Option.some.injEq, Scalar.bool.injEq] at hw
          rename_i h; obtain ⟨-, rfl | rfl | rfl⟩ := h <;> simp [← hw]
        · simp only [Option.some.injEq, Scalar.bool.injEq] at hw
          rename_i h; rcases h with rfl | rfl | rfl <;> simp [← hw]
  · intro h
    cases b <;> simp at h <;> rcases h with rfl | rfl | rfl <;> rfl

example : valueFromCowAndMetadata noFloats bs!"TRUE" .plain none = .scalar (.bool true) := rfl

/-- the infinities and not-a-number of the core schema (section 10.3.2), with what they denote -/
def SpecialFloat {F} (fo : FloatOps F) (text : List Byte) (f : F) : Prop :=
  (text ∈ [bs!".inf", bs!".Inf", bs!".INF", bs!"+.inf", bs!"+.Inf", bs!"+.INF"] ∧ f = fo.inf) ∨
  (text ∈ [bs!"-.inf", bs!"-.Inf", bs!"-.INF"] ∧ f = fo.ninf) ∨
  (text ∈ [bs!".nan", bs!".NaN", bs!".NAN"] ∧ f = fo.nan)

/-- **C41** A plain untagged scalar loads as the float `f` exactly if it is no integer and is one of the special spellings,
or contains a digit and the float parser reads it as `f`. -/
theorem C41_float_exact {F} (fo : FloatOps F) (text : List Byte) (f : F) :
    valueFromCowAndMetadata fo text .plain none = .scalar (.float f) ↔
      (∀ i, ¬((CoreInt text i ∨ SignedTwice text i) ∧ Fits64 i)) ∧
      (SpecialFloat fo text f ∨
        ((∀ g, ¬ SpecialFloat fo text g) ∧ (∃ c ∈ text, b%'0' ≤ c ∧ c ≤ b%'9') ∧ fo.parse text = some f)) := by
  have hval : valueFromCowAndMetadata fo text .plain none = .scalar (.float f) ↔ parseFromCow fo text = .float f := by
    simp [valueFromCowAndMetadata, parseFromCowAndMetadata]
  have hint : (∀ i, ¬((CoreInt text i ∨ SignedTwice text i) ∧ Fits64 i)) ↔ ∀ i, parseFromCow fo text ≠ .int i := by
    simp only [← parseFromCow_int_iff fo, ne_eq]
  have hfp : parseCoreSchemaFp fo text = some f ↔ (SpecialFloat fo text f ∨
        ((∀ g, ¬ SpecialFloat fo text g) ∧ (∃ c ∈ text, b%'0' ≤ c ∧ c ≤ b%'9') ∧ fo.parse text = some f)) := by
    unfold parseCoreSchemaFp
    split
    · rename_i h
      have hs : SpecialFloat fo text fo.inf := .inl ⟨by simpa using h, rfl⟩
      constructor
      · intro h1; simp at h1; subst h1; exact .inl hs
      · rintro (h1 | ⟨h1, _⟩)
        · rcases h1 with ⟨_, h1⟩ | ⟨h1, _⟩ | ⟨h1, _⟩
          · rw [h1]
          · exfalso; simp at h1; rcases h1 with rfl | rfl | rfl <;> simp at h
          · exfalso; simp at h1; rcases h1 with rfl | rfl | rfl <;> simp at h
        · exact absurd hs (h1 _)
    · rename_i hn1
      split
      · rename_i h
        have hs : SpecialFloat fo text fo.ninf := .inr (.inl ⟨by simpa using h, rfl⟩)
        constructor
        · intro h1; simp at h1; subst h1; exact .inl hs
        · rintro (h1 | ⟨h1, _⟩)
          · rcases h1 with ⟨h1, _⟩ | ⟨_, h1⟩ | ⟨h1, _⟩
            · exfalso; exact hn1 (by simpa using h1)
            · rw [h1]
            · exfalso; simp at h1; rcases h1 with rfl | rfl | rfl <;> simp at h
          · exact absurd hs (h1 _)
      · rename_i hn2
        split
        · rename_i h
          have hs : SpecialFloat fo text fo.nan := .inr (.inr ⟨by simpa using h, rfl⟩)
          constructor
          · intro h1; simp at h1; subst h1; exact .inl hs
          · rintro (h1 | ⟨h1, _⟩)
            · rcases h1 with ⟨h1, _⟩ | ⟨h1, _⟩ | ⟨_, h1⟩
              · exfalso; exact hn1 (by simpa using h1)
              · exfalso; exact hn2 (by simpa using h1)
              · rw [h1]
            · exact absurd hs (h1 _)
        · rename_i hn3
          have hnone : ∀ g, ¬ SpecialFloat fo text g := by
            rintro g (⟨h, _⟩ | ⟨h, _⟩ | ⟨h, _⟩)
            · exact hn1 (by simpa using h)
            · exact hn2 (by simpa using h)
            · exact hn3 (by simpa using h)
          have hdig : text.any CharUtils.isAsciiDigit = true ↔ ∃ c ∈ text, b%'0' ≤ c ∧ c ≤ b%'9' := by
            simp [CharUtils.isAsciiDigit]
          by_cases hd : text.any CharUtils.isAsciiDigit = true
          · rw [if_pos hd]
            exact ⟨fun h => .inr ⟨hnone, hdig.1 hd, h⟩, fun h => h.elim (fun h => absurd h (hnone _)) (fun h => h.2.2)⟩
          · rw [if_neg hd]
            constructor
            · simp
            · rintro (h | ⟨_, h, _⟩)
              · exact absurd h (hnone _)
              · exact absurd (hdig.2 h) hd
  rw [hval, hint, ← hfp]
  unfold parseFromCow
  cases he : earlyInt text with
  | some i => simp
  | none =>
    cases hw : earlyWord (F := F) text with
    | some w =>
      have : parseCoreSchemaFp fo text = none ∧ ∀ g, w ≠ .float g := by
        unfold earlyWord at hw
        simp only at hw
        repeat' split at hw
        all_goals try (simp at hw; done)
        all_goals simp only [Option.some.injEq] at hw
        · rename_i h; subst h hw; exact ⟨rfl, by simp⟩
        · rename_i h; obtain ⟨-, rfl | rfl | rfl⟩ := h <;> subst hw <;> exact ⟨rfl, by simp⟩
        · rename_i h; obtain ⟨-, rfl | rfl | rfl⟩ := h <;> subst hw <;> exact ⟨rfl, by simp⟩
        · rename_i h; rcases h with rfl | rfl | rfl <;> subst hw <;> exact ⟨rfl, by simp⟩
      simp [this]
    | none =>
      cases hi : parseI64 text with
      | some i => simp
      | none =>
        cases hp : parseCoreSchemaFp fo text with
        | some g => simp
        | none => simp

/-- a float parser that reads `1.5` as `0` and prints nothing -/
example : valueFromCowAndMetadata (F := Nat) ⟨fun t => if t = bs!"1.5" then some 0 else none, fun _ => [], 1, 2, 3⟩ bs!"1.5" .plain none =
    .scalar (.float 0) := rfl

/-- **C41** A plain untagged scalar that loads as a string loads as its own text; it never loads as a collection, an alias or
a bad value. -/
theorem C41_string_is_text {F} (fo : FloatOps F) (text : List Byte) :
    (∃ x, valueFromCowAndMetadata fo text .plain none = .scalar x) ∧
    ∀ t, valueFromCowAndMetadata fo text .plain none = .scalar (.str t) → t = text := by
  refine ⟨⟨parseFromCow fo text, by simp [valueFromCowAndMetadata, parseFromCowAndMetadata]⟩, ?_⟩
  intro t h
  have h : parseFromCow fo text = .str t := by
    simpa [valueFromCowAndMetadata, parseFromCowAndMetadata] using h
  unfold parseFromCow at h
  cases he : earlyInt text with
  | some i => simp [he] at h
  | none =>
    cases hw : earlyWord (F := F) text with
    | none =>
      simp only [he, hw] at h
      split at h
      · simp at h
      · split at h <;> simp at h
        exact h.symm
    | some w =>
      simp only [he, hw] at h
      subst h
      unfold earlyWord at hw
      simp only at hw
      repeat' split at hw
      all_goals simp at hw

end Verif.Props
