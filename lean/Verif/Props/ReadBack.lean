import Verif.Lemmas.ReadBack
import Verif.Props.Json
/-!
# C63: what `to_pretty_string` writes, `from_str` reads back
-/
namespace Verif.Props
open Verif Verif.Spec Verif.Scanner Verif.De Verif.ParserIter Verif.Ser
variable {F : Type}

/-- C63, the full statement: every value of a type is written, and what is written deserialises to it, for both formatters. -/
def C63_full (fo : FloatOps F) (ofInt : Int → F) (ext : Extern F) : Prop :=
  ∀ fm ty v, fm = Formatter.default ∨ fm = Formatter.pretty → HasType ty v → ∃ text, toPrettyString fo ext fm v = some text ∧ Deserialises fo ofInt ty text v

/-- C63 for all integers, booleans, floats that are shown as numbers, strings that C30 covers, null, and options of these. What is missing: NaN, the infinities
and `-0`, other strings, `Some` of an empty string, of the string `null` and of `()`, null with the default formatter, and collections; the claim is false for
them. -/
theorem C63_read_back_partial {fo : FloatOps F} {ofInt : Int → F} {ext : Extern F} {fm ty} {v : Val F} (h : ReadBack fo ofInt ext fm ty v) :
    ∃ text, toPrettyString fo ext fm v = some text ∧ Deserialises fo ofInt ty text v := by
  obtain ⟨hnull, -⟩ := word_value (fo := fo) (w := bs!"null") (.inl ⟨rfl, rfl⟩)
  cases h with
  | plain h =>
    obtain ⟨text, u, h1, h2, h3, -, -, -, h4, -⟩ := plain_reads h
    exact ⟨text, h1, oneScalar_reads h4 h2 h3⟩
  | unit h => exact ⟨bs!"null", by rw [toPrettyString, serialize, h], oneScalar_reads rfl (oneScalar_word hnull) (by rw [Reads]; exact ⟨_, rfl, .inr (.inl rfl), rfl⟩)⟩
  | none h ht => exact ⟨bs!"null", by rw [toPrettyString, serialize, h], oneScalar_reads ht (oneScalar_word hnull) (by rw [Reads]; exact .inl ⟨_, rfl, .inr (.inl rfl), rfl⟩)⟩
  | some h h0 hn =>
    obtain ⟨text, u, h1, h2, h3, h4, h5, h6, -, h7⟩ := plain_reads h
    refine ⟨text, h1, oneScalar_reads h7 h2 ?_⟩
    rw [Reads]
    refine .inr ⟨fun w hw => ?_, _, h3, rfl⟩
    cases hw
    rintro (h | h | ⟨-, t, h, -⟩)
    · exact h0 (h5 h)
    · exact hn (h6 h)
    · rw [h4] at h; cases h

/-- the smallest `i64` as `Some`, and a string that is wrapped twice at width 5 -/
example (fo : FloatOps F) (ofInt : Int → F) (ext : Extern F) (fm : Formatter) :
    ∃ text, toPrettyString fo ext fm (.some (.int (-9223372036854775808))) = some text ∧ Deserialises fo ofInt (.option (.int .i64)) text (.some (.int (-9223372036854775808))) :=
  C63_read_back_partial (.some (.int (by decide) (by decide)) (by simp) (by simp))

example (fo : FloatOps F) (ofInt : Int → F) : ReadBack fo ofInt ⟨fun _ => false, fun _ => [(bs!"one", 3), (bs!" ", 1), (bs!"two", 3)]⟩ { Formatter.pretty with prefStringLength := 5 } .str
    (.str bs!"one two") := by
  refine .plain (.str ⟨⟨rfl, by simp⟩, by unfold NoSpecials; simp, .inr ⟨?_, ?_⟩⟩)
  · rintro x y (rfl | rfl) (rfl | rfl) <;> decide
  · rintro d c (rfl | rfl) (rfl | rfl) <;> decide

/-- a float that is shown as `1.5`, which parses as that float -/
example (fo : FloatOps F) (ofInt : Int → F) (ext : Extern F) (fm) (x : F) (hd : fo.display x = bs!"1.5") (hp : fo.parse bs!"1.5" = some x) (hn : ext.negativeNan x = false) :
    ReadBack fo ofInt ext fm .float (.float x) := by
  refine .plain (.float hn (.inr ?_))
  rw [hd]
  refine ⟨⟨false, bs!"1", bs!".5", [], ⟨by simp, by simp [Digits], by decide⟩, .inr ⟨bs!"5", rfl, by simp, by simp [Digits]⟩, .inl rfl, rfl⟩, ?_, hp⟩
  rintro i ⟨minus, d, ⟨-, hd, -⟩, e, -⟩
  exfalso
  have : (46 : Nat) ∈ d := by
    cases minus
    · rw [show d = bs!"1.5" from e.symm]; simp
    · simp [Json.sign] at e
  have := hd 46 this
  omega

/-! ## What is false -/

/-- The serialiser panics on every sequence, map, tuple, struct and enum. -/
theorem C63_collections_panic (fo : FloatOps F) (ext : Extern F) (fm : Formatter) (ty : Ty) (v : Val F) (h : HasType ty v)
    (hty : (∃ t, ty = .vec t) ∨ (∃ k t, ty = .map k t) ∨ (∃ ts, ty = .tuple ts) ∨ (∃ d fs, ty = .record d fs) ∨ ∃ vs, ty = .choice vs) :
    toPrettyString fo ext fm v = none := by
  rcases hty with ⟨_, rfl⟩ | ⟨_, _, rfl⟩ | ⟨_, rfl⟩ | ⟨_, _, rfl⟩ | ⟨_, rfl⟩ <;> cases h <;> rfl

/-- `Some` of the string `null` and of the empty string are read as `None`. -/
theorem C63_some_null (fo : FloatOps F) (ofInt : Int → F) (ext : Extern F) (fm : Formatter) (s : List Byte) (hs : s = [] ∨ s = bs!"null") (hw : Faithful fm s (ext.words s)) :
    ∃ text, toPrettyString fo ext fm (.some (.str s)) = some text ∧ Deserialises fo ofInt (.option .str) text .none := by
  obtain ⟨text, h1, h2⟩ := str_scalar (fo := fo) hw
  refine ⟨text, h1, oneScalar_reads rfl h2 ?_⟩
  rw [Reads]
  exact .inl ⟨_, rfl, hs.imp id .inl, rfl⟩

/-- A float that is shown as `-0` is read as the float of the integer 0. -/
theorem C63_negative_zero (fo : FloatOps F) (ofInt : Int → F) (ext : Extern F) (fm : Formatter) (x : F) (hn : ext.negativeNan x = false) (hd : fo.display x = bs!"-0") :
    ∃ text, toPrettyString fo ext fm (.float x) = some text ∧ Deserialises fo ofInt .float text (.float (ofInt 0)) := by
  have hi : Json.Integer bs!"-0" 0 := ⟨true, bs!"0", ⟨by simp, by simp [Digits], by simp⟩, rfl, by decide⟩
  refine ⟨bs!"-0", by simp [toPrettyString, serialize, serializeFloat, hn, hd], oneScalar_reads rfl (oneScalar_word (number_word (integer_number hi))) ?_⟩
  rw [Reads]
  exact .inr ⟨0, resolves_word (.inr (.inr (.inr (.inl ⟨0, hi, by unfold Core.Fits64; decide, rfl⟩)))), rfl⟩

theorem empty_events (d : Bool) : (match skipDoc (fresh (start (Loader.parserOn ⟨10, d⟩ 10 []))) with
    | .ok (none, s) => (match skipDoc s with | .ok (none, _) => true | _ => false)
    | _ => false) = true := by
  revert d
  decide +kernel

/-- With the default formatter, `None` is written as an empty text, which does not deserialise as an optional integer. -/
theorem C63_none_default (fo : FloatOps F) (ofInt : Int → F) (ext : Extern F) (t : IntTy) :
    toPrettyString fo ext .default (.none : Val F) = some [] ∧
      ∀ cfg n fuel, 10 ≤ cfg.fuel → 10 ≤ n → fromStr fo ofInt cfg n fuel (.option (.int t)) [] = .error .custom := by
  refine ⟨rfl, fun cfg n fuel hf hn => ?_⟩
  have h := empty_events cfg.debug
  have hp : Loader.parserOn cfg n [] = Loader.parserOn ⟨10, cfg.debug⟩ 10 [] := by
    refine parserOn_more (cfg := ⟨10, cfg.debug⟩) (cfg' := cfg) (k := 10) ⟨hf, rfl⟩ hn (.inl ?_)
    generalize cfg.debug = d
    revert d
    decide +kernel
  unfold fromStr
  rw [hp]
  generalize start (Loader.parserOn ⟨10, cfg.debug⟩ 10 []) = it at h
  unfold fromIter
  rw [deTy, deTy]
  cases h1 : skipDoc (fresh it) with
  | error e => rw [h1] at h; cases h
  | ok r =>
    obtain ⟨_ | e, s⟩ := r
    · rw [h1] at h
      cases h2 : skipDoc s with
      | error e => simp [h2] at h
      | ok r =>
        obtain ⟨_ | e, s'⟩ := r
        · simp [bind, dbind, pure, dpure, peekNull, deInt, dfail, h1, h2, Except.map]
        · simp [h2] at h
    · rw [h1] at h; cases h

/-- C63 is false: sequences are not written at all; see also `C63_some_null`, `C63_negative_zero` and `C63_none_default`. -/
theorem C63_read_back_false (fo : FloatOps F) (ofInt : Int → F) (ext : Extern F) : ¬ C63_full fo ofInt ext := by
  intro h
  obtain ⟨text, h1, -⟩ := h .pretty (.vec .bool) (.vec []) (.inr rfl) (.vec (by simp))
  cases h1

end Verif.Props
