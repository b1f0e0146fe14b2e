import Verif.Lemmas.Wrapping
import Verif.Lemmas.TypedJson
import Verif.Spec.ReadBack
/-!
# Values that are written and read back
-/
namespace Verif.Props
open Verif Verif.Spec Verif.Scanner Verif.De Verif.ParserIter Verif.Ser
variable {F : Type}

/-- the text is one scalar -/
def OneScalar (text : List Byte) (v : ScalarValue) : Prop := ∃ N, ∀ cfg n, N ≤ cfg.fuel → N ≤ n →
  ∃ s, Delivers (Loader.parserOn cfg n text) (.streamStart :: .documentStart false :: ([.scalar v] ++ .documentEnd :: [.streamEnd])) s

theorem oneScalar_word {w} (h : JWord w) : OneScalar w ⟨w, .plain, 0, none⟩ := by
  have := json_delivers (a := []) (b := []) .nil (jnode_word h) .nil
  simpa [OneScalar] using this

theorem oneScalar_folded {m v} (h : Folded m v) : OneScalar (34 :: (m ++ [34])) ⟨v, .doubleQuote, 0, none⟩ := by
  refine ⟨m.length + 6, fun cfg n hf hn => ?_⟩
  obtain ⟨toks, h3, h4⟩ := scan_folded (cfg := cfg) (N := n) h (q := []) ⟨by simp, _, rfl⟩ (by omega) (by omega)
  have hd : Derives (fun _ => none) (.node .block) [] [.scalar .doubleQuote v] [.scalar ⟨v, .doubleQuote, 0, none⟩] [] := .bare .scalar
  have hdocs : DerivesDocs true [] ([.scalar .doubleQuote v] ++ [.streamEnd]) (.documentStart false :: ([.scalar ⟨v, .doubleQuote, 0, none⟩] ++ [.documentEnd, .streamEnd])) := by
    have := DerivesDocsL.implicit (closed := false) hd .stop
    simpa using this
  obtain ⟨s, hs, -⟩ := Props.C42_complete_partial hdocs toks h4 .ended (afterNext cfg n (Scanner.new (34 :: (m ++ [34])))).mark
  refine ⟨s, ?_⟩
  unfold Loader.parserOn
  rw [h3]
  exact hs

theorem oneScalar_reads {fo : FloatOps F} {ofInt : Int → F} {ty text u} {v : Val F} (hty : HandledTop false ty = true) (h : OneScalar text u)
    (hr : Reads fo ofInt (textReading fo) ty [.scalar u] v) : Deserialises fo ofInt ty text v := by
  obtain ⟨N, hN⟩ := h
  refine ⟨N + 1, fun cfg n fuel h1 h2 h3 => ?_⟩
  obtain ⟨s, hs⟩ := hN cfg n (by omega) (by omega)
  exact C29_lenient_partial fo ofInt ty hty _ _ _ _ false [.scalar u] [.streamEnd] s (.scalar _) hs fuel (by simp; omega) v hr

theorem natDigits_head (fuel n : Nat) (h : n < fuel) (h0 : 0 < n) : (Scalar.natDigits fuel n).head? ≠ some 48 := by
  induction fuel generalizing n with
  | zero => omega
  | succ fuel ih =>
    rw [Scalar.natDigits]
    split
    · simp; omega
    · have := ih (n / 10) (by omega) (by omega)
      have hne := Scalar.natDigits_ne_nil fuel (n / 10) (by omega)
      cases hd : Scalar.natDigits fuel (n / 10) with
      | nil => exact absurd hd hne
      | cons c r => rw [hd] at this; simpa using this

theorem natDigits_int (n : Nat) : Json.IntPart (Scalar.natDigits (n + 1) n) ∧ decimal (Scalar.natDigits (n + 1) n) = n := by
  have hd : Digits (Scalar.natDigits (n + 1) n) := fun b hb => by
    have := Scanner.natDigits_digits (n + 1) n b hb
    exact this
  refine ⟨⟨Scalar.natDigits_ne_nil _ _ (by omega), hd, fun h => ?_⟩, ?_⟩
  · rcases Nat.eq_zero_or_pos n with rfl | h0
    · rfl
    · exact absurd h (natDigits_head _ _ (by omega) h0)
  · have h1 := Scalar.natDigits_value (n + 1) n (by omega)
    rw [value_decimal hd] at h1
    exact Option.some.inj h1

theorem display_integer (i : Int) : Json.Integer (Scalar.displayI64 i) i := by
  obtain ⟨h1, h2⟩ := natDigits_int i.natAbs
  unfold Scalar.displayI64
  split
  · exact ⟨true, _, h1, rfl, by rw [h2]; simp; omega⟩
  · exact ⟨false, _, h1, rfl, by rw [h2]; simp; omega⟩

theorem display_decimal {t : IntTy} {i : Int} (h1 : t.min ≤ i) : DecimalText t.signed (Scalar.displayI64 i) i := by
  obtain ⟨⟨hn, hd, -⟩, h2⟩ := natDigits_int i.natAbs
  have hv : Core.IsNumeral 10 (Scalar.natDigits (i.natAbs + 1) i.natAbs) i.natAbs := ⟨hn, by rw [value_decimal hd, h2]⟩
  unfold Scalar.displayI64
  split
  · rename_i hneg
    have hs : t.signed = true := by cases t <;> first | rfl | (exfalso; simp [IntTy.min] at h1; omega)
    have e : i = -(i.natAbs : Int) := by omega
    have := DecimalText.minus hs hv
    rw [← e] at this
    exact this
  · have e : i = (i.natAbs : Int) := by omega
    have := DecimalText.dec (signed := t.signed) hv
    rw [← e] at this
    exact this

theorem jword_null {w} (h : JWord w) : w ≠ [] := by
  exact h.1

theorem number_null {w} (h : Json.Number w) : w ≠ bs!"null" := by
  obtain ⟨sg, d, r, hs, rfl, hd, -⟩ := number_parts h
  rcases hs with rfl | rfl
  · intro e
    simp at e
    omega
  · intro e
    simp at e

/-- a string is written as a double quoted scalar -/
theorem str_scalar {fo : FloatOps F} {ext : Extern F} {fm s} (h : Faithful fm s (ext.words s)) :
    ∃ text, serialize fo ext fm (.str s) = some text ∧ OneScalar text ⟨s, .doubleQuote, 0, none⟩ := by
  obtain ⟨hw, h1, h2⟩ := h
  have hm : ∃ m, serialize fo ext fm (.str s) = some (34 :: (m ++ [34])) ∧ Folded m s := by
    refine ⟨multiLoop fm 0 (ext.words s) [] 0, ?_, ?_⟩
    · simp [serialize, serializeStr, useComplexForm, writeDoubleQuoteMulti]
    · obtain ⟨hw, hne⟩ := hw
      rcases h2 with h2 | ⟨h2, h3⟩
      · rw [multi_short fm (ext.words s) [] 0 (by simpa using h2), hw]
        simpa using folded_refl h1
      · have hwr := multi_wrapped fm (ext.words s) [] 0 hne (by rw [hw]; simpa using h2) (fun h => (h1 10 (by rw [hw] at h; simpa using h)).2.2.1 rfl)
        rw [hw] at hwr
        exact wrapped_folded (by simpa using hwr) h1 h2 h3
  obtain ⟨m, hm1, hm2⟩ := hm
  exact ⟨_, hm1, oneScalar_folded hm2⟩

/-- a scalar is written as a text with that scalar -/
theorem plain_reads {fo : FloatOps F} {ofInt : Int → F} {ext : Extern F} {fm ty} {v : Val F} (h : Spec.Plain fo ofInt ext fm ty v) :
    ∃ text u, serialize fo ext fm v = some text ∧ OneScalar text u ∧ Reads fo ofInt (textReading fo) ty [.scalar u] v ∧ u.tag = none ∧
      (u.value = [] → v = .str []) ∧ (u.value = bs!"null" → v = .str bs!"null") ∧ HandledTop false ty = true ∧ HandledTop false (.option ty) = true := by
  cases h with
  | @int t i h1 h2 =>
    have hw := number_word (integer_number (display_integer i))
    refine ⟨_, _, rfl, oneScalar_word hw, by rw [Reads]; exact ⟨_, i, rfl, ⟨display_decimal h1, h1, h2⟩, rfl⟩, rfl, fun hx => absurd hx (jword_null hw),
      fun hx => absurd hx (number_null (integer_number (display_integer i))), rfl, rfl⟩
  | @bool b =>
    cases b
    · obtain ⟨hw, -⟩ := word_value (fo := fo) (w := bs!"false") (.inr (.inr (.inl ⟨rfl, rfl⟩)))
      exact ⟨_, _, rfl, oneScalar_word hw, by rw [Reads]; exact ⟨_, resolves_word (.inr (.inr (.inl ⟨rfl, rfl⟩))), rfl⟩, rfl, by simp [serializeBool], by simp [serializeBool], rfl, rfl⟩
    · obtain ⟨hw, -⟩ := word_value (fo := fo) (w := bs!"true") (.inr (.inl ⟨rfl, rfl⟩))
      exact ⟨_, _, rfl, oneScalar_word hw, by rw [Reads]; exact ⟨_, resolves_word (.inr (.inl ⟨rfl, rfl⟩)), rfl⟩, rfl, by simp [serializeBool], by simp [serializeBool], rfl, rfl⟩
  | @float x hn hx =>
    have key : ∀ {y}, Json.Number (fo.display x) → JScalar fo (fo.display x) y → (∀ r, Resolves fo r y → Reads fo ofInt (textReading fo) .float r (.float x)) →
        ∃ text u, serialize fo ext fm (.float x) = some text ∧ OneScalar text u ∧ Reads fo ofInt (textReading fo) .float [.scalar u] (.float x) ∧ u.tag = none ∧
          (u.value = [] → Val.float x = .str []) ∧ (u.value = bs!"null" → Val.float x = .str bs!"null") ∧ HandledTop false .float = true ∧ HandledTop false (.option .float) = true := by
      intro y hN hy hr
      have hw := number_word hN
      refine ⟨fo.display x, ⟨_, .plain, 0, none⟩, by simp [serialize, serializeFloat, hn], oneScalar_word hw, hr _ (resolves_word hy), rfl, fun hx => absurd hx (jword_null hw),
        fun hx => absurd hx (number_null hN), rfl, rfl⟩
    rcases hx with ⟨i, h1, h2, h3⟩ | ⟨h1, h2, h3⟩
    · exact key (integer_number h1) (.inr (.inr (.inr (.inl ⟨_, h1, h2, rfl⟩)))) (fun r hr => by rw [Reads]; exact .inr ⟨i, hr, by rw [h3]⟩)
    · exact key h1 (.inr (.inr (.inr (.inr ⟨_, h1, h2, h3, rfl⟩)))) (fun r hr => by rw [Reads]; exact .inl ⟨x, hr, rfl⟩)
  | @str s h =>
    obtain ⟨text, h1, h2⟩ := str_scalar (fo := fo) h
    exact ⟨_, _, h1, h2, by rw [Reads]; exact ⟨s, resolves_string fo s, rfl⟩, rfl, fun h => by rw [show s = [] from h], fun h => by rw [show s = bs!"null" from h], rfl, rfl⟩

end Verif.Props
