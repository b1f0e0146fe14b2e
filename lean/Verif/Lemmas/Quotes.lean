import Verif.Lemmas.Scalar
import Verif.Model.Emitter
namespace Verif.Emitter
open Verif Verif.Scalar Verif.Spec.Core

theorem earlyWord_reserved {F} (s : List Nat) (w : Scalar F) (h : earlyWord s = some w) : reservedWords.contains s = true := by
  unfold earlyWord at h
  simp only at h
  repeat' split at h
  all_goals try simp at h
  all_goals subst h
  · subst_vars; decide
  · rename_i _ _ h; obtain ⟨-, rfl | rfl | rfl⟩ := h <;> decide
  · rename_i _ _ h; obtain ⟨-, rfl | rfl | rfl⟩ := h <;> decide
  · rename_i _ _ h; obtain rfl | rfl | rfl := h <;> decide

/-- What `need_quotes = false` says, split up. -/
theorem needQuotes_false {F} {fo : FloatOps F} {s : List Nat} (h : needQuotes fo s = false) :
    s ≠ [] ∧ s.head? ≠ some 32 ∧ s.getLast? ≠ some 32 ∧ (∀ c, s.head? = some c → badFirst c = false) ∧
    s.any badAnywhere = false ∧ reservedWords.contains s = false ∧ s.head? ≠ some 46 ∧
    List.isPrefixOf [48, 120] s = false ∧ parseI64 s = none ∧ fo.parse s = none := by
  unfold needQuotes at h
  simp only [Bool.or_eq_false_iff] at h
  obtain ⟨⟨⟨⟨⟨⟨⟨⟨h1, h2, h3⟩, h4⟩, h5⟩, h6⟩, h7⟩, h8⟩, h9⟩, h10⟩ := h
  refine ⟨by simpa using h1, by simpa using h2, by simpa using h3, ?_, h5, h6, by simpa using h7, h8, ?_, ?_⟩
  · intro c hc; simpa [hc] using h4
  · simpa using h9
  · simpa using h10

/-- The spellings of positive infinity with an explicit sign. -/
def plusInf : List (List Byte) := [bs!"+.inf", bs!"+.Inf", bs!"+.INF"]

theorem parseFromCow_unquoted {F} (fo : FloatOps F) (s : List Nat) (h : needQuotes fo s = false) :
    parseFromCow fo s = .str s ∨ (∃ i, parseFromCow fo s = .int i) ∨ (s ∈ plusInf ∧ parseFromCow fo s = .float fo.inf) := by
  obtain ⟨h1, h2, h3, h4, h5, h6, h7, h8, h9, h10⟩ := needQuotes_false h
  unfold parseFromCow
  cases he : earlyInt s with
  | some i => exact .inr (.inl ⟨i, rfl⟩)
  | none =>
    cases hw : earlyWord (F := F) s with
    | some w => have := earlyWord_reserved s w hw; rw [h6] at this; simp at this
    | none =>
      simp only [h9]
      unfold parseCoreSchemaFp
      by_cases c1 : s ∈ plusInf
      · refine .inr (.inr ⟨c1, ?_⟩)
        simp [plusInf] at c1
        rcases c1 with rfl | rfl | rfl <;> simp
      · left
        simp [plusInf] at c1
        rw [if_neg, if_neg, if_neg]
        · by_cases hd : s.any CharUtils.isAsciiDigit = true
          · simp [hd, h10]
          · simp [hd]
        · rintro (rfl | rfl | rfl) <;> simp at h7
        · have := h4 45
          rintro (rfl | rfl | rfl) <;> simp [badFirst] at this
        · rintro (rfl | rfl | rfl | rfl | rfl | rfl) <;> simp at h7 c1

theorem needQuotes_not_dec {F} {fo : FloatOps F} {s : List Nat} {i : Int} (h : needQuotes fo s = false)
    (hi : parseFromCow fo s = .int i) :
    ((∃ t, ∃ v : Nat, s = bs!"0o" ++ t ∧ IsNumeral 8 t v ∧ i = v) ∨ SignedTwice s i) ∧ Fits64 i := by
  obtain ⟨h1, h2, h3, h4, h5, h6, h7, h8, h9, h10⟩ := needQuotes_false h
  obtain ⟨hs, hf⟩ := (parseFromCow_int_iff fo s i).1 hi
  refine ⟨?_, hf⟩
  rcases hs with hs | hs
  · left
    cases hs with
    | dec hv => have := (parseI64_iff _ _).2 ⟨.inl ⟨_, hv, rfl⟩, hf⟩; exact absurd (h9.symm.trans this) (by simp)
    | plus hv => have := (parseI64_iff _ _).2 ⟨.inr (.inl ⟨_, _, rfl, hv, rfl⟩), hf⟩; exact absurd (h9.symm.trans this) (by simp)
    | minus hv => have := (parseI64_iff _ _).2 ⟨.inr (.inr ⟨_, _, rfl, hv, rfl⟩), hf⟩; exact absurd (h9.symm.trans this) (by simp)
    | @oct t v hv => exact ⟨t, v, rfl, hv, rfl⟩
    | hex hv => simp at h8
  · exact .inr hs

theorem escapeOf_isSome (b : Nat) (h : needsEscape b = true) : (escapeOf b).isSome = true := by
  unfold escapeOf
  simp [needsEscape] at h
  repeat' split
  all_goals first | rfl | omega

/-- `escape_str` never reaches its `unreachable!()`. -/
theorem escapeLoop_isSome (v : List Nat) : (escapeLoop v).isSome = true := by
  induction v with
  | nil => rfl
  | cons b rest ih =>
    unfold escapeLoop
    split
    · rename_i hb
      have := escapeOf_isSome b hb
      obtain ⟨e, he⟩ := Option.isSome_iff_exists.1 this
      obtain ⟨r, hr⟩ := Option.isSome_iff_exists.1 ih
      simp [he, hr]
    · simpa using ih

end Verif.Emitter
