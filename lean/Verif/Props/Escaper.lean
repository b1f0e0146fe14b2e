import Verif.Lemmas.Escaper
import Verif.Spec.Escape
/-!
# C26: display escaping (`yam-core/src/escaper.rs`)
-/
namespace Verif.Props
open Verif Verif.Escaper Verif.Spec.Escape

/-- **C26** `escape_single_quotes` never panics and replaces byte by byte: CR, TAB, LF and backslash by their escapes, every
other byte (the single quote included) by itself. -/
theorem C26_single_quotes_exact (raw : List Byte) :
    escapeSingleQuotes raw = some (raw.flatMap escapeByte) := by
  refine escape_eq (S := fun raw => raw.flatMap escapeByte) ⟨rfl, ?_, ?_⟩ raw
  · intro c r h
    simp [singleFind] at h
    simp [escapeByte, h]
  · intro c r h
    left
    simp [singleFind] at h
    rcases h with (((rfl | rfl) | rfl) | rfl) <;> exact ⟨_, rfl, rfl⟩

private theorem unescape_escapeByte (c : Byte) (t : List Byte) : unescape (escapeByte c ++ t) = c :: unescape t := by
  unfold escapeByte
  repeat' split
  all_goals try (subst_vars; simp [unescape])
  rename_i h
  cases t with
  | nil => simp [unescape]
  | cons d t => rw [unescape, if_neg h]

/-- **C26** The escaped text of `escape_single_quotes` can be undone, so different inputs have different outputs. -/
theorem C26_single_quotes_lossless (raw out : List Byte) (h : escapeSingleQuotes raw = some out) :
    unescape out = raw := by
  rw [C26_single_quotes_exact] at h
  injection h with h
  subst h
  induction raw with
  | nil => rfl
  | cons c r ih => rw [List.flatMap_cons, unescape_escapeByte, ih]

example : escapeSingleQuotes bs!"a\tb'\\\r\n" = some bs!"a\\tb'\\\\\\r\\n" := rfl

/-- **C26** The escaped text of `escape_single_quotes` has no raw TAB, CR or LF. -/
theorem C26_single_quotes_no_raw_control (raw out : List Byte) (h : escapeSingleQuotes raw = some out) :
    b%'\t' ∉ out ∧ b%'\r' ∉ out ∧ b%'\n' ∉ out := by
  rw [C26_single_quotes_exact] at h
  injection h with h
  subst h
  have key : ∀ c, b%'\t' ∉ escapeByte c ∧ b%'\r' ∉ escapeByte c ∧ b%'\n' ∉ escapeByte c := by
    intro c
    unfold escapeByte
    repeat' split
    all_goals simp_all
    omega
  simp only [List.mem_flatMap, not_exists, not_and]
  exact ⟨fun c _ => (key c).1, fun c _ => (key c).2.1, fun c _ => (key c).2.2⟩

/-- **C26** `escape_plain` never panics and computes the function `Spec.Escape.plain`. -/
theorem C26_plain_exact (raw : List Byte) : escapePlain raw = some (plain raw) := by
  refine escape_eq (S := plain) ⟨rfl, ?_, ?_⟩ raw
  · intro c r h
    simp [plainFind] at h
    obtain ⟨⟨h1, h2⟩, h3⟩ := h
    cases r with
    | nil => simp [plain, escapeByte, h1, h2, h3]
    | cons d r =>
      simp [plain, escapeByte, h1, h2, h3]
      split <;> simp
  · intro c r h
    simp [plainFind] at h
    rcases h with (rfl | rfl) | rfl
    · left; refine ⟨bs!"\\t", rfl, ?_⟩
      cases r <;> simp [plain, escapeByte]
    · cases r with
      | nil => left; exact ⟨bs!"\\\\", rfl, rfl⟩
      | cons d r =>
        by_cases hd : d = b%'t' ∨ d = b%'r'
        · right
          refine ⟨2, ?_, by omega, by simp, ?_⟩
          · simp [plainMatch, hd]
          · simp [plain, hd]
        · left
          refine ⟨bs!"\\\\", ?_, ?_⟩
          · simp at hd; simp [plainMatch, hd]
          · simp at hd; simp [plain, hd, escapeByte]
    · left; refine ⟨bs!"\\n", rfl, ?_⟩
      cases r <;> simp [plain, escapeByte]

/-- **C26, false for `escape_plain`**: a TAB and the two characters `\t` give the same text, and a raw CR is left in the
output. -/
theorem C26_plain_lossless_false :
    (∃ a b : List Byte, a ≠ b ∧ escapePlain a = escapePlain b) ∧
    (∃ a out : List Byte, escapePlain a = some out ∧ b%'\r' ∈ out) :=
  ⟨⟨[b%'\t'], bs!"\\t", by decide, rfl⟩, ⟨[b%'\r'], [b%'\r'], rfl, by decide⟩⟩

/-- **C26 (partial: no backslash in the input)** Without backslashes in the input `escape_plain` can be undone. -/
theorem C26_plain_lossless_partial (raw out : List Byte) (hb : b%'\\' ∉ raw) (h : escapePlain raw = some out) :
    unescape out = raw := by
  rw [C26_plain_exact] at h
  injection h with h
  subst h
  have key : ∀ c t, c ≠ b%'\\' →
      unescape ((if c = '\r'.toNat then [c] else escapeByte c) ++ t) = c :: unescape t := by
    intro c t hc
    split
    · subst_vars
      cases t <;> simp [unescape]
    · exact unescape_escapeByte c t
  induction raw with
  | nil => rfl
  | cons c r ih =>
    have hc : c ≠ b%'\\' := fun e => hb (by simp [e])
    have ih := ih (fun hm => hb (by simp [hm]))
    cases r with
    | nil => have := key c [] hc; simpa [plain, unescape] using this
    | cons d r =>
      rw [plain, if_neg (by rintro ⟨h1, _⟩; exact hc h1), key c _ hc, ih]

example : b%'\\' ∉ bs!"a\tb\r\n" ∧ escapePlain bs!"a\tb\r\n" = some bs!"a\\tb\r\\n" := ⟨by decide, rfl⟩

/-- **C26** `escape_plain` leaves no raw TAB and no raw LF. -/
theorem C26_plain_no_tab_lf (raw out : List Byte) (h : escapePlain raw = some out) : b%'\t' ∉ out ∧ b%'\n' ∉ out := by
  rw [C26_plain_exact] at h
  injection h with h
  subst h
  have key : ∀ c, b%'\t' ∉ (if c = '\r'.toNat then [c] else escapeByte c) ∧
      b%'\n' ∉ (if c = '\r'.toNat then [c] else escapeByte c) := by
    intro c
    unfold escapeByte
    repeat' split
    all_goals simp_all
    omega
  fun_induction plain raw with
  | case1 => simp
  | case2 => simp
  | case3 c hc => have := key c; rwa [if_neg hc] at this
  | case4 d rest c hc ih =>
    obtain ⟨rfl, rfl | rfl⟩ := hc <;> simpa using ih
  | case5 d rest c ih =>
    simp only [List.mem_append, not_or]
    simp_all

end Verif.Props
