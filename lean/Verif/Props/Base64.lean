import Verif.Lemmas.Base64
/-!
# C01: base64 (`yam-serde/src/binary.rs`)
-/
namespace Verif.Props
open Verif Verif.Base64

/-- **C01** Decoding what was encoded gives back the same bytes, for every byte sequence. -/
theorem C01_base64_roundtrip (input : List Byte) (h : IsBytes input) : decode (encode input) = input := by
  rw [encode_eq_spec input h]
  simpa [decode] using dec_group input 0 [] h

example : IsBytes [0, 255, 16, 131] ∧ encode [0, 255, 16, 131] = bs!"AP8Qgw==" := by decide

/-- **C01** The encoder computes RFC 4648 base64 (see `Verif/Spec/Base64.lean`). -/
theorem C01_base64_rfc4648 (input : List Byte) (h : IsBytes input) :
    encode input = Spec.Base64.encode input := encode_eq_spec input h

example : IsBytes bs!"foob" ∧ Spec.Base64.encode bs!"foob" = bs!"Zm9vYg==" := by decide

/-- **C01** The encoded text has length `4 * ceil(n / 3)`. -/
theorem C01_base64_length (input : List Byte) (h : IsBytes input) :
    (encode input).length = 4 * ((input.length + 2) / 3) := by
  rw [encode_eq_spec input h]
  clear h
  fun_induction Spec.Base64.encode input <;> simp_all
  omega

example : IsBytes [1, 2, 3, 4] ∧ (encode [1, 2, 3, 4]).length = 8 := by decide

/-- **C01** The encoded text uses only letters of the alphabet and `=`. -/
theorem C01_base64_alphabet (input : List Byte) (h : IsBytes input) :
    ∀ c ∈ encode input, c = '='.toNat ∨ ∃ n < 64, c = Spec.Base64.letterOf n := by
  rw [encode_eq_spec input h]
  fun_induction Spec.Base64.encode input with
  | case1 => simp
  | case2 a =>
    have ha : a < 256 := h a (by simp)
    intro c hc
    simp at hc
    rcases hc with rfl | rfl | rfl
    · exact .inr ⟨_, by omega, rfl⟩
    · exact .inr ⟨_, by omega, rfl⟩
    · exact .inl (by decide)
  | case3 a b =>
    have ha : a < 256 := h a (by simp)
    have hb : b < 256 := h b (by simp)
    intro c hc
    simp at hc
    rcases hc with rfl | rfl | rfl | rfl
    · exact .inr ⟨_, by omega, rfl⟩
    · exact .inr ⟨_, by omega, rfl⟩
    · exact .inr ⟨_, by omega, rfl⟩
    · exact .inl (by decide)
  | case4 a b c rest ih =>
    have ha : a < 256 := h a (by simp)
    have hb : b < 256 := h b (by simp)
    have hc : c < 256 := h c (by simp)
    intro x hx
    simp only [List.mem_cons] at hx
    rcases hx with rfl | rfl | rfl | rfl | hx
    · exact .inr ⟨_, by omega, rfl⟩
    · exact .inr ⟨_, by omega, rfl⟩
    · exact .inr ⟨_, by omega, rfl⟩
    · exact .inr ⟨_, by omega, rfl⟩
    · exact ih (fun y hy => h y (by simp [hy])) x hx

/-- **C01** Spaces and line breaks inserted anywhere do not change what is decoded: every text that becomes the encoding
of `input` when its spaces, LF and CR are deleted decodes to `input`. -/
theorem C01_base64_blanks_ignored (input text : List Byte) (h : IsBytes input)
    (ht : text.filter (fun b => !(b == b%' ' || b == b%'\n' || b == b%'\r')) = encode input) :
    decode text = input := by
  have := C01_base64_roundtrip input h
  rw [← ht] at this
  rw [← this]
  unfold decode
  exact congrArg _ (decLoop_filter text _).symm

example : IsBytes bs!"foob" ∧
    (bs!"Zm 9v\r\nYg= =").filter (fun b => !(b == b%' ' || b == b%'\n' || b == b%'\r')) = encode bs!"foob" := by
  decide

end Verif.Props
