import Verif.Model.Base64
import Verif.Spec.Base64
namespace Verif.Base64
open Verif

theorem shl32_or {x k y : Nat} (hk : k ≤ 32) (hy : y < 2 ^ k) :
    shl32 x k ||| y = x * 2 ^ k % 2 ^ 32 + y := by
  unfold shl32
  rw [Nat.shiftLeft_eq]
  have h : x * 2 ^ k % 2 ^ 32 = (x % 2 ^ (32 - k)) <<< k := by
    rw [Nat.shiftLeft_eq, ← Nat.mul_mod_mul_right, ← Nat.pow_add, Nat.sub_add_cancel hk]
  rw [h, ← Nat.shiftLeft_add_eq_or_of_lt hy]

theorem letter_eq (x : Nat) : letter x = charset.getD (x % 64) 0 := by
  unfold letter
  rw [show (0x3F : Nat) = 2 ^ 6 - 1 from rfl, Nat.and_two_pow_sub_one_eq_mod]

theorem charset_letterOf : ∀ n < 64, charset.getD n 0 = Spec.Base64.letterOf n := by decide +kernel

theorem letter_letterOf (x n : Nat) (h : x % 64 = n) : letter x = Spec.Base64.letterOf n := by
  rw [letter_eq, h]; exact charset_letterOf n (by omega)

theorem encStep0 (buf a : Nat) (out : List Byte) (ha : a < 256) :
    encStep ⟨buf, 0, out⟩ a = ⟨buf * 256 % 2 ^ 32 + a, 2, out ++ [Spec.Base64.letterOf (a / 4)]⟩ := by
  unfold encStep
  rw [shl32_or (by decide) (by simpa using ha)]
  simp only [encInner]
  simp
  rw [Nat.shiftRight_eq_div_pow]
  apply letter_letterOf; omega

theorem encStep2 (buf a : Nat) (out : List Byte) (ha : a < 256) :
    encStep ⟨buf, 2, out⟩ a =
      ⟨buf * 256 % 2 ^ 32 + a, 4, out ++ [Spec.Base64.letterOf (buf % 4 * 16 + a / 16)]⟩ := by
  unfold encStep
  rw [shl32_or (by decide) (by simpa using ha)]
  simp only [encInner]
  simp
  rw [Nat.shiftRight_eq_div_pow]
  apply letter_letterOf; omega

theorem encStep4 (buf a : Nat) (out : List Byte) (ha : a < 256) :
    encStep ⟨buf, 4, out⟩ a =
      ⟨buf * 256 % 2 ^ 32 + a, 0, out ++ [Spec.Base64.letterOf (buf % 16 * 4 + a / 64),
        Spec.Base64.letterOf (a % 64)]⟩ := by
  unfold encStep
  rw [shl32_or (by decide) (by simpa using ha)]
  simp only [encInner]
  simp
  rw [Nat.shiftRight_eq_div_pow]
  refine ⟨letter_letterOf _ _ (by omega), letter_letterOf _ _ (by omega)⟩

theorem enc_finish2 (buf : Nat) (out : List Byte) (h : out.length % 4 = 1) :
    pad 4 (out ++ [letter (shl32 buf 4)]) =
      out ++ [Spec.Base64.letterOf (buf % 4 * 16), b%'=', b%'='] := by
  have hl : letter (shl32 buf 4) = Spec.Base64.letterOf (buf % 4 * 16) := by
    apply letter_letterOf; unfold shl32; rw [Nat.shiftLeft_eq]; omega
  have h1 : (out.length + 1) % 4 = 2 := by omega
  have h2 : (out.length + 2) % 4 = 3 := by omega
  have h3 : (out.length + 3) % 4 = 0 := by omega
  simp [pad, hl, h1, h2, h3]

theorem enc_finish4 (buf : Nat) (out : List Byte) (h : out.length % 4 = 2) :
    pad 4 (out ++ [letter (shl32 buf 2)]) =
      out ++ [Spec.Base64.letterOf (buf % 16 * 4), b%'='] := by
  have hl : letter (shl32 buf 2) = Spec.Base64.letterOf (buf % 16 * 4) := by
    apply letter_letterOf; unfold shl32; rw [Nat.shiftLeft_eq]; omega
  have h1 : (out.length + 1) % 4 = 3 := by omega
  have h2 : (out.length + 2) % 4 = 0 := by omega
  simp [pad, hl, h1, h2]

/-- The encoder's loop and final step from a state at a group boundary. -/
def encRest (s : St) (input : List Byte) : List Byte :=
  let s := input.foldl encStep s
  if s.bits > 0 then pad 4 (s.output ++ [letter (shl32 s.buffer (6 - s.bits))]) else s.output

theorem encRest_cons (s : St) (a : Byte) (rest : List Byte) :
    encRest s (a :: rest) = encRest (encStep s a) rest := rfl

theorem encRest_eq (input : List Byte) : ∀ (buf : Nat) (out : List Byte), IsBytes input → out.length % 4 = 0 →
    encRest ⟨buf, 0, out⟩ input = out ++ Spec.Base64.encode input := by
  fun_induction Spec.Base64.encode input with
  | case1 => intro buf out _ _; simp [encRest]
  | case2 a =>
    intro buf out h hl
    have ha : a < 256 := h a (by simp)
    have e : (buf * 256 % 2 ^ 32 + a) % 4 = a % 4 := by omega
    simp only [encRest, List.foldl_cons, List.foldl_nil, encStep0 _ _ _ ha]
    rw [if_pos (by decide), show 6 - 2 = 4 from rfl, enc_finish2 _ _ (by simp; omega), e]
    simp
  | case3 a b =>
    intro buf out h hl
    have ha : a < 256 := h a (by simp)
    have hb : b < 256 := h b (by simp)
    simp only [encRest, List.foldl_cons, List.foldl_nil, encStep0 _ _ _ ha, encStep2 _ _ _ hb]
    rw [if_pos (by decide), show 6 - 4 = 2 from rfl, enc_finish4 _ _ (by simp; omega)]
    rw [show (buf * 256 % 2 ^ 32 + a) % 4 = a % 4 by omega]
    rw [show ((buf * 256 % 2 ^ 32 + a) * 256 % 2 ^ 32 + b) % 16 = b % 16 by omega]
    simp
  | case4 a b c rest ih =>
    intro buf out h hl
    have ha : a < 256 := h a (by simp)
    have hb : b < 256 := h b (by simp)
    have hc : c < 256 := h c (by simp)
    have hr : IsBytes rest := fun x hx => h x (by simp [hx])
    rw [encRest_cons, encRest_cons, encRest_cons, encStep0 _ _ _ ha, encStep2 _ _ _ hb, encStep4 _ _ _ hc, ih _ _ hr (by simp; omega)]
    rw [show (buf * 256 % 2 ^ 32 + a) % 4 = a % 4 by omega]
    rw [show ((buf * 256 % 2 ^ 32 + a) * 256 % 2 ^ 32 + b) % 16 = b % 16 by omega]
    simp

theorem encode_eq_spec (input : List Byte) (h : IsBytes input) : encode input = Spec.Base64.encode input := by
  have := encRest_eq input 0 [] h (by simp)
  simpa [encRest, encode] using this

theorem position_letterOf : ∀ n < 64, charset.findIdx? (· == Spec.Base64.letterOf n) = some n := by decide +kernel

theorem letterOf_ne : ∀ n < 64, Spec.Base64.letterOf n ≠ b%'=' ∧ Spec.Base64.letterOf n ≠ b%' ' ∧
    Spec.Base64.letterOf n ≠ b%'\n' ∧ Spec.Base64.letterOf n ≠ b%'\r' := by decide +kernel

theorem decLoop_letter (s : St) (n : Nat) (rest : List Byte) (h : n < 64) :
    decLoop s (Spec.Base64.letterOf n :: rest) =
      decLoop (if s.bits + 6 ≥ 8 then
          ⟨s.buffer * 64 % 2 ^ 32 + n, s.bits + 6 - 8,
            s.output ++ [(s.buffer * 64 % 2 ^ 32 + n) / 2 ^ (s.bits + 6 - 8) % 256]⟩
        else ⟨s.buffer * 64 % 2 ^ 32 + n, s.bits + 6, s.output⟩) rest := by
  obtain ⟨h1, h2, h3, h4⟩ := letterOf_ne n h
  rw [decLoop, if_neg h1]
  congr 1
  unfold decStep
  rw [if_neg (by simp [h2, h3, h4]), position_letterOf n h]
  simp only [shl32_or (k := 6) (by decide) (show n < 2 ^ 6 by simpa using h), Nat.shiftRight_eq_div_pow]

theorem dec_group (input : List Byte) : ∀ (buf : Nat) (out : List Byte), IsBytes input →
    (decLoop ⟨buf, 0, out⟩ (Spec.Base64.encode input)).output = out ++ input := by
  fun_induction Spec.Base64.encode input with
  | case1 => intro buf out _; simp [decLoop]
  | case2 a =>
    intro buf out h
    have ha : a < 256 := h a (by simp)
    rw [decLoop_letter _ _ _ (by omega), decLoop_letter _ _ _ (by omega)]
    simp [decLoop]
    omega
  | case3 a b =>
    intro buf out h
    have ha : a < 256 := h a (by simp)
    have hb : b < 256 := h b (by simp)
    rw [decLoop_letter _ _ _ (by omega), decLoop_letter _ _ _ (by omega), decLoop_letter _ _ _ (by omega)]
    simp [decLoop]
    omega
  | case4 a b c rest ih =>
    intro buf out h
    have ha : a < 256 := h a (by simp)
    have hb : b < 256 := h b (by simp)
    have hc : c < 256 := h c (by simp)
    have hr : IsBytes rest := fun x hx => h x (by simp [hx])
    rw [decLoop_letter _ _ _ (by omega), decLoop_letter _ _ _ (by omega), decLoop_letter _ _ _ (by omega),
      decLoop_letter _ _ _ (by omega)]
    simp only [Nat.zero_add, show ¬ (6 ≥ 8) by omega, if_false, show 6 + 6 ≥ 8 by omega, if_true,
      show 6 + 6 - 8 + 6 ≥ 8 by omega, show 6 + 6 - 8 + 6 - 8 + 6 ≥ 8 by omega]
    rw [ih _ _ hr]
    simp
    omega

/-- Spaces, LF and CR. -/
def isSkipped (b : Byte) : Bool := b == b%' ' || b == b%'\n' || b == b%'\r'

theorem decLoop_filter (xs : List Byte) (s : St) :
    decLoop s (xs.filter (fun b => !isSkipped b)) = decLoop s xs := by
  induction xs generalizing s with
  | nil => rfl
  | cons x xs ih =>
    by_cases hx : isSkipped x = true
    · rw [List.filter_cons_of_neg (by simp [hx]), ih]
      have hx' := hx
      simp [isSkipped] at hx'
      rw [decLoop, if_neg (by rintro rfl; simp at hx'), decStep, if_pos (by omega)]
    · rw [List.filter_cons_of_pos (by simp [hx]), decLoop, decLoop]
      split
      · rfl
      · exact ih _

end Verif.Base64
