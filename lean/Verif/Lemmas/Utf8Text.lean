import Verif.Lemmas.Utf8
import Verif.Spec.Utf8
/-!
# The validator accepts exactly the UTF-8 texts
-/
namespace Verif.Utf8
open Verif

theorem encode_char (c : Char) : (String.utf8EncodeChar c).map UInt8.toNat = encode c.toNat := by
  have hv := c.valid
  have hb : c.toNat < 0x110000 := by
    simp only [UInt32.isValidChar, Nat.isValidChar] at hv
    simp only [Char.toNat]; omega
  simp only [String.utf8EncodeChar, encode]
  have e : c.val.toNat = c.toNat := rfl
  rw [e]
  generalize c.toNat = v at *
  by_cases h1 : v ≤ 0x7f
  · simp [h1, show v < 0x80 by omega, UInt8.toNat_ofNat']; omega
  by_cases h2 : v ≤ 0x7ff
  · simp [h1, h2, show ¬v < 0x80 by omega, show v < 0x800 by omega, UInt8.toNat_ofNat']; omega
  by_cases h3 : v ≤ 0xffff
  · simp [h1, h2, h3, show ¬v < 0x80 by omega, show ¬v < 0x800 by omega, show v < 0x10000 by omega, UInt8.toNat_ofNat']; omega
  · simp [h1, h2, h3, show ¬v < 0x80 by omega, show ¬v < 0x800 by omega, show ¬v < 0x10000 by omega, UInt8.toNat_ofNat']; omega

theorem utf8_nil : Spec.utf8 [] = [] := rfl

theorem utf8_cons (c : Char) (cs : List Char) : Spec.utf8 (c :: cs) = encode c.toNat ++ Spec.utf8 cs := by
  simp only [Spec.utf8, List.flatMap_cons, List.map_append, encode_char]

theorem charFromU32_char (c : Char) : charFromU32 c.toNat = some c.toNat := by
  have hv := c.valid
  simp only [UInt32.isValidChar, Nat.isValidChar] at hv
  simp only [charFromU32, Char.toNat]
  rw [if_pos (by omega)]

theorem run_utf8 (cs : List Char) : run .start (Spec.utf8 cs) = some .start := by
  induction cs with
  | nil => rfl
  | cons c cs ih => rw [utf8_cons, run_append, run_encode (charFromU32_char c)]; exact ih

/-- a scalar value as a character -/
theorem exists_char {v : Nat} (h : v < 0xD800 ∨ (0xE000 ≤ v ∧ v < 0x110000)) : ∃ c : Char, c.toNat = v := by
  have hv : v.isValidChar := by simp only [Nat.isValidChar]; omega
  refine ⟨Char.ofNat v, ?_⟩
  simp only [Char.ofNat, dif_pos hv, Char.ofNatAux, Char.toNat]
  rfl

theorem run_some_cons {st b bs f} (h : run st (b :: bs) = some f) : ∃ st', step st b = some st' ∧ run st' bs = some f := by
  simp only [run] at h
  cases hs : step st b with
  | none => simp [hs] at h
  | some st' => exact ⟨st', rfl, by simpa [hs] using h⟩

/-- the state with `n` more continuation bytes to come -/
def after : Nat → St
  | 0 => .start
  | n + 1 => .need n 0x80 0xBF

theorem step_need_some {n lo hi b st'} (h : step (.need n lo hi) b = some st') :
    lo ≤ b ∧ b ≤ hi ∧ st' = (after n) := by
  simp only [step] at h
  split at h
  · rename_i hb
    refine ⟨hb.1, hb.2, ?_⟩
    cases n <;> simp at h <;> simp [after, h]
  · simp at h

theorem run_need_cons {n lo hi l f} (h : run (.need n lo hi) l = some f) (hf : f = .start) :
    ∃ b r, l = b :: r ∧ lo ≤ b ∧ b ≤ hi ∧ run (after n) r = some .start := by
  cases l with
  | nil => simp [run] at h; rw [hf] at h; simp at h
  | cons b r =>
    obtain ⟨st', h1, h2⟩ := run_some_cons h
    obtain ⟨g1, g2, g3⟩ := step_need_some h1
    exact ⟨b, r, rfl, g1, g2, by rw [← g3, h2, hf]⟩

/-- a non-empty valid text starts with a character -/
theorem run_uncons {b bs} (h : run .start (b :: bs) = some .start) :
    ∃ (c : Char) (r : List Byte), b :: bs = encode c.toNat ++ r ∧ run .start r = some .start := by
  obtain ⟨st, h1, h2⟩ := run_some_cons h
  have key : ∀ v r, b :: bs = encode v ++ r → run .start r = some .start → (v < 0xD800 ∨ (0xE000 ≤ v ∧ v < 0x110000)) →
      ∃ (c : Char) (r : List Byte), b :: bs = encode c.toNat ++ r ∧ run .start r = some .start := by
    intro v r e hr hv
    obtain ⟨c, hc⟩ := exists_char hv
    exact ⟨c, r, by rw [hc]; exact e, hr⟩
  have two : ∀ lo hi, run (.need 0 lo hi) bs = some .start → 0xC2 ≤ b → b < 0xE0 → 0x80 ≤ lo → hi ≤ 0xBF → 
      ∃ (c : Char) (r : List Byte), b :: bs = encode c.toNat ++ r ∧ run .start r = some .start := by
    intro lo hi h2 g1 g2 g3 g4
    obtain ⟨b1, r, rfl, k1, k2, k3⟩ := run_need_cons h2 rfl
    refine key ((b - 0xC0) * 64 + (b1 - 0x80)) r ?_ k3 (by omega)
    simp only [encode]
    rw [if_neg (by omega), if_pos (by omega)]
    simp only [List.cons_append, List.nil_append, List.cons.injEq, and_true]
    omega
  have three : ∀ lo hi, run (.need 1 lo hi) bs = some .start → 0xE0 ≤ b → b < 0xF0 → 0x80 ≤ lo → hi ≤ 0xBF → 
      (b = 0xE0 → 0xA0 ≤ lo) → (b = 0xED → hi ≤ 0x9F) →
      ∃ (c : Char) (r : List Byte), b :: bs = encode c.toNat ++ r ∧ run .start r = some .start := by
    intro lo hi h2 g1 g2 g3 g4 g5 g6
    obtain ⟨b1, r, rfl, k1, k2, k3⟩ := run_need_cons h2 rfl
    obtain ⟨b2, r, rfl, l1, l2, l3⟩ := run_need_cons k3 rfl
    refine key ((b - 0xE0) * 4096 + (b1 - 0x80) * 64 + (b2 - 0x80)) r ?_ l3 (by omega)
    simp only [encode]
    rw [if_neg (by omega), if_neg (by omega), if_pos (by omega)]
    simp only [List.cons_append, List.nil_append, List.cons.injEq, and_true]
    omega
  have four : ∀ lo hi, run (.need 2 lo hi) bs = some .start → 0xF0 ≤ b → b ≤ 0xF4 → 0x80 ≤ lo → hi ≤ 0xBF → 
      (b = 0xF0 → 0x90 ≤ lo) → (b = 0xF4 → hi ≤ 0x8F) →
      ∃ (c : Char) (r : List Byte), b :: bs = encode c.toNat ++ r ∧ run .start r = some .start := by
    intro lo hi h2 g1 g2 g3 g4 g5 g6
    obtain ⟨b1, r, rfl, k1, k2, k3⟩ := run_need_cons h2 rfl
    obtain ⟨b2, r, rfl, l1, l2, l3⟩ := run_need_cons k3 rfl
    obtain ⟨b3, r, rfl, m1, m2, m3⟩ := run_need_cons l3 rfl
    refine key ((b - 0xF0) * 262144 + (b1 - 0x80) * 4096 + (b2 - 0x80) * 64 + (b3 - 0x80)) r ?_ m3 (by omega)
    simp only [encode]
    rw [if_neg (by omega), if_neg (by omega), if_neg (by omega)]
    simp only [List.cons_append, List.nil_append, List.cons.injEq, and_true]
    omega
  simp only [step] at h1
  by_cases c1 : b < 0x80
  · rw [if_pos c1] at h1; injection h1 with h1; subst h1
    exact key b bs (by simp [encode, c1]) h2 (by omega)
  rw [if_neg c1] at h1
  by_cases c2 : b < 0xC2
  · rw [if_pos c2] at h1; simp at h1
  rw [if_neg c2] at h1
  by_cases c3 : b < 0xE0
  · rw [if_pos c3] at h1; injection h1 with h1; subst h1
    exact two _ _ h2 (by omega) c3 (by omega) (by omega)
  rw [if_neg c3] at h1
  by_cases c4 : b = 0xE0
  · rw [if_pos c4] at h1; injection h1 with h1; subst h1
    exact three _ _ h2 (by omega) (by omega) (by omega) (by omega) (by omega) (by omega)
  rw [if_neg c4] at h1
  by_cases c5 : b = 0xED
  · rw [if_pos c5] at h1; injection h1 with h1; subst h1
    exact three _ _ h2 (by omega) (by omega) (by omega) (by omega) (by omega) (by omega)
  rw [if_neg c5] at h1
  by_cases c6 : b < 0xF0
  · rw [if_pos c6] at h1; injection h1 with h1; subst h1
    exact three _ _ h2 (by omega) (by omega) (by omega) (by omega) (by omega) (by omega)
  rw [if_neg c6] at h1
  by_cases c7 : b = 0xF0
  · rw [if_pos c7] at h1; injection h1 with h1; subst h1
    exact four _ _ h2 (by omega) (by omega) (by omega) (by omega) (by omega) (by omega)
  rw [if_neg c7] at h1
  by_cases c8 : b < 0xF4
  · rw [if_pos c8] at h1; injection h1 with h1; subst h1
    exact four _ _ h2 (by omega) (by omega) (by omega) (by omega) (by omega) (by omega)
  rw [if_neg c8] at h1
  by_cases c9 : b = 0xF4
  · rw [if_pos c9] at h1; injection h1 with h1; subst h1
    exact four _ _ h2 (by omega) (by omega) (by omega) (by omega) (by omega) (by omega)
  · rw [if_neg c9] at h1; simp at h1

theorem run_iff_text (bs : List Byte) : run .start bs = some .start ↔ Spec.Utf8Text bs := by
  constructor
  · intro h
    generalize hn : bs.length = n
    induction n using Nat.strongRecOn generalizing bs with
    | ind n ih =>
      cases bs with
      | nil => exact ⟨[], rfl⟩
      | cons b bs =>
        obtain ⟨c, r, e, hr⟩ := run_uncons h
        have hlen : r.length < n := by
          have : 0 < (encode c.toNat).length := by
            simp only [encode]; split <;> try split <;> try split <;> simp
            all_goals simp
          have he := congrArg List.length e
          simp only [List.length_append] at he
          omega
        obtain ⟨cs, hcs⟩ := ih r.length hlen r hr rfl
        exact ⟨c :: cs, by rw [utf8_cons, ← hcs]; exact e⟩
  · rintro ⟨cs, rfl⟩
    exact run_utf8 cs

end Verif.Utf8
