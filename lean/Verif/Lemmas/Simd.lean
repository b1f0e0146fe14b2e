import Verif.Model.Simd
import Verif.Model.CharUtils
/-!
# Bits of the byte-vector masks
-/
namespace Verif.Simd
open Verif Verif.CharUtils

theorem getLsbD_foldl (f : Nat → BitVec 32) (i : Nat) : ∀ (l : List Nat) (a : BitVec 32),
    (l.foldl (fun acc n => acc ||| f n) a).getLsbD i = (a.getLsbD i || l.any fun n => (f n).getLsbD i)
  | [], a => by simp
  | x :: l, a => by
    rw [List.foldl_cons, getLsbD_foldl f i l, BitVec.getLsbD_or, List.any_cons, Bool.or_assoc]

theorem getLsbD_one_shift (n i : Nat) : (1#32 <<< n).getLsbD i = decide (i = n ∧ i < 32) := by
  rw [BitVec.getLsbD_shiftLeft]
  by_cases h : i < 32 <;> by_cases h2 : i = n <;> simp [h, h2]
  omega

theorem any_range_bit (p : Nat → Prop) [DecidablePred p] (lanes i : Nat) (hl : lanes ≤ 32) :
    ((List.range lanes).any fun n => (if p n then 1#32 <<< n else 0#32).getLsbD i) = decide (i < lanes ∧ p i) := by
  rw [Bool.eq_iff_iff]
  simp only [List.any_eq_true, List.mem_range, decide_eq_true_eq]
  constructor
  · intro ⟨n, hn, h⟩
    by_cases hp : p n
    · rw [if_pos hp, getLsbD_one_shift] at h
      simp at h
      obtain ⟨rfl, _⟩ := h
      exact ⟨hn, hp⟩
    · rw [if_neg hp] at h
      simp at h
  · intro ⟨h1, h2⟩
    refine ⟨i, h1, ?_⟩
    rw [if_pos h2, getLsbD_one_shift]
    simp
    omega

theorem compToBitmask_bit (lanes : Nat) (v : List Byte) (c : Byte) (i : Nat) (hl : lanes ≤ 32) :
    (compToBitmask lanes v c).getLsbD i = decide (i < lanes ∧ lane v i = c) := by
  unfold compToBitmask cmpBit
  rw [getLsbD_foldl, any_range_bit _ _ _ hl]
  simp

theorem toBitmask32_bit (v : List Byte) (i : Nat) :
    (toBitmask32 v).getLsbD i = decide (i < 32 ∧ lane v i &&& 0x80 ≠ 0) := by
  unfold toBitmask32 topBit
  rw [getLsbD_foldl, any_range_bit _ _ _ (Nat.le_refl _)]
  simp

theorem lane_map_range (f : Nat → Byte) (lanes i : Nat) (h : i < lanes) : lane ((List.range lanes).map f) i = f i := by
  simp [lane, h]

theorem lane_splat16 (b : Byte) (i : Nat) (h : i < 16) : lane (splat16 b) i = b := by
  simp only [lane, splat16]
  rw [List.getElem?_replicate, if_pos h]
  rfl

/-- the class the tables give to a byte -/
def cls (c : Byte) : Byte :=
  (if c &&& 15 > 15 then 0 else lane lowNibbleWs ((c &&& 15) &&& 15)) &&&
    (if (c >>> 4) &&& 0x7F > 15 then 0 else lane highNibbleWs (((c >>> 4) &&& 0x7F) &&& 15))

theorem lane_classify (v : List Byte) (i : Nat) (h : i < 16) : lane (classify v) i = cls (lane v i) := by
  simp only [classify, and, swizzle, shiftRight, lane_map_range _ 16 i h, lane_splat16 _ i h]
  rfl

theorem length_classify (v : List Byte) : (classify v).length = 16 := by simp [classify, and]

theorem lane_andByte (v : List Byte) (b : Byte) (i : Nat) : lane (andByte v b) i = lane v i &&& b := by
  simp only [lane, andByte, List.getElem?_map]
  cases v[i]? <;> simp

theorem lane_take (v : List Byte) (n i : Nat) (h : i < n) : lane (v.take n) i = lane v i := by
  simp [lane, h]

theorem lane_drop (v : List Byte) (n i : Nat) : lane (v.drop n) i = lane v (n + i) := by simp [lane]

theorem lane_merge (lo hi : List Byte) (i : Nat) (h : i < 32) :
    lane (merge lo hi) i = if i < 16 then lane lo i else lane hi (i - 16) := by
  unfold merge
  by_cases h2 : i < 16
  · rw [if_pos h2]
    have : lane ((List.range 16).map (lane lo) ++ (List.range 16).map (lane hi)) i = lane ((List.range 16).map (lane lo)) i := by
      simp only [lane]
      rw [List.getElem?_append_left (by simp; exact h2)]
    rw [this, lane_map_range _ _ _ h2]
  · rw [if_neg h2]
    have : lane ((List.range 16).map (lane lo) ++ (List.range 16).map (lane hi)) i = lane ((List.range 16).map (lane hi)) (i - 16) := by
      simp only [lane]
      rw [List.getElem?_append_right (by simp; omega)]
      simp
    rw [this, lane_map_range _ _ _ (by omega)]

theorem flagMask_bit (v : List Byte) (flag : Byte) (i : Nat) :
    (flagMask v flag).getLsbD i = decide (i < 32 ∧ cls (lane v i) &&& flag ≠ 0) := by
  unfold flagMask
  simp only [BitVec.getLsbD_not, toBitmask32_bit]
  by_cases h : i < 32
  · have key : lane (comp 32 (merge (andByte (classify (split v).1) flag) (andByte (classify (split v).2) flag)) 0) i =
        if cls (lane v i) &&& flag = 0 then 0xFF else 0 := by
      unfold comp
      rw [lane_map_range _ _ _ h, lane_merge _ _ _ h]
      by_cases h2 : i < 16
      · rw [if_pos h2, lane_andByte, lane_classify _ _ h2]
        simp [split, lane_take _ _ _ h2]
      · rw [if_neg h2, lane_andByte, lane_classify _ _ (by omega)]
        have e : 16 + (i - 16) = i := by omega
        simp [split, lane_drop, e]
    rw [key]
    by_cases h3 : cls (lane v i) &&& flag = 0 <;> simp [h, h3]
  · simp [h]

/-- what the tables say about every byte -/
theorem cls_eq : ∀ c < 256, cls c = if c = 32 then 4 else if c = 9 then 1 else if c = 10 ∨ c = 13 then 2 else 0 := by decide +kernel

theorem cls_break (c : Byte) (h : c < 256) : cls c &&& 2 ≠ 0 ↔ isBreak c = true := by
  rw [cls_eq c h]
  simp only [isBreak, Bool.or_eq_true, beq_iff_eq]
  split
  · simp; omega
  · split
    · simp; omega
    · split
      · simp; omega
      · simp; omega

theorem cls_space (c : Byte) (h : c < 256) : cls c &&& 4 ≠ 0 ↔ c = 32 := by
  rw [cls_eq c h]
  split
  · simp; omega
  · split
    · simp; omega
    · split
      · simp; omega
      · simp; omega

theorem cls_blank (c : Byte) (h : c < 256) : cls c &&& 5 ≠ 0 ↔ c = 32 ∨ c = 9 := by
  rw [cls_eq c h]
  split
  · simp; omega
  · split
    · simp; omega
    · split
      · simp; omega
      · simp; omega

theorem cls_hash (c : Byte) (h : c < 256) : cls c &&& 8 = 0 := by
  rw [cls_eq c h]
  split
  · simp
  · split
    · simp
    · split
      · simp
      · simp

theorem bv_ext (a b : BitVec 32) (h : ∀ i < 32, a.getLsbD i = b.getLsbD i) : a = b :=
  BitVec.eq_of_getLsbD_eq h

theorem bv_ne_zero (a : BitVec 32) : a ≠ 0#32 ↔ ∃ i < 32, a.getLsbD i = true := by
  constructor
  · intro h
    by_cases h2 : ∃ i < 32, a.getLsbD i = true
    · exact h2
    · refine absurd (bv_ext a 0#32 ?_) h
      intro i hi
      have : ¬ a.getLsbD i = true := fun h3 => h2 ⟨i, hi, h3⟩
      simpa using this
  · rintro ⟨i, _, h⟩ rfl
    simp at h

theorem trailingZeros_eq (m : BitVec 32) (i : Nat) (hi : i < 32) (h1 : m.getLsbD i = true) (h2 : ∀ j < i, m.getLsbD j = false) :
    trailingZeros m = i := by
  unfold trailingZeros
  rw [List.findIdx_eq (by simpa using hi)]
  simp only [List.getElem_range]
  exact ⟨h1, h2⟩

/-- if the mask has bit `i` exactly when byte `i` of the block satisfies `p`, its trailing zeros are the bytes before the first one -/
theorem trailingZeros_findIdx (m : BitVec 32) (v : List Byte) (p : Byte → Bool) (hl : v.length = 32)
    (hm : ∀ i, m.getLsbD i = decide (i < 32 ∧ p (lane v i) = true)) (hne : m ≠ 0#32) :
    v.findIdx? p = some (trailingZeros m) ∧ trailingZeros m < 32 := by
  obtain ⟨i, hi, hb⟩ := (bv_ne_zero m).1 hne
  have lanes : ∀ j (hj : j < v.length), lane v j = v[j] := by
    intro j hj
    simp [lane, hj]
  have hex : v.findIdx p < v.length := by
    rw [List.findIdx_lt_length]
    rw [hm] at hb
    simp only [decide_eq_true_eq] at hb
    refine ⟨v[i]'(by omega), List.getElem_mem _, ?_⟩
    rw [← lanes i (by omega)]
    exact hb.2
  have hf : trailingZeros m = v.findIdx p := by
    apply trailingZeros_eq
    · omega
    · rw [hm]
      simp only [decide_eq_true_eq]
      refine ⟨by omega, ?_⟩
      rw [lanes _ hex]
      exact List.findIdx_getElem
    · intro j hj
      rw [hm]
      simp only [decide_eq_false_iff_not, not_and, Bool.not_eq_true]
      intro _
      rw [lanes _ (by omega)]
      exact List.not_of_lt_findIdx hj
  refine ⟨?_, by omega⟩
  rw [hf, List.findIdx?_eq_some_iff_findIdx_eq]
  exact ⟨hex, rfl⟩

theorem mask_zero_findIdx (m : BitVec 32) (v : List Byte) (p : Byte → Bool) (hl : v.length = 32)
    (hm : ∀ i, m.getLsbD i = decide (i < 32 ∧ p (lane v i) = true)) (hz : m = 0#32) : ∀ c ∈ v, p c = false := by
  intro c hc
  obtain ⟨i, hi, rfl⟩ := List.mem_iff_getElem.1 hc
  have h := hm i
  rw [hz] at h
  have hlane : lane v i = v[i] := by simp [lane, hi]
  rw [hlane] at h
  simp at h
  exact h (by omega)

end Verif.Simd
