import Verif.Model.Escaper
namespace Verif.Escaper
open Verif

/-- `S` describes what one round of the loop does at each position. -/
structure Describes (find : Byte → Bool) (mtch : List Byte → Ctl) (S : List Byte → List Byte) : Prop where
  nil : S [] = []
  keep : ∀ c r, find c = false → S (c :: r) = c :: S r
  hit : ∀ c r, find c = true →
    (∃ bytes, mtch (c :: r) = .append 1 bytes ∧ S (c :: r) = bytes ++ S r) ∨
    (∃ n, mtch (c :: r) = .skip n ∧ 1 ≤ n ∧ n ≤ (c :: r).length ∧
      S (c :: r) = (c :: r).take n ++ S ((c :: r).drop n))

theorem describes_prefix {find mtch S} (d : Describes find mtch S) :
    ∀ (l : List Byte) (k : Nat), l.findIdx? find = some k →
      ∃ c r, l = l.take k ++ c :: r ∧ k < l.length ∧ find c = true ∧ S l = l.take k ++ S (c :: r) := by
  intro l
  induction l with
  | nil => intro k h; simp at h
  | cons a l ih =>
    intro k h
    rw [List.findIdx?_cons] at h
    by_cases ha : find a = true
    · simp [ha] at h; subst h
      exact ⟨a, l, by simp, by simp, ha, by simp⟩
    · simp [ha] at h
      obtain ⟨j, hj, rfl⟩ := h
      obtain ⟨c, r, h1, h2, h3, h4⟩ := ih j hj
      refine ⟨c, r, ?_, by simpa using h2, h3, ?_⟩
      · simp; exact h1
      · rw [d.keep a l (by simpa using ha)]; simp; exact h4

theorem describes_none {find mtch S} (d : Describes find mtch S) :
    ∀ l : List Byte, l.findIdx? find = none → S l = l := by
  intro l
  induction l with
  | nil => intro _; exact d.nil
  | cons a l ih =>
    intro h
    rw [List.findIdx?_cons] at h
    by_cases ha : find a = true
    · simp [ha] at h
    · simp [ha] at h
      rw [d.keep a l (by simpa using ha), ih (by simpa using h)]

theorem loop_eq {find mtch S} (d : Describes find mtch S) (raw : List Byte) :
    ∀ (fuel pos old : Nat) (out : List Byte), old ≤ pos → pos ≤ raw.length → raw.length - pos < fuel →
      loop find mtch raw fuel pos old out = some (out ++ (raw.take pos).drop old ++ S (raw.drop pos)) := by
  intro fuel
  induction fuel with
  | zero => intro pos old out _ _ h; omega
  | succ fuel ih =>
    intro pos old out h1 h2 h3
    have split : ∀ p, old ≤ p → p ≤ raw.length → raw.drop old = (raw.take p).drop old ++ raw.drop p := by
      intro p hp hp2
      conv => lhs; rw [← List.take_append_drop p raw]
      rw [List.drop_append_of_le_length (by simp; omega)]
    unfold loop
    rw [if_neg (by omega)]
    cases hf : (raw.drop pos).findIdx? find with
    | none =>
      simp only
      rw [describes_none d _ hf, List.append_assoc, ← split pos h1 h2]
    | some k =>
      simp only
      obtain ⟨c, r, e1, e2, e3, e4⟩ := describes_prefix d _ _ hf
      have hdrop : raw.drop (pos + k) = c :: r := by
        have hk : ((raw.drop pos).take k).length = k := by simp at e2 ⊢; omega
        rw [← List.drop_drop]
        have := congrArg (List.drop k) e1
        rw [List.drop_append_of_le_length (by omega)] at this
        rw [this, List.drop_eq_nil_of_le (by omega)]
        simp
      have hlen : pos + k < raw.length := by simp at e2; omega
      have htake : ∀ m, m ≤ (c :: r).length → (raw.take (pos + k + m)).drop old = (raw.take pos).drop old ++ (raw.drop pos).take k ++ (c :: r).take m := by
        intro m hm
        rw [← hdrop, List.append_assoc, ← List.drop_drop, ← List.take_add, ← List.drop_append_of_le_length (by simp; omega), ← List.take_add, Nat.add_assoc]
      rw [hdrop]
      rcases d.hit c r e3 with ⟨bytes, hm, hS⟩ | ⟨n, hm, hn1, hn2, hS⟩
      · simp only [hm]
        rw [if_neg (by omega), ih _ _ _ (Nat.le_refl _) (by omega) (by omega), e4, hS]
        have hd1 : raw.drop (pos + k + 1) = r := by rw [← List.drop_drop, hdrop]; rfl
        have := htake 0 (by omega)
        simp only [Nat.add_zero, List.take_zero, List.append_nil] at this
        rw [this, hd1]
        simp
      · have hlr : (c :: r).length = raw.length - (pos + k) := by rw [← hdrop]; simp
        simp only [hm]
        rw [show pos + n + k = pos + k + n by omega]
        rw [ih _ _ _ (by omega) (by omega) (by omega), e4, hS, htake n hn2, ← List.drop_drop, hdrop]
        simp

theorem escape_eq {find mtch S} (d : Describes find mtch S) (raw : List Byte) : escape find mtch raw = some (S raw) := by
  unfold escape
  rw [loop_eq d raw _ 0 0 [] (by omega) (by omega) (by omega)]
  simp

end Verif.Escaper
