import Verif.Model.Scalar
import Verif.Spec.CoreSchema
namespace Verif.Scalar
open Verif Verif.Spec.Core

theorem toDigit_eq (radix : Nat) (hr : radix ≤ 16) (c : Nat) : toDigit radix c = digit radix c := by
  unfold toDigit digit
  simp only [Char.reduceToNat]
  by_cases h1 : 48 ≤ c ∧ c ≤ 57
  · simp only [if_pos h1, Option.filter]; split <;> simp_all
  · simp only [if_neg h1]
    by_cases h2 : 97 ≤ c ∧ c ≤ 102
    · simp only [if_pos h2, if_pos (show 97 ≤ c ∧ c ≤ 122 by omega), Option.filter]; split <;> simp_all
    · simp only [if_neg h2]
      by_cases h3 : 65 ≤ c ∧ c ≤ 70
      · simp only [if_pos h3, if_pos (show 65 ≤ c ∧ c ≤ 90 by omega), if_neg (show ¬ (97 ≤ c ∧ c ≤ 122) by omega),
          Option.filter]
        split <;> simp_all
      · simp only [if_neg h3, Option.filter]
        by_cases h4 : 97 ≤ c ∧ c ≤ 122
        · simp only [if_pos h4]; rw [if_neg (by omega)]
        · simp only [if_neg h4]
          by_cases h5 : 65 ≤ c ∧ c ≤ 90
          · simp only [if_pos h5]; rw [if_neg (by omega)]
          · simp only [if_neg h5]

/-- `value` started from an accumulator. -/
def valFrom (base : Nat) (acc : Nat) (s : List Nat) : Option Nat :=
  s.foldl (fun acc c => do return (← acc) * base + (← digit base c)) (some acc)

theorem foldl_none (base : Nat) (s : List Nat) :
    s.foldl (fun acc c => do return (← acc) * base + (← digit base c)) none = none := by
  induction s with
  | nil => rfl
  | cons c cs ih => simpa using ih

theorem valFrom_cons (base acc c : Nat) (cs : List Nat) :
    valFrom base acc (c :: cs) = (digit base c).bind fun d => valFrom base (acc * base + d) cs := by
  unfold valFrom
  rw [List.foldl_cons]
  cases h : digit base c with
  | none => simpa using foldl_none base cs
  | some d => rfl

theorem valFrom_ge (base acc : Nat) (hb : 1 ≤ base) (s : List Nat) (v : Nat) (h : valFrom base acc s = some v) :
    acc ≤ v := by
  induction s generalizing acc with
  | nil => simp [valFrom] at h; omega
  | cons c cs ih =>
    rw [valFrom_cons] at h
    cases hd : digit base c with
    | none => simp [hd] at h
    | some d =>
      simp [hd] at h
      have := ih _ h
      have : acc ≤ acc * base := Nat.le_mul_of_pos_right acc hb
      omega

theorem accDigits_pos (base : Nat) (h1 : 1 ≤ base) (hb : base ≤ 16) (s : List Nat) (acc : Nat) (hacc : acc < 2 ^ 63)
    (r : Int) :
    accDigits base true acc s = some r ↔ ∃ v, valFrom base acc s = some v ∧ r = v ∧ v < 2 ^ 63 := by
  induction s generalizing acc with
  | nil =>
    simp only [accDigits, valFrom, List.foldl_nil, Option.some.injEq]
    constructor
    · rintro rfl; exact ⟨acc, rfl, rfl, hacc⟩
    · rintro ⟨v, rfl, rfl, _⟩; rfl
  | cons c cs ih =>
    rw [valFrom_cons, accDigits, toDigit_eq _ hb]
    cases hd : digit base c with
    | none => simp
    | some d =>
      simp only [Option.bind_some, if_true]
      have e : ((acc : Int) * (base : Int) + (d : Int)) = ((acc * base + d : Nat) : Int) := by push_cast; rfl
      have e' : ((acc : Int) * (base : Int)) = ((acc * base : Nat) : Int) := by push_cast; rfl
      by_cases hfit : acc * base + d < 2 ^ 63
      · rw [if_pos, if_pos, e, ih _ hfit]
        · rw [e]; simp only [inI64, Bool.and_eq_true, decide_eq_true_eq]; omega
        · rw [e']; simp only [inI64, Bool.and_eq_true, decide_eq_true_eq]; omega
      · have hnone : ¬ ∃ v, valFrom base (acc * base + d) cs = some v ∧ r = v ∧ v < 2 ^ 63 := by
          rintro ⟨v, hv, -, hlt⟩
          have := valFrom_ge _ _ h1 _ _ hv
          omega
        rw [iff_false_right hnone]
        split
        · rw [if_neg]
          · simp
          · rw [e]; simp only [inI64, Bool.and_eq_true, decide_eq_true_eq]; omega
        · simp

theorem accDigits_neg (base : Nat) (h1 : 1 ≤ base) (hb : base ≤ 16) (s : List Nat) (acc : Nat) (hacc : acc ≤ 2 ^ 63)
    (r : Int) :
    accDigits base false (-(acc : Int)) s = some r ↔
      ∃ v, valFrom base acc s = some v ∧ r = -(v : Int) ∧ v ≤ 2 ^ 63 := by
  induction s generalizing acc with
  | nil =>
    simp only [accDigits, valFrom, List.foldl_nil, Option.some.injEq]
    constructor
    · rintro rfl; exact ⟨acc, rfl, rfl, hacc⟩
    · rintro ⟨v, rfl, rfl, _⟩; rfl
  | cons c cs ih =>
    rw [valFrom_cons, accDigits, toDigit_eq _ hb]
    cases hd : digit base c with
    | none => simp
    | some d =>
      simp only [Option.bind_some]
      have e : (-(acc : Int) * (base : Int) - (d : Int)) = -((acc * base + d : Nat) : Int) := by
        push_cast; rw [Int.neg_mul]; omega
      have e' : (-(acc : Int) * (base : Int)) = -((acc * base : Nat) : Int) := by push_cast; rw [Int.neg_mul]
      simp only [Bool.false_eq_true, if_false]
      by_cases hfit : acc * base + d ≤ 2 ^ 63
      · rw [if_pos, if_pos, e, ih _ hfit]
        · rw [e]; simp only [inI64, Bool.and_eq_true, decide_eq_true_eq]; omega
        · rw [e']; simp only [inI64, Bool.and_eq_true, decide_eq_true_eq]; omega
      · have hnone : ¬ ∃ v, valFrom base (acc * base + d) cs = some v ∧ r = -(v : Int) ∧ v ≤ 2 ^ 63 := by
          rintro ⟨v, hv, -, hlt⟩
          have := valFrom_ge _ _ h1 _ _ hv
          omega
        rw [iff_false_right hnone]
        split
        · rw [if_neg]
          · simp
          · rw [e]; simp only [inI64, Bool.and_eq_true, decide_eq_true_eq]; omega
        · simp

theorem value_eq (base : Nat) (s : List Nat) : value base s = valFrom base 0 s := rfl

theorem digit_sign (base : Nat) : digit base 43 = none ∧ digit base 45 = none := by
  constructor <;> simp [digit]

theorem isNumeral_not_sign {base : Nat} {c : Nat} {cs : List Nat} {v : Nat} (h : IsNumeral base (c :: cs) v) :
    c ≠ 43 ∧ c ≠ 45 := by
  have h2 := h.2
  rw [value_eq, valFrom_cons] at h2
  constructor <;> rintro rfl
  · rw [(digit_sign base).1] at h2; simp at h2
  · rw [(digit_sign base).2] at h2; simp at h2

/-- What Rust's `from_str_radix` accepts. -/
theorem parseI64Radix_iff (base : Nat) (h1 : 1 ≤ base) (hb : base ≤ 16) (s : List Nat) (i : Int) :
    parseI64Radix base s = some i ↔
      ((∃ v : Nat, IsNumeral base s v ∧ i = v) ∨
       (∃ t, ∃ v : Nat, s = 43 :: t ∧ IsNumeral base t v ∧ i = v) ∨
       (∃ t, ∃ v : Nat, s = 45 :: t ∧ IsNumeral base t v ∧ i = -(v : Int))) ∧ Fits64 i := by
  unfold parseI64Radix
  cases s with
  | nil => simp [IsNumeral]
  | cons c rest =>
    have p := accDigits_pos base h1 hb
    have n := accDigits_neg base h1 hb rest 0 (by omega) i
    simp only [Int.natCast_zero, Int.neg_zero] at n
    simp only
    by_cases hc : c = 43
    · subst hc
      have hno : ∀ v, ¬ IsNumeral base (43 :: rest) v := fun v h => (isNumeral_not_sign h).1 rfl
      simp only [if_true, hno, false_and, exists_false, false_or, List.cons.injEq, true_and]
      by_cases hr : rest = []
      · subst hr; simp [IsNumeral]
      · rw [if_neg hr, show (0 : Int) = ((0 : Nat) : Int) from rfl, p rest 0 (by omega) i]
        constructor
        · rintro ⟨v, hv, rfl, hlt⟩
          exact ⟨.inl ⟨rest, v, rfl, ⟨hr, hv⟩, rfl⟩, by constructor <;> omega⟩
        · rintro ⟨⟨t, v, rfl, hv, rfl⟩ | ⟨t, v, h, _⟩, hf⟩
          · exact ⟨v, hv.2, rfl, by have := hf.2; omega⟩
          · exact absurd h.1 (by decide)
    · rw [if_neg hc]
      by_cases hc2 : c = 45
      · subst hc2
        have hno : ∀ v, ¬ IsNumeral base (45 :: rest) v := fun v h => (isNumeral_not_sign h).2 rfl
        simp only [if_true, hno, false_and, exists_false, false_or, List.cons.injEq, true_and]
        by_cases hr : rest = []
        · subst hr; simp [IsNumeral]
        · rw [if_neg hr, n]
          constructor
          · rintro ⟨v, hv, rfl, hlt⟩
            exact ⟨.inr ⟨rest, v, rfl, ⟨hr, hv⟩, rfl⟩, by constructor <;> omega⟩
          · rintro ⟨⟨t, v, h, _⟩ | ⟨t, v, rfl, hv, rfl⟩, hf⟩
            · exact absurd h.1 (by decide)
            · exact ⟨v, hv.2, rfl, by have := hf.1; omega⟩
      · rw [if_neg hc2, show (0 : Int) = ((0 : Nat) : Int) from rfl, p (c :: rest) 0 (by omega) i]
        simp only [List.cons.injEq, hc, hc2, false_and, exists_false, or_false]
        constructor
        · rintro ⟨v, hv, rfl, hlt⟩
          exact ⟨⟨v, ⟨by simp, hv⟩, rfl⟩, by constructor <;> omega⟩
        · rintro ⟨⟨v, hv, rfl⟩, hf⟩
          exact ⟨v, hv.2, rfl, by have := hf.2; omega⟩

theorem parseI64_iff (s : List Nat) (i : Int) :
    parseI64 s = some i ↔
      ((∃ v : Nat, IsNumeral 10 s v ∧ i = v) ∨
       (∃ t, ∃ v : Nat, s = 43 :: t ∧ IsNumeral 10 t v ∧ i = v) ∨
       (∃ t, ∃ v : Nat, s = 45 :: t ∧ IsNumeral 10 t v ∧ i = -(v : Int))) ∧ Fits64 i :=
  parseI64Radix_iff 10 (by decide) (by decide) s i

/-- No word of `earlyWord` is an integer. -/
theorem earlyWord_not_int {F} (s : List Nat) (w : Scalar F) (h : earlyWord s = some w) :
    parseI64 s = none ∧ earlyInt s = none ∧ (w = .null ∨ w = .bool true ∨ w = .bool false) := by
  unfold earlyWord at h
  simp only at h
  repeat' split at h
  all_goals try simp at h
  all_goals
    subst h
  · subst_vars; simp; decide
  · rename_i _ _ h; obtain ⟨-, rfl | rfl | rfl⟩ := h <;> (simp; decide)
  · rename_i _ _ h; obtain ⟨-, rfl | rfl | rfl⟩ := h <;> (simp; decide)
  · rename_i _ _ h; obtain rfl | rfl | rfl := h <;> (simp; decide)


/-- Every integer `parse_from_cow` produces is written in one of the accepted shapes, and all of them are accepted. -/
theorem parseFromCow_int_iff {F} (fo : FloatOps F) (s : List Nat) (i : Int) :
    parseFromCow fo s = .int i ↔ (CoreInt s i ∨ SignedTwice s i) ∧ Fits64 i := by
  constructor
  · intro h
    unfold parseFromCow at h
    cases he : earlyInt s with
    | some j =>
      rw [he] at h
      injection h with h; subst h
      unfold earlyInt at he
      split at he
      · rename_i a b rest
        split at he
        · rename_i hab; obtain ⟨rfl, rfl⟩ := hab
          rw [parseI64Radix_iff 16 (by decide) (by decide)] at he
          refine ⟨?_, he.2⟩
          rcases he.1 with ⟨v, hv, rfl⟩ | ⟨t, v, rfl, hv, rfl⟩ | ⟨t, v, rfl, hv, rfl⟩
          · exact .inl (.hex hv)
          · exact .inr (.hexPlus hv)
          · exact .inr (.hexMinus hv)
        · split at he
          · rename_i hab; obtain ⟨rfl, rfl⟩ := hab
            rw [parseI64Radix_iff 8 (by decide) (by decide)] at he
            refine ⟨?_, he.2⟩
            rcases he.1 with ⟨v, hv, rfl⟩ | ⟨t, v, rfl, hv, rfl⟩ | ⟨t, v, rfl, hv, rfl⟩
            · exact .inl (.oct hv)
            · exact .inr (.octPlus hv)
            · exact .inr (.octMinus hv)
          · split at he
            · rename_i ha; subst ha
              rw [parseI64_iff] at he
              refine ⟨?_, he.2⟩
              rcases he.1 with ⟨v, hv, rfl⟩ | ⟨t, v, ht, hv, rfl⟩ | ⟨t, v, ht, hv, rfl⟩
              · exact .inl (.plus hv)
              · rw [ht]; exact .inr (.plusPlus hv)
              · rw [ht]; exact .inr (.plusMinus hv)
            · simp at he
      · simp at he
    | none =>
      rw [he] at h
      simp only at h
      cases hw : earlyWord (F := F) s with
      | some w =>
        have hww := (earlyWord_not_int s w hw).2.2
        simp only [hw] at h
        subst h
        simp at hww
      | none =>
        simp only [hw] at h
        cases hp : parseI64 s with
        | some j =>
          rw [hp] at h
          injection h with h; subst h
          rw [parseI64_iff] at hp
          refine ⟨.inl ?_, hp.2⟩
          rcases hp.1 with ⟨v, hv, rfl⟩ | ⟨t, v, rfl, hv, rfl⟩ | ⟨t, v, rfl, hv, rfl⟩
          · exact .dec hv
          · exact .plus hv
          · exact .minus hv
        | none =>
          rw [hp] at h
          simp only at h
          split at h <;> simp at h
  · rintro ⟨h, hf⟩
    -- an early integer decides; otherwise the decimal parse does
    have early : ∀ j, earlyInt s = some j → parseFromCow fo s = .int j := by
      intro j hj; simp [parseFromCow, hj]
    have late : earlyInt s = none → parseI64 s = some i → parseFromCow fo s = .int i := by
      intro h1 h2
      cases hw : earlyWord (F := F) s with
      | some w => have := (earlyWord_not_int s w hw).1; simp [h2] at this
      | none => simp [parseFromCow, h1, h2, hw]
    have p10 := fun t => parseI64_iff t i
    have p8 := fun t => parseI64Radix_iff 8 (by decide) (by decide) t i
    have p16 := fun t => parseI64Radix_iff 16 (by decide) (by decide) t i
    rcases h with h | h
    · cases h with
      | dec hv =>
        apply late
        · unfold earlyInt
          split
          · rename_i a b rest
            have hs := isNumeral_not_sign hv
            have h2 := hv.2
            rw [value_eq, valFrom_cons] at h2
            cases hd : digit 10 a with
            | none => simp [hd] at h2
            | some d =>
              simp only [hd, Option.bind_some] at h2
              rw [valFrom_cons] at h2
              rw [if_neg, if_neg, if_neg hs.1]
              · rintro ⟨rfl, rfl⟩; revert h2; simp [digit]
              · rintro ⟨rfl, rfl⟩; revert h2; simp [digit]
          · rfl
        · rw [p10]; exact ⟨.inl ⟨_, hv, rfl⟩, hf⟩
      | @plus t v hv =>
        apply early
        obtain ⟨b, rest, rfl⟩ := List.exists_cons_of_ne_nil hv.1
        simp [earlyInt]
        rw [p10]; exact ⟨.inl ⟨_, hv, rfl⟩, hf⟩
      | @minus t v hv =>
        apply late
        · obtain ⟨b, rest, rfl⟩ := List.exists_cons_of_ne_nil hv.1
          simp [earlyInt]
        · rw [p10]; exact ⟨.inr (.inr ⟨_, _, rfl, hv, rfl⟩), hf⟩
      | @oct t v hv =>
        apply early
        simp [earlyInt]
        rw [p8]; exact ⟨.inl ⟨_, hv, rfl⟩, hf⟩
      | @hex t v hv =>
        apply early
        simp [earlyInt]
        rw [p16]; exact ⟨.inl ⟨_, hv, rfl⟩, hf⟩
    · apply early
      cases h with
      | octPlus hv => simp [earlyInt]; rw [p8]; exact ⟨.inr (.inl ⟨_, _, rfl, hv, rfl⟩), hf⟩
      | octMinus hv => simp [earlyInt]; rw [p8]; exact ⟨.inr (.inr ⟨_, _, rfl, hv, rfl⟩), hf⟩
      | hexPlus hv => simp [earlyInt]; rw [p16]; exact ⟨.inr (.inl ⟨_, _, rfl, hv, rfl⟩), hf⟩
      | hexMinus hv => simp [earlyInt]; rw [p16]; exact ⟨.inr (.inr ⟨_, _, rfl, hv, rfl⟩), hf⟩
      | plusPlus hv => simp [earlyInt]; rw [p10]; exact ⟨.inr (.inl ⟨_, _, rfl, hv, rfl⟩), hf⟩
      | plusMinus hv => simp [earlyInt]; rw [p10]; exact ⟨.inr (.inr ⟨_, _, rfl, hv, rfl⟩), hf⟩

theorem natDigits_ne_nil (fuel n : Nat) (h : n < fuel) : natDigits fuel n ≠ [] := by
  cases fuel with
  | zero => omega
  | succ f => unfold natDigits; split <;> simp

theorem value_append (base : Nat) (s : List Nat) (c : Nat) :
    value base (s ++ [c]) = (value base s).bind fun v => (digit base c).map fun d => v * base + d := by
  unfold value
  rw [List.foldl_append]
  simp only [List.foldl_cons, List.foldl_nil]
  generalize List.foldl _ _ s = r
  cases r <;> simp
  cases digit base c <;> simp

theorem digit_ascii (d : Nat) (h : d < 10) : digit 10 (48 + d) = some d := by
  unfold digit
  simp only [Char.reduceToNat]
  rw [if_pos (by omega)]
  simp [h]

theorem natDigits_value (fuel n : Nat) (h : n < fuel) : value 10 (natDigits fuel n) = some n := by
  induction fuel generalizing n with
  | zero => omega
  | succ f ih =>
    unfold natDigits
    split
    · rename_i hn
      have := digit_ascii n hn
      rw [show ([48 + n] : List Nat) = [] ++ [48 + n] from rfl, value_append, this]
      simp [value]
    · rw [value_append, ih _ (by omega), digit_ascii _ (by omega)]
      simp
      omega

/-- The text written for an integer denotes it. -/
theorem displayI64_coreInt (i : Int) : CoreInt (displayI64 i) i := by
  have hn : IsNumeral 10 (natDigits (i.natAbs + 1) i.natAbs) i.natAbs :=
    ⟨natDigits_ne_nil _ _ (by omega), natDigits_value _ _ (by omega)⟩
  unfold displayI64
  split
  · have := CoreInt.minus hn
    rwa [show (-(i.natAbs : Int)) = i by omega] at this
  · have := CoreInt.dec hn
    rwa [show ((i.natAbs : Int)) = i by omega] at this

end Verif.Scalar
