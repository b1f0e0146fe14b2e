import Verif.Lemmas.ScanTree
import Verif.Lemmas.Quotes
import Verif.Spec.RoundTrip
/-!
# The text of a scalar is read as one token
-/
namespace Verif.Scanner
open Verif Verif.Emitter Verif.Scalar Verif.Spec
variable {F : Type}

theorem mem_takeWhile_imp {p : Byte → Bool} {b : Byte} : ∀ {l : List Byte}, b ∈ l.takeWhile p → p b = true
  | [], h => by simp at h
  | c :: l, h => by
    rw [List.takeWhile_cons] at h
    split at h
    · rcases List.mem_cons.1 h with rfl | h
      · assumption
      · exact mem_takeWhile_imp h
    · simp at h

/-- spaces only between other bytes: words -/
theorem words_of {t : List Byte} (hb : ∀ b ∈ t, b = 32 ∨ WordByte b) : ∀ n, t.length ≤ n → t ≠ [] → t.head? ≠ some 32 → t.getLast? ≠ some 32 → Words t := by
  intro n
  induction n generalizing t with
  | zero => intro h hn; cases t <;> simp at h hn
  | succ n ih =>
    intro hl hn hh hla
    -- the first word
    have hs := List.takeWhile_append_dropWhile (p := fun b => b != 32) (l := t)
    have hw1 : t.takeWhile (fun b => b != 32) ≠ [] := by
      cases t with
      | nil => exact absurd rfl hn
      | cons c r =>
        have : c ≠ 32 := by rintro rfl; simp at hh
        simp [List.takeWhile_cons, this]
    have hw2 : ∀ b ∈ t.takeWhile (fun b => b != 32), WordByte b := by
      intro b hb'
      have h1 := hb b (List.IsPrefix.mem hb' (List.takeWhile_prefix _))
      have h2 := mem_takeWhile_imp hb'
      simp at h2
      exact h1.resolve_left h2
    have hr : ∀ c, (t.dropWhile (fun b => b != 32)).head? = some c → c = 32 := by
      intro c hc
      have := List.head?_dropWhile_not (fun b => b != 32) t
      rw [hc] at this
      simpa using this
    generalize t.takeWhile (fun b => b != 32) = w at hs hw1 hw2
    generalize t.dropWhile (fun b => b != 32) = r at hs hr
    subst hs
    cases r with
    | nil => simpa using Words.one hw1 hw2
    | cons c r =>
      have := hr c rfl
      subst this
      -- the spaces after it
      have hs := List.takeWhile_append_dropWhile (p := fun b => b == 32) (l := r)
      have hsp : r.takeWhile (fun b => b == 32) = List.replicate (r.takeWhile (fun b => b == 32)).length 32 := by
        apply List.eq_replicate_iff.2
        exact ⟨rfl, fun b hb => by simpa using mem_takeWhile_imp hb⟩
      have hr' : ∀ c, (r.dropWhile (fun b => b == 32)).head? = some c → c ≠ 32 := by
        intro c hc
        have := List.head?_dropWhile_not (fun b => b == 32) r
        rw [hc] at this
        simpa using this
      generalize (r.takeWhile (fun b => b == 32)).length = k at hsp
      rw [hsp] at hs
      generalize r.dropWhile (fun b => b == 32) = q at hs hr'
      subst hs
      have hq : q ≠ [] := by
        rintro rfl
        apply hla
        have : (w ++ 32 :: (List.replicate k 32 ++ [])) = w ++ List.replicate (k + 1) 32 := by simp [List.replicate_succ]
        rw [this, List.replicate_succ', ← List.append_assoc]
        simp
      have : Words q := by
        refine ih (fun b hb' => hb b (by simp [hb'])) (by simp at hl; omega) hq (fun h => hr' 32 h rfl) ?_
        intro h
        apply hla
        have : w ++ 32 :: (List.replicate k 32 ++ q) = (w ++ 32 :: List.replicate k 32) ++ q := by simp
        rw [this, List.getLast?_append, h]
        rfl
      have := Words.more (n := k) hw1 hw2 this
      simpa [List.replicate_succ] using this

/-- words without spaces -/
theorem words_one {t : List Byte} (hn : t ≠ []) (hb : ∀ b ∈ t, IsDigit b ∨ b = 46 ∨ b = 45) : Words t := by
  refine .one hn fun b h => ?_
  rcases hb b h with h | h | h <;> simp only [IsDigit, WordByte] at * <;> omega

theorem str_text (fo : FloatOps F) (v : List Byte) : ScalarText (scalarTxt fo (.str v)) (scalarTok fo (.str v)) := by
  rw [scalarTxt, scalarTok]
  by_cases h : needQuotes fo v = true
  · rw [if_pos h, if_pos h]
    obtain ⟨m, hm⟩ := Option.isSome_iff_exists.1 (escapeLoop_isSome v)
    simp only [escapeStr, hm, Option.map_some, Option.getD_some]
    exact .quoted hm
  · rw [if_neg h, if_neg h]
    obtain ⟨h1, h2, h3, h4, h5, -, h7, -, -, -⟩ := needQuotes_false (by simpa using h)
    have hb : ∀ b ∈ v, b = 32 ∨ WordByte b := by
      intro b hb
      have := (List.any_eq_false.1 h5) b hb
      simp [badAnywhere] at this
      simp only [WordByte]
      omega
    refine .plain (words_of hb _ (Nat.le_refl _) h1 h2 h3) ?_
    cases v with
    | nil => exact absurd rfl h1
    | cons c r =>
      have h4 := h4 c rfl
      have h5 := (List.any_eq_false.1 h5) c List.mem_cons_self
      refine ⟨c, r, rfl, ?_, ?_⟩
      · simp [badFirst, badAnywhere] at h4 h5 h7
        simp
        omega
      · rintro rfl; simp [badFirst] at h4

theorem natDigits_digits (fuel n : Nat) : ∀ b ∈ natDigits fuel n, IsDigit b := by
  induction fuel generalizing n with
  | zero => simp [natDigits]
  | succ f ih =>
    intro b hb
    rw [natDigits] at hb
    split at hb
    · simp [IsDigit] at *; omega
    · simp only [List.mem_append, List.mem_singleton] at hb
      rcases hb with hb | hb
      · exact ih _ b hb
      · simp [IsDigit] at *; omega

/-- a number in decimal, with a sign or not -/
theorem number_text {neg : Bool} {d : Byte} {t : List Byte} (hd : IsDigit d) (ht : ∀ b ∈ t, IsDigit b ∨ b = 46) :
    ScalarText ((if neg then [45] else []) ++ d :: t) (.scalar .plain ((if neg then [45] else []) ++ d :: t)) := by
  refine .plain (words_one (by simp) ?_) ?_
  · intro b hb
    simp only [List.mem_append, List.mem_cons] at hb
    rcases hb with hb | rfl | hb
    · cases neg <;> simp at hb; exact .inr (.inr hb)
    · exact .inl hd
    · rcases ht b hb with h | h
      · exact .inl h
      · exact .inr (.inl h)
  · cases neg with
    | false =>
      refine ⟨d, t, rfl, ?_, ?_⟩
      · simp only [IsDigit] at hd; simp; omega
      · rintro rfl; simp [IsDigit] at hd
    | true =>
      refine ⟨45, d :: t, rfl, by simp, fun _ => ⟨d, t, rfl, ?_, ?_⟩⟩
      · simp only [IsDigit] at hd; simp only [WordByte]; omega
      · simp only [IsDigit] at hd; omega

theorem int_text (fo : FloatOps F) (i : Int) : ScalarText (scalarTxt fo (.int i)) (scalarTok fo (.int i)) := by
  rw [scalarTok, scalarTxt, displayI64]
  have h1 := natDigits_digits (i.natAbs + 1) i.natAbs
  have h2 := natDigits_ne_nil (i.natAbs + 1) i.natAbs (by omega)
  generalize natDigits (i.natAbs + 1) i.natAbs = t at h1 h2
  cases t with
  | nil => exact absurd rfl h2
  | cons d t =>
    have := number_text (neg := decide (i < 0)) (h1 d (by simp)) (t := t) (fun b hb => .inl (h1 b (by simp [hb])))
    by_cases h : i < 0 <;> simpa [h] using this
  · nofun

theorem scalar_text {fo : FloatOps F} {ec doc} {x : Scalar F} (h : ScalarBack fo ec doc x) : ScalarText (scalarTxt fo x) (scalarTok fo x) := by
  cases x with
  | str v => exact str_text fo v
  | int i => exact int_text fo i
  | float f =>
    obtain ⟨⟨neg, d, t, ht, hd, hb⟩, -⟩ := h
    rw [scalarTok, scalarTxt, ht]
    · exact number_text hd hb
    · nofun
  | null =>
    rw [scalarTok, scalarTxt]
    · exact .plain (.one (by simp) (by simp [WordByte])) ⟨126, [], rfl, by simp, by simp⟩
    · nofun
  | bool b =>
    rw [scalarTok, scalarTxt]
    · cases b
      · exact .plain (.one (by simp) (by simp [WordByte])) ⟨102, _, rfl, by simp, by simp⟩
      · exact .plain (.one (by simp) (by simp [WordByte])) ⟨116, _, rfl, by simp, by simp⟩
    · nofun

end Verif.Scanner
