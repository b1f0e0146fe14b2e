import Verif.Model.Utf8
/-!
# Facts about the UTF-8 validator
-/
namespace Verif.Utf8
open Verif

theorem run_append (st : St) (a b : List Byte) : run st (a ++ b) = (run st a).bind (run · b) := by
  induction a generalizing st with
  | nil => rfl
  | cons x xs ih =>
    simp only [List.cons_append, run]
    cases step st x with
    | none => rfl
    | some st' => exact ih st'

/-- the states a run from `start` can be in: continuation bounds lie above ASCII -/
def High : St → Prop
  | .start => True
  | .need _ lo _ => 0x80 ≤ lo

theorem step_high {st b st'} (h : High st) (hs : step st b = some st') : High st' := by
  cases st with
  | start =>
    simp only [step] at hs
    repeat' split at hs
    all_goals first | (simp at hs; done) | (simp at hs; subst hs; simp [High])
  | need n lo hi =>
    simp only [step] at hs
    split at hs
    · cases n <;> simp at hs <;> subst hs <;> simp [High]
    · simp at hs

theorem run_high {st w st'} (h : High st) (hs : run st w = some st') : High st' := by
  induction w generalizing st with
  | nil => simp [run] at hs; subst hs; exact h
  | cons b w ih =>
    simp only [run] at hs
    cases hb : step st b with
    | none => simp [hb] at hs
    | some st1 => simp only [hb, Option.bind] at hs; exact ih (step_high h hb) hs

theorem step_ascii {st b st'} (h : High st) (hb : b < 128) (hs : step st b = some st') : st = .start ∧ st' = .start := by
  cases st with
  | start => simp only [step, if_pos (show b < 0x80 from hb)] at hs; simp at hs; simp [hs]
  | need n lo hi =>
    simp only [High] at h
    simp only [step] at hs
    rw [if_neg (by omega)] at hs; simp at hs

theorem step_start_ascii {b} (hb : b < 128) : step .start b = some .start := by simp [step, hb]

/-- a valid text split before an ASCII byte or at the end -/
theorem split_at {w r : List Byte} (h : run .start (w ++ r) = some .start) (hr : ∀ c r', r = c :: r' → c < 128) :
    run .start w = some .start ∧ run .start r = some .start := by
  rw [run_append] at h
  cases hw : run .start w with
  | none => simp [hw] at h
  | some st =>
    simp only [hw, Option.bind] at h
    cases r with
    | nil => simp [run] at h; subst h; exact ⟨rfl, rfl⟩
    | cons c r' =>
      have hc := hr c r' rfl
      have hst : High st := run_high (by simp [High]) hw
      simp only [run] at h
      cases hb : step st c with
      | none => simp [hb] at h
      | some st1 =>
        obtain ⟨rfl, rfl⟩ := step_ascii hst hc hb
        refine ⟨rfl, ?_⟩
        simp only [run, step_start_ascii hc]
        simpa [hb] using h

/-- ASCII bytes may be dropped from the front -/
theorem drop_ascii {w r : List Byte} (h : run .start (w ++ r) = some .start) (hw : ∀ c ∈ w, c < 128) :
    run .start r = some .start := by
  induction w with
  | nil => exact h
  | cons c w ih =>
    simp only [List.cons_append, run, step_start_ascii (hw c (by simp)), Option.bind] at h
    exact ih h (fun d hd => hw d (by simp [hd]))

theorem run_ascii {w : List Byte} (hw : ∀ c ∈ w, c < 128) : run .start w = some .start := by
  induction w with
  | nil => rfl
  | cons c w ih =>
    simp only [run, step_start_ascii (hw c (by simp)), Option.bind]
    exact ih (fun d hd => hw d (by simp [hd]))

theorem valid_iff {w : List Byte} : valid w = true ↔ run .start w = some .start := by simp [valid]

theorem run_cons_of {st b st' bs} (h : step st b = some st') : run st (b :: bs) = run st' bs := by simp [run, h]

theorem step_need {n lo hi b} (h : lo ≤ b ∧ b ≤ hi) :
    step (.need n lo hi) b = some (match n with | 0 => .start | n + 1 => .need n 0x80 0xBF) := by
  cases n <;> simp [step, h]

/-- the encoding of a Unicode scalar value is valid -/
theorem run_encode {v c : Nat} (h : charFromU32 v = some c) : run .start (encode c) = some .start := by
  simp only [charFromU32] at h
  split at h
  · rename_i hv
    simp at h; subst h
    simp only [encode]
    split
    · rename_i h1; exact run_ascii (by simpa using h1)
    split
    · rename_i h1 h2
      have : step .start (0xC0 + v / 64) = some (.need 0 0x80 0xBF) := by
        simp only [step]
        rw [if_neg (by omega), if_neg (by omega), if_pos (by omega)]
      rw [run_cons_of this, run_cons_of (step_need (by omega))]; rfl
    split
    · rename_i h1 h2 h3
      by_cases e0 : v / 4096 = 0
      · have : step .start (0xE0 + v / 4096) = some (.need 1 0xA0 0xBF) := by
          simp only [step]
          rw [if_neg (by omega), if_neg (by omega), if_neg (by omega), if_pos (by omega)]
        rw [run_cons_of this, run_cons_of (step_need (by omega)), run_cons_of (step_need (by omega))]; rfl
      · by_cases ed : v / 4096 = 13
        · have : step .start (0xE0 + v / 4096) = some (.need 1 0x80 0x9F) := by
            simp only [step]
            rw [if_neg (by omega), if_neg (by omega), if_neg (by omega), if_neg (by omega), if_pos (by omega)]
          rw [run_cons_of this, run_cons_of (step_need (by omega)), run_cons_of (step_need (by omega))]; rfl
        · have : step .start (0xE0 + v / 4096) = some (.need 1 0x80 0xBF) := by
            simp only [step]
            rw [if_neg (by omega), if_neg (by omega), if_neg (by omega), if_neg (by omega), if_neg (by omega),
              if_pos (by omega)]
          rw [run_cons_of this, run_cons_of (step_need (by omega)), run_cons_of (step_need (by omega))]; rfl
    · rename_i h1 h2 h3
      by_cases e0 : v / 262144 = 0
      · have : step .start (0xF0 + v / 262144) = some (.need 2 0x90 0xBF) := by
          simp only [step]
          rw [if_neg (by omega), if_neg (by omega), if_neg (by omega), if_neg (by omega), if_neg (by omega),
            if_neg (by omega), if_pos (by omega)]
        rw [run_cons_of this, run_cons_of (step_need (by omega)), run_cons_of (step_need (by omega)),
          run_cons_of (step_need (by omega))]; rfl
      · by_cases ed : v / 262144 = 4
        · have : step .start (0xF0 + v / 262144) = some (.need 2 0x80 0x8F) := by
            simp only [step]
            rw [if_neg (by omega), if_neg (by omega), if_neg (by omega), if_neg (by omega), if_neg (by omega),
              if_neg (by omega), if_neg (by omega), if_neg (by omega), if_pos (by omega)]
          rw [run_cons_of this, run_cons_of (step_need (by omega)), run_cons_of (step_need (by omega)),
            run_cons_of (step_need (by omega))]; rfl
        · have : step .start (0xF0 + v / 262144) = some (.need 2 0x80 0xBF) := by
            simp only [step]
            rw [if_neg (by omega), if_neg (by omega), if_neg (by omega), if_neg (by omega), if_neg (by omega),
              if_neg (by omega), if_neg (by omega), if_pos (by omega)]
          rw [run_cons_of this, run_cons_of (step_need (by omega)), run_cons_of (step_need (by omega)),
            run_cons_of (step_need (by omega))]; rfl
  · simp at h

end Verif.Utf8
