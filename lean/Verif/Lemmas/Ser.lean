import Verif.Spec.Serialise
import Verif.Model.Ser
import Verif.Lemmas.Utf8Text
/-!
# Lemmas about the serialiser
-/
namespace Verif.Ser
open Verif Verif.Spec

theorem digit_hex (b : Byte) : Core.digit 16 b = if isHex b then some (hexVal b) else none := by
  simp only [Core.digit, isHex, hexVal, Char.toNat]
  simp only [show ('0' : Char).val.toNat = 48 from rfl, show ('9' : Char).val.toNat = 57 from rfl, show ('a' : Char).val.toNat = 97 from rfl,
    show ('f' : Char).val.toNat = 102 from rfl, show ('A' : Char).val.toNat = 65 from rfl, show ('F' : Char).val.toNat = 70 from rfl,
    Bool.or_eq_true, Bool.and_eq_true, decide_eq_true_eq]
  repeat' split
  all_goals first | rfl | omega | (simp [Option.filter]; try omega)

theorem value_hex (ds : List Byte) : Core.value 16 ds = if ds.all isHex then some (ds.foldl (fun acc d => acc * 16 + hexVal d) 0) else none := by
  have none : ∀ ds : List Byte, ds.foldl (fun acc c => do return (← acc) * 16 + (← Core.digit 16 c)) (none : Option Nat) = none := by
    intro ds
    induction ds with
    | nil => rfl
    | cons d ds ih => exact ih
  have key : ∀ (ds : List Byte) a, ds.foldl (fun acc c => do return (← acc) * 16 + (← Core.digit 16 c)) (some a) =
      if ds.all isHex then some (ds.foldl (fun acc d => acc * 16 + hexVal d) a) else Option.none := by
    intro ds
    induction ds with
    | nil => intro a; rfl
    | cons d ds ih =>
      intro a
      simp only [List.foldl_cons, List.all_cons]
      rw [digit_hex]
      by_cases hd : isHex d = true
      · simp only [hd, if_true, Bool.true_and]
        exact ih _
      · simp only [hd, Bool.false_and]
        exact none ds
  exact key ds 0

/-- `decode_hex` on the value of the digits -/
def ofCode (cp : Nat) : List Byte :=
    if cp = 0 then Utf8.encode 0xFFFD
    else if cp = 0x07 then bs!"\\a"
    else if cp = 0x08 then bs!"\\b"
    else if cp = 0x09 then bs!"\\t"
    else if cp = 0x0A then bs!"\\n"
    else if cp = 0x0B then bs!"\\v"
    else if cp = 0x0C then bs!"\\f"
    else if cp = 0x0D then bs!"\\r"
    else if cp = 0x1B then bs!"\\e"
    else if cp = 0x22 then bs!"\\\""
    else if cp = 0x2F then bs!"\\/"
    else if cp = 0x5C then bs!"\\\\"
    else if cp = 0x85 then bs!"\\N"
    else if cp = 0xA0 then bs!"\\_"
    else if cp = 0x2028 then bs!"\\L"
    else if cp = 0x2029 then bs!"\\P"
    else match Utf8.charFromU32 cp with
      | some c => Utf8.encode c
      | none => []

theorem decodeHex_eq (ds : List Byte) : decodeHex ds = match Core.value 16 ds with
    | some v => ofCode v
    | none => Utf8.encode 0xFFFD := by
  rw [value_hex, decodeHex]
  cases ds.all isHex <;> rfl

theorem ofCode_short {c : Char} {e} (h : (c, e) ∈ shortForms) : ofCode c.toNat = [92, e] := by
  simp only [shortForms, List.mem_cons, List.not_mem_nil, or_false, Prod.mk.injEq] at h
  rcases h with ⟨rfl, rfl⟩ | ⟨rfl, rfl⟩ | ⟨rfl, rfl⟩ | ⟨rfl, rfl⟩ | ⟨rfl, rfl⟩ | ⟨rfl, rfl⟩ | ⟨rfl, rfl⟩ | ⟨rfl, rfl⟩ | ⟨rfl, rfl⟩ | ⟨rfl, rfl⟩ |
    ⟨rfl, rfl⟩ | ⟨rfl, rfl⟩ | ⟨rfl, rfl⟩ | ⟨rfl, rfl⟩ | ⟨rfl, rfl⟩ <;> decide

theorem utf8_one (c : Char) : utf8 [c] = Utf8.encode c.toNat := by rw [Utf8.utf8_cons, Utf8.utf8_nil, List.append_nil]

theorem ofCode_other {c : Char} (h0 : c ≠ '\x00') (h : ∀ e, (c, e) ∉ shortForms) : ofCode c.toNat = utf8 [c] := by
  have hn : ∀ d : Char, c ≠ d → c.toNat ≠ d.toNat := fun d hd e => hd (Char.ext (UInt32.toNat_inj.1 e))
  have hm : ∀ d : Char, (∃ e, (d, e) ∈ shortForms) → c.toNat ≠ d.toNat := by
    rintro d ⟨e, he⟩
    refine hn d ?_
    rintro rfl
    exact h e he
  unfold ofCode
  rw [if_neg (show c.toNat ≠ 0 from hn _ h0),
    if_neg (show c.toNat ≠ 7 from hm '\x07' ⟨97, by decide⟩),
    if_neg (show c.toNat ≠ 8 from hm '\x08' ⟨98, by decide⟩),
    if_neg (show c.toNat ≠ 9 from hm '\t' ⟨116, by decide⟩),
    if_neg (show c.toNat ≠ 10 from hm '\n' ⟨110, by decide⟩),
    if_neg (show c.toNat ≠ 11 from hm '\x0b' ⟨118, by decide⟩),
    if_neg (show c.toNat ≠ 12 from hm '\x0c' ⟨102, by decide⟩),
    if_neg (show c.toNat ≠ 13 from hm '\r' ⟨114, by decide⟩),
    if_neg (show c.toNat ≠ 27 from hm '\x1b' ⟨101, by decide⟩),
    if_neg (show c.toNat ≠ 34 from hm '"' ⟨34, by decide⟩),
    if_neg (show c.toNat ≠ 47 from hm '/' ⟨47, by decide⟩),
    if_neg (show c.toNat ≠ 92 from hm '\\' ⟨92, by decide⟩),
    if_neg (show c.toNat ≠ 133 from hm '\u0085' ⟨78, by decide⟩),
    if_neg (show c.toNat ≠ 160 from hm '\u00a0' ⟨95, by decide⟩),
    if_neg (show c.toNat ≠ 8232 from hm '\u2028' ⟨76, by decide⟩),
    if_neg (show c.toNat ≠ 8233 from hm '\u2029' ⟨80, by decide⟩)]
  rw [Utf8.charFromU32_char, utf8_one]

theorem ofCode_nothing {v} (h : ∀ c : Char, c.toNat ≠ v) : ofCode v = [] := by
  have hn : Utf8.charFromU32 v = none := by
    unfold Utf8.charFromU32
    split
    · rename_i hv
      obtain ⟨c, hc⟩ := Utf8.exists_char hv
      exact absurd hc (h c)
    · rfl
  have hs : ∀ d : Char, v ≠ d.toNat := fun d hd => h d hd.symm
  unfold ofCode
  rw [if_neg (show v ≠ 0 from hs '\x00'),
    if_neg (show v ≠ 7 from hs '\x07'),
    if_neg (show v ≠ 8 from hs '\x08'),
    if_neg (show v ≠ 9 from hs '\t'),
    if_neg (show v ≠ 10 from hs '\n'),
    if_neg (show v ≠ 11 from hs '\x0b'),
    if_neg (show v ≠ 12 from hs '\x0c'),
    if_neg (show v ≠ 13 from hs '\r'),
    if_neg (show v ≠ 27 from hs '\x1b'),
    if_neg (show v ≠ 34 from hs '"'),
    if_neg (show v ≠ 47 from hs '/'),
    if_neg (show v ≠ 92 from hs '\\'),
    if_neg (show v ≠ 133 from hs '\u0085'),
    if_neg (show v ≠ 160 from hs '\u00a0'),
    if_neg (show v ≠ 8232 from hs '\u2028'),
    if_neg (show v ≠ 8233 from hs '\u2029'), hn]

/-- `decode_hex` writes what it should -/
theorem hexText_iff {ds o} (hd : ds ≠ []) : HexText ds o ↔ o = decodeHex ds := by
  rw [decodeHex_eq]
  constructor
  · intro h
    cases h with
    | invalid h =>
      cases hv : Core.value 16 ds with
      | none => simp only; rw [utf8_one]; rfl
      | some v =>
        have := h v ⟨hd, hv⟩
        subst this
        simp only; rw [utf8_one]; rfl
    | short h1 h2 => rw [h1.2]; exact (ofCode_short h2).symm
    | char h1 h2 h3 => rw [h1.2]; exact (ofCode_other h2 h3).symm
    | nothing h1 h2 => rw [h1.2]; exact (ofCode_nothing h2).symm
  · rintro rfl
    cases hv : Core.value 16 ds with
    | none =>
      have := HexText.invalid (ds := ds) (fun v h => by rw [h.2] at hv; cases hv)
      rw [utf8_one] at this
      exact this
    | some v =>
      have hn : Core.IsNumeral 16 ds v := ⟨hd, hv⟩
      simp only
      by_cases h0 : v = 0
      · subst h0
        have := HexText.invalid (ds := ds) (fun v h => by rw [h.2] at hv; exact Option.some.inj hv)
        rw [utf8_one] at this
        exact this
      by_cases hc : ∃ c : Char, c.toNat = v
      · obtain ⟨c, rfl⟩ := hc
        by_cases hs : ∃ e, (c, e) ∈ shortForms
        · obtain ⟨e, he⟩ := hs
          rw [ofCode_short he]
          exact .short hn he
        · have h2 : c ≠ '\x00' := by rintro rfl; exact h0 rfl
          have h3 : ∀ e, (c, e) ∉ shortForms := fun e he => hs ⟨e, he⟩
          rw [ofCode_other h2 h3]
          exact .char hn h2 h3
      · have h2 : ∀ c : Char, c.toNat ≠ v := fun c e => hc ⟨c, e⟩
        rw [ofCode_nothing h2]
        exact .nothing hn h2

/-- `escape_double_quotes`, unit by unit -/
def esc : Nat → List Byte → Option (List Byte)
  | _, [] => some []
  | 0, _ => none
  | f + 1, c :: v =>
    let n := v.headD 0
    if c = 92 ∧ (n = 116 ∨ n = 114 ∨ n = 110) then (esc f v.tail).map ([92, n] ++ ·)
    else if c = 9 then (esc f v).map ([92, 116] ++ ·)
    else if c = 13 ∧ n = 10 then (esc f v.tail).map ([92, 110] ++ ·)
    else if c = 10 then (esc f v).map ([92, 110] ++ ·)
    else if c = 92 ∧ n = 120 then if v.length < 3 then none else (esc f (v.drop 3)).map (decodeHex ((v.drop 1).take 2) ++ ·)
    else if c = 92 ∧ n = 117 then if v.length < 5 then none else (esc f (v.drop 5)).map (decodeHex ((v.drop 1).take 4) ++ ·)
    else if c = 92 ∧ n = 85 then if v.length < 7 then none else (esc f (v.drop 7)).map (decodeHex ((v.drop 1).take 6) ++ ·)
    else (esc f v).map (c :: ·)

theorem slice_ok {a b : Nat} {l : List Byte} (h1 : a ≤ b) (h2 : b ≤ l.length) : slice l a b = some ((l.take b).drop a) := by
  simp [slice, h1, h2]

theorem slice_bad {a b : Nat} {l : List Byte} (h2 : l.length < b) : slice l a b = none := by
  simp [slice]; omega

theorem peekz_at {bytes pre : List Byte} {c v} (h : bytes = pre ++ c :: v) :
    peekzByte bytes pre.length = c ∧ peekzByte bytes (pre.length + 1) = v.headD 0 := by
  subst h
  cases v <;> simp [peekzByte]

theorem loop_esc {bytes : List Byte} : ∀ (f : Nat) (pre rest : List Byte) (old : Nat) (out : List Byte),
    bytes = pre ++ rest → old ≤ pre.length → rest.length ≤ f →
    escapeLoop bytes f old pre.length out = (esc f rest).map (fun o => out ++ pre.drop old ++ o) := by
  intro f
  induction f with
  | zero =>
    intro pre rest old out h ho hf
    have : rest = [] := List.length_eq_zero_iff.1 (by omega)
    subst this
    simp at h; subst h
    rw [escapeLoop, if_neg (by simp), slice_ok ho (Nat.le_refl _)]
    simp [esc]
  | succ f ih =>
    intro pre rest old out h ho hf
    cases rest with
    | nil =>
      simp at h; subst h
      rw [escapeLoop, if_neg (by simp), slice_ok ho (Nat.le_refl _)]
      simp [esc]
    | cons c v =>
      have hlen : bytes.length = pre.length + (v.length + 1) := by rw [h]; simp
      rw [escapeLoop, if_pos (by omega)]
      obtain ⟨h0, h1⟩ := peekz_at h
      have hsl : slice bytes old pre.length = some (pre.drop old) := by
        rw [slice_ok ho (by omega), h]; simp
      simp only [List.length_cons] at hf
      -- advancing over the first `k + 1` bytes without a write, and with one
      have skip : ∀ k, k ≤ v.length → escapeLoop bytes f old (pre.length + (k + 1)) out =
          (esc f (v.drop k)).map (fun o => out ++ pre.drop old ++ (c :: v.take k ++ o)) := by
        intro k hk
        have := ih (pre ++ (c :: v.take k)) (v.drop k) old out (by simp [h]) (by simp; omega) (by simp; omega)
        rw [show (pre ++ (c :: v.take k)).length = pre.length + (k + 1) by simp; omega] at this
        rw [this]
        congr 1
        funext o
        rw [List.drop_append_of_le_length ho]
        simp
      have jump : ∀ k w, k ≤ v.length → escapeLoop bytes f (pre.length + (k + 1)) (pre.length + (k + 1)) w =
          (esc f (v.drop k)).map (fun o => w ++ o) := by
        intro k w hk
        have := ih (pre ++ (c :: v.take k)) (v.drop k) (pre.length + (k + 1)) w (by simp [h]) (by simp; omega) (by simp; omega)
        rw [show (pre ++ (c :: v.take k)).length = pre.length + (k + 1) by simp; omega] at this
        rw [this]
        congr 1
        funext o
        rw [List.drop_of_length_le (by simp; omega)]
        simp
      have sl : ∀ k, slice bytes (pre.length + 2) (pre.length + (k + 2)) = if v.length < k + 1 then none else some ((v.drop 1).take k) := by
        intro k
        split
        · exact slice_bad (by omega)
        · rw [slice_ok (by omega) (by omega), h]
          congr 1
          rw [List.drop_take, List.drop_append, List.drop_of_length_le (by omega)]
          simp [Nat.add_sub_add_left]
      have hne : ∀ d, v.headD 0 = d → d ≠ 0 → 1 ≤ v.length := by
        intro d hd hd'; cases v with
        | nil => simp at hd; omega
        | cons => simp
      simp only [escapeStep, h0, h1, hsl, Option.map_some]
      rw [esc]
      by_cases c1 : c = 92 ∧ (v.headD 0 = 116 ∨ v.headD 0 = 114 ∨ v.headD 0 = 110)
      · rw [if_pos c1, if_pos c1]
        have hv : 1 ≤ v.length := by rcases c1.2 with h | h | h <;> exact hne _ h (by decide)
        have := skip 1 hv
        simp only [show pre.length + (1 + 1) = pre.length + 2 from rfl] at this
        dsimp only
        rw [this]
        cases v with
        | nil => simp at hv
        | cons d v => simp [c1.1, Function.comp_def]
      rw [if_neg c1, if_neg c1]
      by_cases c2 : c = 9
      · rw [if_pos c2, if_pos c2]
        dsimp only
        rw [jump 0 _ (by omega)]
        simp [Function.comp_def]
      rw [if_neg c2, if_neg c2]
      by_cases c3 : c = 13 ∧ v.headD 0 = 10
      · rw [if_pos c3, if_pos c3]
        have hv := hne _ c3.2 (by decide)
        dsimp only
        rw [jump 1 _ hv]
        simp [Function.comp_def]
      rw [if_neg c3, if_neg c3]
      by_cases c4 : c = 10
      · rw [if_pos c4, if_pos c4]
        dsimp only
        rw [jump 0 _ (by omega)]
        simp [Function.comp_def]
      rw [if_neg c4, if_neg c4]
      by_cases c5 : c = 92 ∧ v.headD 0 = 120
      · rw [if_pos c5, if_pos c5, sl 2]
        by_cases hv : v.length < 3
        · rw [if_pos hv, if_pos hv]; rfl
        · rw [if_neg hv, if_neg hv]
          simp only [Option.bind_some]
          rw [jump 3 _ (by omega)]
          simp [Function.comp_def]
      rw [if_neg c5, if_neg c5]
      by_cases c6 : c = 92 ∧ v.headD 0 = 117
      · rw [if_pos c6, if_pos c6, sl 4]
        by_cases hv : v.length < 5
        · rw [if_pos hv, if_pos hv]; rfl
        · rw [if_neg hv, if_neg hv]
          simp only [Option.bind_some]
          rw [jump 5 _ (by omega)]
          simp [Function.comp_def]
      rw [if_neg c6, if_neg c6]
      by_cases c7 : c = 92 ∧ v.headD 0 = 85
      · rw [if_pos c7, if_pos c7, sl 6]
        by_cases hv : v.length < 7
        · rw [if_pos hv, if_pos hv]; rfl
        · rw [if_neg hv, if_neg hv]
          simp only [Option.bind_some]
          rw [jump 7 _ (by omega)]
          simp [Function.comp_def]
      rw [if_neg c7, if_neg c7]
      dsimp only
      rw [skip 0 (by omega)]
      simp [Function.comp_def]

theorem escape_eq (v : List Byte) : escapeDoubleQuotes v = esc v.length v := by
  have := loop_esc (bytes := v) v.length [] v 0 [] rfl (Nat.le_refl _) (Nat.le_refl _)
  simpa [escapeDoubleQuotes] using this

theorem esc_sound : ∀ {f v o}, esc f v = some o → Escaped v o := by
  intro f
  induction f with
  | zero =>
    intro v o h
    cases v with
    | nil => simp [esc] at h; subst h; exact .nil
    | cons => simp [esc] at h
  | succ f ih =>
    intro v o h
    cases v with
    | nil => simp [esc] at h; subst h; exact .nil
    | cons c v =>
      rw [esc] at h
      split at h
      · rename_i c1
        obtain ⟨o', h1, rfl⟩ := Option.map_eq_some_iff.1 h
        cases v with
        | nil => simp at c1
        | cons d v =>
          simp only [List.headD_cons] at c1 ⊢
          rw [c1.1]
          exact .kept c1.2 (ih h1)
      rename_i c1
      split at h
      · rename_i c2
        obtain ⟨o', h1, rfl⟩ := Option.map_eq_some_iff.1 h
        subst c2
        exact .tab (ih h1)
      rename_i c2
      split at h
      · rename_i c3
        obtain ⟨o', h1, rfl⟩ := Option.map_eq_some_iff.1 h
        cases v with
        | nil => simp at c3
        | cons d v =>
          simp only [List.headD_cons] at c3
          rw [c3.1, c3.2]
          exact .crlf (ih h1)
      rename_i c3
      split at h
      · rename_i c4
        obtain ⟨o', h1, rfl⟩ := Option.map_eq_some_iff.1 h
        subst c4
        exact .lf (ih h1)
      rename_i c4
      have hex : ∀ k d, c = 92 ∧ v.headD 0 = d → d ≠ 0 → digitsAfter d = some k → ¬ v.length < k + 1 → ∀ {o'}, esc f (v.drop (k + 1)) = some o' →
          Escaped (c :: v) (decodeHex ((v.drop 1).take k) ++ o') := by
        intro k d h1 h0 h2 h3 o' h4
        cases v with
        | nil => simp at h3
        | cons e v =>
          simp only [List.headD_cons] at h1
          obtain ⟨rfl, rfl⟩ := h1
          have hk : 0 < k := by
            unfold digitsAfter at h2
            repeat' split at h2
            all_goals simp at h2
            all_goals omega
          have hd : v.take k ≠ [] := by
            intro he
            have := congrArg List.length he
            rw [List.length_take] at this
            simp only [List.length_cons, List.length_nil] at this h3
            omega
          have := Escaped.hex (ds := v.take k) (v := v.drop k) h2 (by simp at h3 ⊢; omega) ((hexText_iff hd).2 rfl) (ih (by simpa using h4))
          simpa using this
      split at h
      · rename_i c5
        split at h
        · cases h
        · rename_i h3
          obtain ⟨o', h1, rfl⟩ := Option.map_eq_some_iff.1 h
          exact hex 2 120 c5 (by decide) rfl h3 h1
      rename_i c5
      split at h
      · rename_i c6
        split at h
        · cases h
        · rename_i h3
          obtain ⟨o', h1, rfl⟩ := Option.map_eq_some_iff.1 h
          exact hex 4 117 c6 (by decide) rfl h3 h1
      rename_i c6
      split at h
      · rename_i c7
        split at h
        · cases h
        · rename_i h3
          obtain ⟨o', h1, rfl⟩ := Option.map_eq_some_iff.1 h
          exact hex 6 85 c7 (by decide) rfl h3 h1
      rename_i c7
      obtain ⟨o', h1, rfl⟩ := Option.map_eq_some_iff.1 h
      refine .other c2 c4 ?_ ?_ (ih h1)
      · rintro rfl hv
        cases v with
        | nil => simp at hv
        | cons d v => simp at hv; subst hv; exact c3 ⟨rfl, rfl⟩
      · rintro rfl d hv
        cases v with
        | nil => simp at hv
        | cons e v =>
          simp at hv; subst hv
          simp only [List.headD_cons, true_and] at c1 c5 c6 c7
          refine ⟨by omega, by omega, by omega, ?_⟩
          simp [digitsAfter, c5, c6, c7]

theorem esc_complete {v o} (h : Escaped v o) : ∀ {f}, v.length ≤ f → esc f v = some o := by
  induction h with
  | nil => intro f _; cases f <;> rfl
  | kept hc _ ih =>
    intro f hf
    simp only [List.length_cons] at hf
    obtain ⟨f, rfl⟩ : ∃ g, f = g + 1 := ⟨f - 1, by omega⟩
    rw [esc, if_pos (by simpa using hc)]
    simp [ih (f := f) (by omega)]
  | tab _ ih =>
    intro f hf
    simp only [List.length_cons] at hf
    obtain ⟨f, rfl⟩ : ∃ g, f = g + 1 := ⟨f - 1, by omega⟩
    simp [esc, ih (f := f) (by omega)]
  | crlf _ ih =>
    intro f hf
    simp only [List.length_cons] at hf
    obtain ⟨f, rfl⟩ : ∃ g, f = g + 1 := ⟨f - 1, by omega⟩
    simp [esc, ih (f := f) (by omega)]
  | lf _ ih =>
    intro f hf
    simp only [List.length_cons] at hf
    obtain ⟨f, rfl⟩ : ∃ g, f = g + 1 := ⟨f - 1, by omega⟩
    simp [esc, ih (f := f) (by omega)]
  | @hex c n ds d v o h1 h2 hx _ ih =>
    intro f hf
    simp only [List.length_cons, List.length_append] at hf
    obtain ⟨f, rfl⟩ : ∃ g, f = g + 1 := ⟨f - 1, by omega⟩
    have := ih (f := f) (by omega)
    have hd : c = 120 ∧ n = 2 ∨ c = 117 ∧ n = 4 ∨ c = 85 ∧ n = 6 := by
      unfold digitsAfter at h1
      repeat' split at h1
      all_goals simp at h1
      all_goals omega
    have hne : ds ≠ [] := by rintro rfl; simp at h2; omega
    have hx := (hexText_iff hne).1 hx
    subst hx
    rcases hd with ⟨rfl, rfl⟩ | ⟨rfl, rfl⟩ | ⟨rfl, rfl⟩
    all_goals
      simp only [esc, List.headD_cons]
      simp only [List.drop_succ_cons, List.drop_zero, List.length_cons, List.length_append, h2]
      rw [← h2, List.take_left, List.drop_left, this]
      simp
      omega
  | @other c v o h1 h2 h3 h4 _ ih =>
    intro f hf
    simp only [List.length_cons] at hf
    obtain ⟨f, rfl⟩ : ∃ g, f = g + 1 := ⟨f - 1, by omega⟩
    have := ih (f := f) (by omega)
    rw [esc]
    have e3 : ¬ (c = 13 ∧ v.headD 0 = 10) := by
      rintro ⟨rfl, hv⟩
      cases v with
      | nil => simp at hv
      | cons d v => simp at hv; exact h3 rfl (by simp [hv])
    have e4 : c = 92 → v.headD 0 ≠ 116 ∧ v.headD 0 ≠ 114 ∧ v.headD 0 ≠ 110 ∧ v.headD 0 ≠ 120 ∧ v.headD 0 ≠ 117 ∧ v.headD 0 ≠ 85 := by
      intro hc
      cases v with
      | nil => simp
      | cons d v =>
        have := h4 hc d rfl
        simp only [List.headD_cons]
        refine ⟨this.1, this.2.1, this.2.2.1, ?_, ?_, ?_⟩
        all_goals
          rintro rfl
          simp [digitsAfter] at this
    have m1 : ∀ P : Prop, (c = 92 → ¬ P) → ¬ (c = 92 ∧ P) := fun P h x => h x.1 x.2
    rw [if_neg (m1 _ fun hc => by have := e4 hc; omega), if_neg h1, if_neg e3, if_neg h2, if_neg (m1 _ fun hc => (e4 hc).2.2.2.1),
      if_neg (m1 _ fun hc => (e4 hc).2.2.2.2.1), if_neg (m1 _ fun hc => (e4 hc).2.2.2.2.2), this]
    rfl

theorem esc_total : ∀ {f v}, v.length ≤ f → ¬ TruncatedEscape v → ∃ o, esc f v = some o := by
  intro f
  induction f with
  | zero =>
    intro v hf _
    have : v = [] := List.length_eq_zero_iff.1 (by omega)
    subst this; exact ⟨[], rfl⟩
  | succ f ih =>
    intro v hf ht
    cases v with
    | nil => exact ⟨[], rfl⟩
    | cons c v =>
      have sub : ∀ k, ∃ o, esc f (v.drop k) = some o := by
        intro k
        refine ih (by simp at hf ⊢; omega) ?_
        rintro ⟨a, d, n, b, h1, h2, h3⟩
        exact ht ⟨c :: v.take k ++ a, d, n, b, by rw [List.append_assoc, ← h1]; simp, h2, h3⟩
      have trunc : ∀ d k, v.headD 0 = d → d ≠ 0 → c = 92 → digitsAfter d = some k → ¬ v.length < k + 1 := by
        intro d k h1 h0 h2 h3 h4
        cases v with
        | nil => simp at h1; omega
        | cons e v => simp at h1; subst h1; exact ht ⟨[], e, k, v, by simp [h2], h3, by simp at h4; omega⟩
      rw [esc]
      split
      · obtain ⟨o, h⟩ := sub 1
        rw [List.drop_one] at h
        rw [h]; exact ⟨_, rfl⟩
      split
      · obtain ⟨o, h⟩ := sub 0
        simp only [List.drop_zero] at h
        rw [h]; exact ⟨_, rfl⟩
      split
      · obtain ⟨o, h⟩ := sub 1
        rw [List.drop_one] at h
        rw [h]; exact ⟨_, rfl⟩
      split
      · obtain ⟨o, h⟩ := sub 0
        simp only [List.drop_zero] at h
        rw [h]; exact ⟨_, rfl⟩
      split
      · rename_i h5
        rw [if_neg (trunc 120 2 h5.2 (by decide) h5.1 rfl)]
        obtain ⟨o, h⟩ := sub 3
        rw [h]; exact ⟨_, rfl⟩
      split
      · rename_i h5
        rw [if_neg (trunc 117 4 h5.2 (by decide) h5.1 rfl)]
        obtain ⟨o, h⟩ := sub 5
        rw [h]; exact ⟨_, rfl⟩
      split
      · rename_i h5
        rw [if_neg (trunc 85 6 h5.2 (by decide) h5.1 rfl)]
        obtain ⟨o, h⟩ := sub 7
        rw [h]; exact ⟨_, rfl⟩
      obtain ⟨o, h⟩ := sub 0
      simp only [List.drop_zero] at h
      rw [h]; exact ⟨_, rfl⟩

end Verif.Ser
