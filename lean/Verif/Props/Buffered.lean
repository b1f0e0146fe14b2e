import Verif.Spec.SourceOps
import Verif.Lemmas.Buffered
/-!
# C24, C25, C43: the buffered source and its byte vectors
-/
namespace Verif.Props
open Verif Verif.Spec Verif.CharUtils Verif.Source Verif.Buffered

/-! ### C25: masks -/

/-- C25 in full, for the masks the code computes: the comparison masks of 16 and 32 lanes and the sign masks have bit `i` exactly when
byte `i` satisfies the condition, and the table-driven masks mark the spaces, the blanks, the line breaks and the number signs. -/
def C25_full : Prop :=
  (∀ v c i, v.length = 32 → IsBytes v → ((Simd.compToBitmask 32 v c).getLsbD i = true ↔ v[i]? = some c)) ∧
  (∀ v c i, v.length = 16 → IsBytes v → ((Simd.compToBitmask 16 v c).getLsbD i = true ↔ v[i]? = some c)) ∧
  (∀ v i, v.length = 32 → IsBytes v → ((Simd.toBitmask32 v).getLsbD i = true ↔ ∃ c, v[i]? = some c ∧ 128 ≤ c)) ∧
  (∀ v, v.length = 16 → IsBytes v → ∃ m, Simd.toBitmask16 v = some m ∧
    ∀ i, m.getLsbD i = true ↔ ∃ c, v[i]? = some c ∧ 128 ≤ c) ∧
  (∀ v i, v.length = 32 → IsBytes v → ((Simd.flagMask v 4).getLsbD i = true ↔ v[i]? = some b%' ')) ∧
  (∀ v i, v.length = 32 → IsBytes v → ((Simd.flagMask v 5).getLsbD i = true ↔ ∃ c, v[i]? = some c ∧ isBlank c = true)) ∧
  (∀ v i, v.length = 32 → IsBytes v → ((Simd.flagMask v 2).getLsbD i = true ↔ ∃ c, v[i]? = some c ∧ isBreak c = true)) ∧
  (∀ v i, v.length = 32 → IsBytes v → ((Simd.flagMask v 8).getLsbD i = true ↔ v[i]? = some b%'#'))

theorem lane_iff {v : List Byte} {n i : Nat} (h : v.length = n) (p : Byte → Prop) :
    (i < n ∧ p (Simd.lane v i)) ↔ ∃ c, v[i]? = some c ∧ p c := by
  constructor
  · intro ⟨h1, h2⟩
    have e : v[i]? = some (v[i]'(by omega)) := List.getElem?_eq_getElem (by omega)
    rw [Simd.lane, e] at h2
    exact ⟨_, e, h2⟩
  · intro ⟨c, h1, h2⟩
    have hi : i < v.length := by
      rw [List.getElem?_eq_some_iff] at h1
      exact h1.1
    refine ⟨by omega, ?_⟩
    rw [Simd.lane, h1]
    exact h2

theorem top_bit : ∀ c < 256, (c &&& 0x80 ≠ 0 ↔ 128 ≤ c) := by decide +kernel

theorem mem_of_getElem? {v : List Byte} {i c : Nat} (h : v[i]? = some c) : c ∈ v := List.mem_of_getElem? h

/-- A comparison with 32 lanes: bit `i` is set exactly when byte `i` equals the byte compared with. -/
theorem C25_compare_32 (v : List Byte) (c : Byte) (i : Nat) (h : v.length = 32) :
    (Simd.compToBitmask 32 v c).getLsbD i = true ↔ v[i]? = some c := by
  rw [Simd.compToBitmask_bit _ _ _ _ (Nat.le_refl _), decide_eq_true_eq, lane_iff h (· = c)]
  simp

/-- The same with 16 lanes; the upper half of the mask is zero. -/
theorem C25_compare_16 (v : List Byte) (c : Byte) (i : Nat) (h : v.length = 16) :
    (Simd.compToBitmask 16 v c).getLsbD i = true ↔ v[i]? = some c := by
  rw [Simd.compToBitmask_bit _ _ _ _ (by decide), decide_eq_true_eq, lane_iff h (· = c)]
  simp

/-- The sign mask of 32 lanes. -/
theorem C25_sign_32 (v : List Byte) (i : Nat) (h : v.length = 32) (hb : IsBytes v) :
    (Simd.toBitmask32 v).getLsbD i = true ↔ ∃ c, v[i]? = some c ∧ 128 ≤ c := by
  rw [Simd.toBitmask32_bit, decide_eq_true_eq, lane_iff h (fun c => c &&& 0x80 ≠ 0)]
  constructor
  · intro ⟨c, h1, h2⟩
    exact ⟨c, h1, (top_bit c (hb c (mem_of_getElem? h1))).1 h2⟩
  · intro ⟨c, h1, h2⟩
    exact ⟨c, h1, (top_bit c (hb c (mem_of_getElem? h1))).2 h2⟩

/-- The mask of the spaces of a block. -/
theorem C25_spaces (v : List Byte) (i : Nat) (h : v.length = 32) (hb : IsBytes v) :
    (Simd.flagMask v 4).getLsbD i = true ↔ v[i]? = some b%' ' := by
  have := flag_ws false v hb h i
  simp only [Bool.false_eq_true, if_false, Nat.add_zero] at this
  rw [this, decide_eq_true_eq, lane_iff h (fun c => wsByte false c = true)]
  simp [wsByte]

/-- The mask of the blanks of a block. -/
theorem C25_blanks (v : List Byte) (i : Nat) (h : v.length = 32) (hb : IsBytes v) :
    (Simd.flagMask v 5).getLsbD i = true ↔ ∃ c, v[i]? = some c ∧ isBlank c = true := by
  have := flag_ws true v hb h i
  simp only [if_true] at this
  rw [this, decide_eq_true_eq, lane_iff h (fun c => wsByte true c = true)]
  simp [wsByte, isBlank]

/-- The mask of the line breaks of a block. -/
theorem C25_breaks (v : List Byte) (i : Nat) (h : v.length = 32) (hb : IsBytes v) :
    (Simd.flagMask v 2).getLsbD i = true ↔ ∃ c, v[i]? = some c ∧ isBreak c = true := by
  rw [flag_break v hb h i, decide_eq_true_eq, lane_iff h (fun c => isBreak c = true)]

/-- The mask of the number signs is empty whatever the block holds: the tables have no entry for `#`. -/
theorem C25_comments_false (v : List Byte) (h : v.length = 32) (hb : IsBytes v) : Simd.flagMask v 8 = 0#32 := flag_hash v hb h

/-- The sign mask of 16 lanes reads beyond its vector and panics on every vector. -/
theorem C25_sign_16_false (v : List Byte) (h : v.length = 16) : Simd.toBitmask16 v = none := by
  unfold Simd.toBitmask16
  have : List.range 32 = List.range 16 ++ 16 :: (List.range 15).map (· + 17) := by decide
  rw [this, List.foldlM_append]
  cases (List.foldlM (fun acc n => if n < v.length then some (acc ||| Simd.topBit v n) else none) 0#32 (List.range 16)) with
  | none => rfl
  | some m => simp [h]

/-- C25 does not hold in full. -/
theorem C25_masks_false : ¬ C25_full := by
  intro ⟨_, _, _, h, _⟩
  obtain ⟨m, h1, _⟩ := h (List.replicate 16 0) (by simp) (by decide)
  rw [C25_sign_16_false _ (by simp)] at h1
  simp at h1

/-- C25 for all masks except the 16-lane sign mask and the mask of number signs. -/
theorem C25_masks_partial :
    (∀ v c i, v.length = 32 → IsBytes v → ((Simd.compToBitmask 32 v c).getLsbD i = true ↔ v[i]? = some c)) ∧
    (∀ v c i, v.length = 16 → IsBytes v → ((Simd.compToBitmask 16 v c).getLsbD i = true ↔ v[i]? = some c)) ∧
    (∀ v i, v.length = 32 → IsBytes v → ((Simd.toBitmask32 v).getLsbD i = true ↔ ∃ c, v[i]? = some c ∧ 128 ≤ c)) ∧
    (∀ v i, v.length = 32 → IsBytes v → ((Simd.flagMask v 4).getLsbD i = true ↔ v[i]? = some b%' ')) ∧
    (∀ v i, v.length = 32 → IsBytes v → ((Simd.flagMask v 5).getLsbD i = true ↔ ∃ c, v[i]? = some c ∧ isBlank c = true)) ∧
    (∀ v i, v.length = 32 → IsBytes v → ((Simd.flagMask v 2).getLsbD i = true ↔ ∃ c, v[i]? = some c ∧ isBreak c = true)) :=
  ⟨fun v c i h _ => C25_compare_32 v c i h, fun v c i h _ => C25_compare_16 v c i h, C25_sign_32, C25_spaces, C25_blanks, C25_breaks⟩

theorem mapM_guard (p : Nat → Prop) [DecidablePred p] (g : Nat → Nat) : ∀ (l r : List Nat),
    (l.mapM (fun n => if p n then some (g n) else none) = some r ↔ (∀ n ∈ l, p n) ∧ r = l.map g)
  | [], r => by simp [eq_comm]
  | n :: l, r => by
    by_cases h : p n
    · cases r with
      | nil => simp [List.mapM_cons, h, Option.bind_eq_some_iff]
      | cons a r =>
        have := mapM_guard p g l r
        simp only [List.mapM_cons, h, if_true, Option.bind_eq_bind, Option.bind_some, Option.bind_eq_some_iff, List.mem_cons, forall_eq_or_imp,
          List.map_cons, true_and, List.cons.injEq]
        constructor
        · rintro ⟨l', h1, h2⟩
          cases h2
          exact ⟨(this.1 h1).1, rfl, (this.1 h1).2⟩
        · rintro ⟨h1, rfl, h2⟩
          exact ⟨r, this.2 ⟨h1, h2⟩, rfl⟩
    · simp [List.mapM_cons, h]

/-- The operations on vectors do to each lane what they are named after; adding panics exactly if some sum is more than a byte. -/
theorem C25_lanes (v w : List Byte) (lanes : Nat) (hv : v.length = lanes) (hw : w.length = lanes) :
    (∀ c, Simd.comp lanes v c = v.map fun b => if b = c then 255 else 0) ∧
    Simd.and lanes v w = List.zipWith (· &&& ·) v w ∧
    (∀ k, Simd.shiftRight lanes v k = v.map (· >>> k)) ∧
    Simd.swizzle lanes v w = w.map (fun b => if b ≤ 15 then v[b]?.getD 0 else 0) ∧
    (∀ r, Simd.addOther lanes v w = some r ↔ (∀ n (hn : n < lanes), v[n] + w[n] ≤ 255) ∧ r = List.zipWith (· + ·) v w) := by
  have lv : ∀ n (hn : n < lanes), Simd.lane v n = v[n] := fun n hn => by simp [Simd.lane, List.getElem?_eq_getElem (show n < v.length by omega)]
  have lw : ∀ n (hn : n < lanes), Simd.lane w n = w[n] := fun n hn => by simp [Simd.lane, List.getElem?_eq_getElem (show n < w.length by omega)]
  refine ⟨fun c => ?_, ?_, fun k => ?_, ?_, fun r => ?_⟩
  · refine List.ext_getElem (by simp [Simd.comp, hv]) fun n h1 h2 => ?_
    simp [Simd.comp] at h1
    simp [Simd.comp, lv n h1]
  · refine List.ext_getElem (by simp [Simd.and, hv, hw]) fun n h1 h2 => ?_
    simp [Simd.and] at h1
    simp [Simd.and, lv n h1, lw n h1]
  · refine List.ext_getElem (by simp [Simd.shiftRight, hv]) fun n h1 h2 => ?_
    simp [Simd.shiftRight] at h1
    simp [Simd.shiftRight, lv n h1]
  · refine List.ext_getElem (by simp [Simd.swizzle, hw]) fun n h1 h2 => ?_
    simp [Simd.swizzle] at h1
    simp only [Simd.swizzle, List.getElem_map, List.getElem_range, lw n h1]
    split
    · rw [if_neg (by omega)]
    · rename_i hle
      have : w[n] &&& 15 = w[n] := by
        rw [show (15 : Nat) = 2 ^ 4 - 1 from rfl, Nat.and_two_pow_sub_one_eq_mod]
        exact Nat.mod_eq_of_lt (by omega)
      rw [if_pos (by omega), this]
      rfl
  · rw [Simd.addOther, mapM_guard]
    have e : (List.range lanes).map (fun n => Simd.lane v n + Simd.lane w n) = List.zipWith (· + ·) v w := by
      refine List.ext_getElem (by simp [hv, hw]) fun n h1 h2 => ?_
      simp at h1
      simp [lv n h1, lw n h1]
    rw [e]
    refine and_congr_left fun _ => ⟨fun h n hn => ?_, fun h n hn => ?_⟩
    · have := h n (List.mem_range.2 hn)
      rw [lv n hn, lw n hn] at this
      omega
    · have hn := List.mem_range.1 hn
      have := h n hn
      rw [lv n hn, lw n hn]
      omega

/-- two vectors of 16 lanes that can be added, and two that cannot -/
example : Simd.addOther 16 (List.replicate 16 200) (List.replicate 16 55) = some (List.replicate 16 255) ∧
    Simd.addOther 16 (List.replicate 16 200) (List.replicate 15 55 ++ [56]) = none := by decide +kernel

/-- a block with blanks, a line break and a number sign: the break is byte 16 -/
example : (bs!"key: \t\"# a note\\\nnext: value ###").length = 32 ∧ IsBytes bs!"key: \t\"# a note\\\nnext: value ###" ∧
    (Simd.flagMask bs!"key: \t\"# a note\\\nnext: value ###" 2).toNat = 2 ^ 16 ∧
    (Simd.flagMask bs!"key: \t\"# a note\\\nnext: value ###" 8).toNat = 0 := by decide +kernel

/-! ### C24: the two sources -/

/-- C24 in full: no program can tell the buffered source from the string source. -/
def C24_full : Prop := ∀ debug input ops, IsBytes input → runBuffer debug (Buf.new input) ops = runString (Src.new input) ops

/-- C24 does not hold: after a skip of 33 bytes the buffered source is one byte behind. -/
theorem C24_skip_false : ¬ C24_full := by
  intro h
  exact absurd (h false (List.range 40) [.skip 33, .peekz 0] (by decide)) (by decide +kernel)

/-- Nor for the copy of the last line of a text without a line break at its end. -/
theorem C24_last_line_false : ¬ C24_full := by
  intro h
  exact absurd (h false (List.replicate 32 97) [.pushNonBreakzChr] (by decide)) (by decide +kernel)

/-- Nor for white space: with 32 bytes in the buffer everything up to the line break is skipped, text included. -/
theorem C24_white_space_false : ¬ C24_full := by
  intro h
  exact absurd (h false bs!"value of the first key\nsecond: 2\n" [.skipWsToEol false true] (by decide)) (by decide +kernel)

/-- the two sources are at the same place -/
def Same (b : Buf) (s : Src) : Prop := Holds b s.rest ∧ IsBytes s.rest

theorem Same.skip {b : Buf} {s : Src} (h : Same b s) (n : Nat) (hn : n ≠ 33 ∨ s.rest.length ≤ 32) : Same (b.skip n) (s.skip n) := by
  refine ⟨?_, fun c hc => h.2 c (List.mem_of_mem_drop hc)⟩
  have := skip_holds h.1 n
  rcases hn with hn | hn
  · rwa [if_neg hn] at this
  · have e : s.rest.drop (if n = 33 then 32 else n) = s.rest.drop n := by
      split
      · rw [List.drop_of_length_le (by omega), List.drop_of_length_le (by omega)]
      · rfl
    rw [e] at this
    exact this

theorem Same.of {b : Buf} {s : Src} (h : Same b s) {b' : Buf} {n : Nat} (hb : Holds b' (s.rest.drop n)) : Same b' (s.skip n) :=
  ⟨hb, fun c hc => h.2 c (List.mem_of_mem_drop hc)⟩

theorem wsToEol_spaces (t : Bool) (c : Byte) (post : List Byte) (hc : c = 10 ∨ c = 13) : ∀ (n : Nat) (w : Bool),
    wsToEol t (List.replicate n 32 ++ c :: post) false w = (n, .ok (false, w || decide (1 ≤ n)))
  | 0, w => by
    simp only [List.replicate_zero, List.nil_append, wsToEol]
    rw [if_neg (by omega), if_neg (by omega), if_neg (by omega)]
    simp
  | n + 1, w => by
    rw [List.replicate_succ, List.cons_append, wsToEol, if_pos rfl, wsToEol_spaces t c post hc n true]
    simp

theorem bufferedWs_short (t w : Bool) (rest : List Byte) (h : rest.length < 32) :
    bufferedWs t w rest = wsToEol t rest false w := by
  unfold bufferedWs
  have e : rest.length / 32 = 0 := by omega
  cases rest.findIdx? isBreak with
  | none => simp [e]
  | some p =>
    simp only []
    rw [if_neg (by omega)]
    simp [e]

theorem bufferedWs_spaces (t w : Bool) (n : Nat) (c : Byte) (post : List Byte) (hc : c = 10 ∨ c = 13) (hw : 1 ≤ n ∨ w = true) :
    bufferedWs t w (List.replicate n 32 ++ c :: post) = (n, .ok (false, true)) := by
  have hf : (List.replicate n 32 ++ c :: post).findIdx? isBreak = some n := by
    rw [List.findIdx?_append]
    have : (List.replicate n 32).findIdx? isBreak = none := by
      rw [List.findIdx?_eq_none_iff]
      intro x hx
      rw [List.eq_of_mem_replicate hx]
      rfl
    rw [this]
    have hb : isBreak c = true := by rcases hc with rfl | rfl <;> rfl
    simp [List.findIdx?_cons, hb]
  have any : ∀ m, 1 ≤ n → 1 ≤ m → ((List.replicate n 32 ++ c :: post).take m).any (wsByte t) = true := by
    intro m h1 h2
    rw [List.any_eq_true]
    refine ⟨32, ?_, rfl⟩
    rw [List.mem_take_iff_getElem]
    refine ⟨0, by simp; omega, ?_⟩
    rw [List.getElem_append_left (by simp; omega)]
    simp
  unfold bufferedWs
  rw [hf]
  simp only []
  split
  · rcases hw with hw | hw
    · rw [any _ hw (by omega), Bool.or_true]
    · simp [hw]
  · rename_i hge
    simp only [List.length_append, List.length_replicate, List.length_cons] at hge ⊢
    generalize hk : 32 * ((n + (post.length + 1)) / 32) = k
    have hkn : k ≤ n := by omega
    have e : (List.replicate n 32 ++ c :: post).drop k = List.replicate (n - k) 32 ++ c :: post := by
      rw [List.drop_append_of_le_length (by simpa using hkn), List.drop_replicate]
    rw [e, wsToEol_spaces t c post hc]
    have ea : k + (n - k) = n := by omega
    simp only [ea]
    congr 3
    rcases hw with hw | hw
    · by_cases h0 : k = 0
      · subst h0
        simp; omega
      · rw [any k hw (by omega)]
        simp
    · simp [hw]

theorem lineOf_break {rest : List Byte} (h : 10 ∈ rest ∨ 13 ∈ rest) : lineOf rest = rest.take ((rest.findIdx? isBreak).getD 0) := by
  have ha : rest.any isBreak = true := by
    rw [List.any_eq_true]
    rcases h with h | h
    · exact ⟨10, h, rfl⟩
    · exact ⟨13, h, rfl⟩
  unfold lineOf
  rw [if_pos ha]
  cases hf : rest.findIdx? isBreak with
  | none =>
    rw [List.findIdx?_eq_none_iff] at hf
    rw [List.any_eq_true] at ha
    obtain ⟨c, h1, h2⟩ := ha
    rw [hf c h1] at h2
    simp at h2
  | some k =>
    have := findIdx?_take (p := isBreak) (l := rest) (n := rest.length) (k := k) (by rw [List.take_length]; exact hf)
    simpa using this.1

theorem lineOf_short {rest : List Byte} (h : rest.length < 32) : lineOf rest = rest.take ((rest.findIdx? isBreak).getD 0) := by
  by_cases hb : 10 ∈ rest ∨ 13 ∈ rest
  · exact lineOf_break hb
  · have hn : ∀ c ∈ rest, isBreak c = false := by
      intro c hc
      simp only [isBreak, Bool.or_eq_false_iff, beq_eq_false_iff_ne]
      constructor
      · rintro rfl
        exact hb (.inr hc)
      · rintro rfl
        exact hb (.inl hc)
    have h1 : rest.findIdx? isBreak = none := List.findIdx?_eq_none_iff.2 hn
    have h2 : rest.any isBreak = false := by
      rw [List.any_eq_false]
      intro c hc
      simp [hn c hc]
    have e : rest.length / 32 = 0 := by omega
    simp [lineOf, h1, h2, e]

theorem consume_same (debug : Bool) {b : Buf} {s : Src} (h : Same b s) (p : Byte → Bool) (hp : p 0 = false) :
    ∃ b', b.consumeWhile debug p b.size = .ok (s.rest.takeWhile p, b') ∧ Same b' (s.skip (s.rest.takeWhile p).length) := by
  obtain ⟨b', e, hb⟩ := consumeWhile_eq debug p hp b.size b s.rest h.1 (by rw [size_eq h.1]; omega)
  exact ⟨b', e, h.of hb⟩

theorem step_same (debug : Bool) {b : Buf} {s : Src} (h : Same b s) (op : Op) (hf : Fine s op) :
    (onBuffer debug b op).1 = (onString s op).1 ∧ Same (onBuffer debug b op).2 (onString s op).2 := by
  cases op with
  | peekChecked n =>
    simp only [onBuffer, onString, answer, peekChecked_eq h.1 debug n hf, Src.peekChecked]
    exact ⟨trivial, h⟩
  | peekz n =>
    simp only [onBuffer, onString, answer, peekz_eq h.1 debug n hf, Src.peekz]
    exact ⟨trivial, h⟩
  | isEmpty =>
    simp only [onBuffer, onString, bufIsEmpty_eq h.1, Src.bufIsEmpty]
    exact ⟨trivial, h⟩
  | skip n => exact ⟨rfl, h.skip n hf⟩
  | fetchWhileIsAlpha =>
    obtain ⟨b', e, hb⟩ := consume_same debug h isAlpha rfl
    simp only [onBuffer, onString, answer, Buf.fetchWhileIsAlpha, e, Src.fetchWhileIsAlpha]
    exact ⟨trivial, hb⟩
  | skipWhileBlank =>
    obtain ⟨b', e, hb⟩ := consume_same debug h isBlank rfl
    simp only [onBuffer, onString, answer, Buf.skipWhileBlank, e, Src.skipWhileBlank, Except.map]
    exact ⟨trivial, hb⟩
  | skipWhileNonBreakz =>
    obtain ⟨b', e, hb⟩ := consume_same debug h (!isBreakz ·) rfl
    simp only [onBuffer, onString, answer, Buf.skipWhileNonBreakz, e, Src.skipWhileNonBreakz, Except.map]
    exact ⟨trivial, hb⟩
  | skipAndAccumulateToEol =>
    obtain ⟨b', e, hb⟩ := accumulateLoop_eq debug b.size b s.rest h.1 (by rw [size_eq h.1]; omega)
    simp only [onBuffer, onString, answer, Buf.skipAndAccumulateToEol, e, Src.skipAndAccumulateToEol]
    exact ⟨trivial, h.of hb⟩
  | pushNonBreakzChr =>
    obtain ⟨b', e, hb⟩ := pushNonBreakzChr_eq h.1
    have hl : lineOf s.rest = s.rest.take ((s.rest.findIdx? isBreak).getD 0) := by
      rcases hf.2 with hf | hf | hf
      · exact lineOf_break (.inl hf)
      · exact lineOf_break (.inr hf)
      · exact lineOf_short hf
    have hlen : (lineOf s.rest).length = (s.rest.findIdx? isBreak).getD 0 := by
      rw [hl, List.length_take]
      cases hk : s.rest.findIdx? isBreak with
      | none => simp
      | some k =>
        rw [List.findIdx?_eq_some_iff_getElem] at hk
        obtain ⟨hk, _⟩ := hk
        simp; omega
    have hp : ¬ s.pos > s.len := by have := hf.1; omega
    rw [hlen] at hb
    simp only [onBuffer, onString, answer, e, Src.pushNonBreakzChr, if_neg hp, hl]
    exact ⟨trivial, h.of hb⟩
  | nextCanBePlainScalar f =>
    simp only [onBuffer, onString, answer, Buf.nextCanBePlainScalar, peekz_eq h.1 debug 0 (by omega), peekz_eq h.1 debug 1 (by omega),
      bind, Except.bind]
    exact ⟨rfl, h⟩
  | nextIsDocumentIndicator =>
    have three : ∀ c, b.nextIsThree debug c = .ok (s.nextIsThree c) := by
      intro c
      simp only [Buf.nextIsThree, peekz_eq h.1 debug 0 (by omega), peekz_eq h.1 debug 1 (by omega), peekz_eq h.1 debug 2 (by omega),
        bind, Except.bind, Src.nextIsThree, Src.peekz]
      cases s.rest[0]?.getD 0 == c <;> cases s.rest[1]?.getD 0 == c <;> rfl
    have key : b.nextIsDocumentIndicator debug = .ok s.nextIsDocumentIndicator := by
      simp only [Buf.nextIsDocumentIndicator, three, peekz_eq h.1 debug 3 (by omega), bind, Except.bind, Src.nextIsDocumentIndicator,
        Src.peekz]
      cases s.nextIsThree b%'-' <;> cases s.nextIsThree b%'.' <;> rfl
    simp only [onBuffer, onString, answer, key]
    exact ⟨trivial, h⟩
  | skipWsToEol t w =>
    obtain ⟨b', e, hb⟩ := skipWsToEol_eq h.1 h.2 debug t w
    have key : bufferedWs t w s.rest = wsToEol t s.rest false w := by
      rcases hf with hf | ⟨n, c, post, h1, h2, h3⟩
      · exact bufferedWs_short t w s.rest hf
      · rw [h1, bufferedWs_spaces t w n c post h2 h3, wsToEol_spaces t c post h2]
        rcases h3 with h3 | h3 <;> simp [h3]
    rw [key] at e hb
    simp only [onBuffer, onString, answer, e, Src.skipWsToEol]
    exact ⟨trivial, h.of hb⟩

theorem run_same (debug : Bool) : ∀ (ops : List Op) {b : Buf} {s : Src}, Same b s → FineRun s ops →
    runBuffer debug b ops = runString s ops
  | [], _, _, _, _ => rfl
  | op :: ops, b, s, h, hf => by
    obtain ⟨h1, h2⟩ := step_same debug h op hf.1
    simp only [runBuffer, runString, h1, run_same debug ops h2 hf.2]

/-- C24 for every program whose operations are all used where they are `Fine`: it observes the same on both sources, with or without
debug assertions, however long the text and the program. Missing: the uses excluded by `Fine`; the three theorems above show that in
each of them (skips of 33 bytes, last lines, white space followed by text) the sources do differ, and `peek` beyond 31 differs by
design. -/
theorem C24_same_observations_partial (debug : Bool) (input : List Byte) (ops : List Op) (hb : IsBytes input)
    (hf : FineRun (Src.new input) ops) : runBuffer debug (Buf.new input) ops = runString (Src.new input) ops :=
  run_same debug ops ⟨new_holds input, hb⟩ hf

/-- a program that crosses the end of the buffer in each way -/
example : FineRun (Src.new (List.replicate 50 32 ++ bs!"\n--- word\nrest of the text, longer than the buffer\n"))
    [.peekz 31, .skipWsToEol true false, .skip 1, .nextIsDocumentIndicator, .skip 4, .fetchWhileIsAlpha, .skip 1, .pushNonBreakzChr,
      .skip 40, .isEmpty] := by
  refine ⟨show 31 < 32 by decide, .inr ⟨50, 10, _, rfl, .inl rfl, .inl (by omega)⟩, .inl (by omega), trivial, .inl (by omega), trivial,
    .inl (by omega), ⟨by decide, .inl (by decide)⟩, .inl (by omega), trivial, trivial⟩

/-- Skipping, exactly: the buffered source skips as many bytes as asked, except that a skip of 33 skips 32. -/
theorem C24_skip_exact {b : Buf} {rest : List Byte} (h : Holds b rest) (n : Nat) :
    Holds (b.skip n) (rest.drop (if n = 33 then 32 else n)) := skip_holds h n

/-! ### C43: memory safety of the buffered source -/

/-- some text remains to be read through the buffer -/
def Alive (b : Buf) : Prop := ∃ rest, Holds b rest ∧ IsBytes rest

/-- what a program may see: no uninitialised byte is read and no index is out of bounds; a debug assertion fails only if a peek
goes beyond the buffer -/
def Safe (debug : Bool) : Op → Obs → Prop
  | _, .fault .uninit => False
  | _, .fault .bounds => False
  | .peekChecked n, .fault .assertion => debug = true ∧ 32 ≤ n
  | .peekz n, .fault .assertion => debug = true ∧ 32 ≤ n
  | _, .fault .assertion => False
  | _, _ => True

/-- every operation of the program is safe -/
def SafeRun (debug : Bool) (b : Buf) : List Op → Prop
  | [] => True
  | op :: ops => Safe debug op (onBuffer debug b op).1 ∧ SafeRun debug (onBuffer debug b op).2 ops

theorem whiteObs_safe (debug : Bool) (op : Op) (n : Nat) (r : Except String (Bool × Bool)) : Safe debug op (whiteObs n r) := by
  rcases r with m | ⟨x, y⟩ <;> cases op <;> trivial

theorem step_safe (debug : Bool) {b : Buf} (h : Alive b) (op : Op) :
    Safe debug op (onBuffer debug b op).1 ∧ Alive (onBuffer debug b op).2 := by
  obtain ⟨rest, hr, hby⟩ := h
  have keep : ∀ {b' n}, Holds b' (rest.drop n) → Alive b' := fun hb => ⟨_, hb, fun c hc => hby c (List.mem_of_mem_drop hc)⟩
  have same : Alive b := ⟨rest, hr, hby⟩
  have hs : Same b ⟨rest, 0, 0⟩ := ⟨hr, hby⟩
  cases op with
  | peekChecked n =>
    by_cases hn : n < 32
    · simp only [onBuffer, answer, peekChecked_eq hr debug n hn]
      exact ⟨trivial, same⟩
    · simp only [onBuffer, answer, peekChecked_far hr debug n (by omega)]
      cases debug
      · exact ⟨trivial, same⟩
      · exact ⟨⟨rfl, by omega⟩, same⟩
  | peekz n =>
    by_cases hn : n < 32
    · simp only [onBuffer, answer, peekz_eq hr debug n hn]
      exact ⟨trivial, same⟩
    · simp only [onBuffer, answer, Buf.peekz, peekChecked_far hr debug n (by omega)]
      cases debug
      · exact ⟨trivial, same⟩
      · exact ⟨⟨rfl, by omega⟩, same⟩
  | isEmpty => exact ⟨trivial, same⟩
  | skip n => exact ⟨trivial, keep (skip_holds hr n)⟩
  | fetchWhileIsAlpha =>
    have h := step_same debug hs .fetchWhileIsAlpha trivial
    rw [h.1]
    exact ⟨trivial, ⟨_, h.2⟩⟩
  | skipWhileBlank =>
    have h := step_same debug hs .skipWhileBlank trivial
    rw [h.1]
    exact ⟨trivial, ⟨_, h.2⟩⟩
  | skipWhileNonBreakz =>
    have h := step_same debug hs .skipWhileNonBreakz trivial
    rw [h.1]
    exact ⟨trivial, ⟨_, h.2⟩⟩
  | skipAndAccumulateToEol =>
    have h := step_same debug hs .skipAndAccumulateToEol trivial
    rw [h.1]
    exact ⟨trivial, ⟨_, h.2⟩⟩
  | pushNonBreakzChr =>
    obtain ⟨b', e, hb⟩ := pushNonBreakzChr_eq hr
    simp only [onBuffer, answer, e]
    exact ⟨trivial, keep hb⟩
  | nextCanBePlainScalar f =>
    have h := step_same debug hs (.nextCanBePlainScalar f) trivial
    rw [h.1]
    exact ⟨trivial, ⟨_, h.2⟩⟩
  | nextIsDocumentIndicator =>
    have h := step_same debug hs .nextIsDocumentIndicator trivial
    rw [h.1]
    exact ⟨trivial, ⟨_, h.2⟩⟩
  | skipWsToEol t w =>
    obtain ⟨b', e, hb⟩ := skipWsToEol_eq hr hby debug t w
    simp only [onBuffer, answer, e]
    exact ⟨whiteObs_safe _ _ _ _, keep hb⟩

theorem run_safe (debug : Bool) : ∀ (ops : List Op) {b : Buf}, Alive b → SafeRun debug b ops
  | [], _, _ => trivial
  | op :: ops, _, h => ⟨(step_safe debug h op).1, run_safe debug ops (step_safe debug h op).2⟩

/-- C43: whatever the text and the program, the buffered source never reads an uninitialised cell of its buffer nor indexes outside
it, and its debug assertion fails only for a peek at 32 or further. -/
theorem C43_memory_safe (debug : Bool) (input : List Byte) (ops : List Op) (hb : IsBytes input) :
    SafeRun debug (Buf.new input) ops := run_safe debug ops ⟨input, new_holds input, hb⟩

/-- the buffer does have uninitialised cells: reading one of them directly is a fault -/
example : (Buf.new bs!"ab").peekUnsafe 2 = .error .uninit := by rfl

end Verif.Props
