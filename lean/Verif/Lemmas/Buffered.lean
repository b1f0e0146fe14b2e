import Verif.Model.Buffered
import Verif.Lemmas.Simd
/-!
# What the operations of the buffered source do
-/
namespace Verif.Buffered
open Verif Verif.CharUtils

/-- `rest` is what the source has still to give: the buffer holds its first 32 bytes and the iterator the others -/
structure Holds (b : Buf) (rest : List Byte) : Prop where
  cells : b.buf.length = 32
  len : b.len = min 32 rest.length
  init : b.buf.take b.len = (rest.take 32).map some
  input : b.input = rest.drop 32

theorem fillLoop_holds : ∀ (n : Nat) (b : Buf) (xs : List Byte), b.buf.length = 32 → b.len = xs.length → n + xs.length = 32 →
    b.buf.take xs.length = xs.map some → Holds (fillLoop n xs.length b) (xs ++ b.input)
  | 0, b, xs, h1, h2, h3, h4 => by
    have hx : xs.length = 32 := by omega
    refine ⟨h1, ?_, ?_, ?_⟩
    · simp [fillLoop, h2, hx]
    · simp only [fillLoop]
      rw [h2, h4, List.take_append_of_le_length (by omega), List.take_of_length_le (by omega)]
    · simp only [fillLoop]
      rw [← hx, List.drop_left]
  | n + 1, b, xs, h1, h2, h3, h4 => by
    unfold fillLoop
    cases hi : b.input with
    | nil =>
      refine ⟨h1, ?_, ?_, ?_⟩
      · simp [h2]; omega
      · simp only []
        rw [h2, h4, List.append_nil, List.take_of_length_le (by omega)]
      · simp only []
        rw [hi, List.append_nil, List.drop_of_length_le (by omega)]
    | cons c r =>
      have := fillLoop_holds n { input := r, buf := b.buf.set xs.length (some c), len := b.len + 1 } (xs ++ [c]) (by simp [h1])
        (by simp [h2]) (by simp; omega) (by
          simp only [List.length_append, List.length_singleton, List.map_append, List.map_cons, List.map_nil]
          rw [List.take_add_one, List.getElem?_set_self (by omega), List.take_set_of_le (by omega), h4]
          simp)
      simp only [List.length_append, List.length_singleton, List.append_assoc, List.singleton_append] at this
      exact this

theorem fill_holds (b : Buf) (xs : List Byte) (h1 : b.buf.length = 32) (h2 : b.len = xs.length) (h3 : xs.length ≤ 32)
    (h4 : b.buf.take xs.length = xs.map some) : Holds b.fill (xs ++ b.input) := by
  unfold Buf.fill
  rw [h2]
  exact fillLoop_holds _ b xs h1 h2 (by simp [maxLen]; omega) h4

theorem new_holds (input : List Byte) : Holds (Buf.new input) input := by
  have := fill_holds { input := input, buf := List.replicate maxLen none, len := 0 } [] (by simp [maxLen]) rfl (by simp) (by simp)
  simpa [Buf.new] using this

theorem readAll_map (xs : List Byte) : readAll (xs.map some) = .ok xs := by
  induction xs with
  | nil => rfl
  | cons x xs ih => simp [readAll, ih, Except.map]

theorem getMaxBuf_eq {b : Buf} {rest : List Byte} (h : Holds b rest) :
    b.getMaxBuf = .ok (if rest.length < 32 then none else some (rest.take 32)) := by
  unfold Buf.getMaxBuf maxLen
  have hl := h.len
  by_cases hr : rest.length < 32
  · rw [if_pos (by omega), if_pos hr]
  · rw [if_neg (by omega), if_neg hr]
    have := h.init
    rw [List.take_of_length_le (by rw [h.cells]; omega)] at this
    rw [this, readAll_map]
    rfl

theorem getBuf_eq {b : Buf} {rest : List Byte} (h : Holds b rest) : b.getBuf = .ok (rest.take 32) := by
  unfold Buf.getBuf
  rw [h.init, readAll_map]

theorem peekChecked_eq {b : Buf} {rest : List Byte} (h : Holds b rest) (debug : Bool) (n : Nat) (hn : n < 32) :
    b.peekChecked debug n = .ok rest[n]? := by
  unfold Buf.peekChecked maxLen
  rw [if_neg (by simp; omega)]
  have hl := h.len
  by_cases hr : n ≥ b.len
  · rw [if_pos hr, List.getElem?_eq_none (by omega)]
  · rw [if_neg hr]
    have hb : b.buf[n]? = some rest[n]? := by
      have := congrArg (·[n]?) h.init
      simp only [List.getElem?_take, if_pos (show n < b.len by omega), List.getElem?_map, if_pos hn] at this
      rw [this, List.getElem?_eq_getElem (by omega)]
      rfl
    have hs : rest[n]? = some (rest[n]'(by omega)) := List.getElem?_eq_getElem (by omega)
    rw [hs] at hb ⊢
    simp [Buf.peekUnsafe, hb, Except.map]

theorem peekChecked_far {b : Buf} {rest : List Byte} (h : Holds b rest) (debug : Bool) (n : Nat) (hn : 32 ≤ n) :
    b.peekChecked debug n = if debug then .error .assertion else .ok none := by
  unfold Buf.peekChecked maxLen
  have hl := h.len
  cases debug
  · rw [if_neg (by simp), if_pos (by omega)]
    rfl
  · rw [if_pos (by simp; omega)]
    rfl

theorem peekz_eq {b : Buf} {rest : List Byte} (h : Holds b rest) (debug : Bool) (n : Nat) (hn : n < 32) :
    b.peekz debug n = .ok (rest[n]?.getD 0) := by
  unfold Buf.peekz
  rw [peekChecked_eq h debug n hn]
  rfl

theorem bufIsEmpty_eq {b : Buf} {rest : List Byte} (h : Holds b rest) : b.bufIsEmpty = rest.isEmpty := by
  unfold Buf.bufIsEmpty
  rw [h.len]
  cases rest with
  | nil => rfl
  | cons x r => simp

theorem skip_holds {b : Buf} {rest : List Byte} (h : Holds b rest) (n : Nat) :
    Holds (b.skip n) (rest.drop (if n = 33 then 32 else n)) := by
  unfold Buf.skip
  by_cases h0 : n = 0
  · subst h0
    simpa using h
  rw [if_neg h0]
  have hl := h.len
  have hlen : (rest.take 32).length = b.len := by rw [List.length_take, hl]
  have hfill := fill_holds { input := if n - (maxLen + 1) > 0 then b.input.drop (n - (maxLen + 1) + 1) else b.input,
                             buf := copyWithin b.buf (min n b.len) b.len, len := b.len - min n b.len }
    ((rest.take 32).drop (min n b.len)) (by
      simp only [copyWithin, List.length_append, List.length_drop, List.length_take, h.cells]; omega)
    (by simp only [List.length_drop, hlen]) (by simp only [List.length_drop, hlen]; omega) (by
      simp only [copyWithin, List.length_drop, hlen]
      have e : ((b.buf.take b.len).drop (min n b.len)).length = b.len - min n b.len := by
        simp [h.cells]; omega
      rw [List.take_append_of_le_length (by omega), List.take_of_length_le (by omega), h.init, List.map_drop])
  have key : (rest.take 32).drop (min n b.len) ++
      (if n - (maxLen + 1) > 0 then b.input.drop (n - (maxLen + 1) + 1) else b.input) = rest.drop (if n = 33 then 32 else n) := by
    rw [h.input]
    unfold maxLen
    by_cases hn : n ≤ 32
    · rw [if_neg (by omega), if_neg (by omega)]
      by_cases hr : rest.length ≤ 32
      · have e2 : rest.drop 32 = [] := List.drop_of_length_le (by omega)
        rw [List.take_of_length_le hr, e2, List.append_nil]
        by_cases hnr : n ≤ rest.length
        · rw [Nat.min_eq_left (by omega)]
        · rw [List.drop_of_length_le (by omega), List.drop_of_length_le (by omega)]
      · rw [Nat.min_eq_left (by omega)]
        rw [← List.drop_append_of_le_length (by simp; omega), List.take_append_drop]
    · have e1 : (rest.take 32).drop (min n b.len) = [] := List.drop_of_length_le (by rw [hlen]; omega)
      rw [e1, List.nil_append]
      by_cases h33 : n = 33
      · rw [if_neg (by omega), if_pos h33]
      · rw [if_pos (by omega), if_neg h33, List.drop_drop]
        congr 1
        omega
  rw [key] at hfill
  exact hfill

theorem skip_holds' {b : Buf} {rest : List Byte} (h : Holds b rest) (n : Nat) (hn : n ≤ 32) : Holds (b.skip n) (rest.drop n) := by
  have := skip_holds h n
  rwa [if_neg (by omega)] at this

theorem size_eq {b : Buf} {rest : List Byte} (h : Holds b rest) : b.size = rest.length + 1 := by
  unfold Buf.size
  rw [h.len, h.input, List.length_drop]
  omega

theorem drop_length_takeWhile (p : Byte → Bool) (l : List Byte) : l.drop (l.takeWhile p).length = l.dropWhile p := by
  induction l with
  | nil => rfl
  | cons c r ih =>
    by_cases h : p c = true
    · simp [h, ih]
    · simp [h]

theorem consumeWhile_eq (debug : Bool) (p : Byte → Bool) (hp : p 0 = false) : ∀ (fuel : Nat) (b : Buf) (rest : List Byte),
    Holds b rest → rest.length < fuel →
    ∃ b', b.consumeWhile debug p fuel = .ok (rest.takeWhile p, b') ∧ Holds b' (rest.drop (rest.takeWhile p).length)
  | 0, _, _, _, hf => by omega
  | fuel + 1, b, rest, h, hf => by
    simp only [Buf.consumeWhile, peekz_eq h debug 0 (by omega), bind, Except.bind]
    cases rest with
    | nil => exact ⟨b, by simp [hp], h⟩
    | cons c r =>
      simp only [List.getElem?_cons_zero, Option.getD_some]
      by_cases hc : p c = true
      · rw [if_pos hc]
        have h1 := skip_holds' h 1 (by omega)
        simp only [List.drop_succ_cons, List.drop_zero] at h1
        obtain ⟨b', e, hb⟩ := consumeWhile_eq debug p hp fuel (b.skip 1) r h1 (by simp at hf; omega)
        rw [e]
        refine ⟨b', by simp [hc], ?_⟩
        simpa [hc] using hb
      · rw [if_neg hc]
        exact ⟨b, by simp [hc], by simpa [hc] using h⟩

theorem accumulateLoop_eq (debug : Bool) : ∀ (fuel : Nat) (b : Buf) (rest : List Byte), Holds b rest → rest.length < fuel →
    ∃ b', b.accumulateLoop debug fuel = .ok (rest.takeWhile (!isBreak ·), b') ∧
      Holds b' (rest.drop (rest.takeWhile (!isBreak ·)).length)
  | 0, _, _, _, hf => by omega
  | fuel + 1, b, rest, h, hf => by
    simp only [Buf.accumulateLoop, peekChecked_eq h debug 0 (by omega), bind, Except.bind]
    cases rest with
    | nil => exact ⟨b, by simp, h⟩
    | cons c r =>
      simp only [List.getElem?_cons_zero]
      by_cases hc : isBreak c = true
      · rw [if_pos hc]
        exact ⟨b, by simp [hc], by simpa [hc] using h⟩
      · rw [if_neg hc]
        have h1 := skip_holds' h 1 (by omega)
        simp only [List.drop_succ_cons, List.drop_zero] at h1
        obtain ⟨b', e, hb⟩ := accumulateLoop_eq debug fuel (b.skip 1) r h1 (by simp at hf; omega)
        rw [e]
        refine ⟨b', by simp [hc], ?_⟩
        simpa [hc] using hb

/-- the bytes that `push_non_breakz_chr` copies -/
def lineOf (rest : List Byte) : List Byte :=
  if rest.any isBreak then rest.takeWhile (!isBreak ·) else rest.take (32 * (rest.length / 32))

theorem breakMask_bit (v : List Byte) (i : Nat) :
    (Simd.compToBitmask 32 v b%'\r' ||| Simd.compToBitmask 32 v b%'\n').getLsbD i =
      decide (i < 32 ∧ isBreak (Simd.lane v i) = true) := by
  rw [BitVec.getLsbD_or, Simd.compToBitmask_bit _ _ _ _ (Nat.le_refl _), Simd.compToBitmask_bit _ _ _ _ (Nat.le_refl _)]
  rw [Bool.eq_iff_iff]
  simp only [isBreak, Bool.or_eq_true, decide_eq_true_eq, beq_iff_eq]
  omega

theorem findIdx?_take {p : Byte → Bool} {l : List Byte} {n k : Nat} (h : (l.take n).findIdx? p = some k) :
    l.takeWhile (!p ·) = l.take k ∧ l.any p = true ∧ k < l.length ∧ k < n := by
  rw [List.findIdx?_eq_some_iff_getElem] at h
  obtain ⟨hk, h1, h2⟩ := h
  simp only [List.length_take] at hk
  simp only [List.getElem_take] at h1 h2
  refine ⟨?_, ?_, by omega, by omega⟩
  · have e : l = l.take k ++ l[k]'(by omega) :: l.drop (k + 1) := by
      rw [← List.drop_eq_getElem_cons (by omega), List.take_append_drop]
    have hall : ∀ a ∈ l.take k, (!p a) = true := by
      intro a ha
      obtain ⟨i, hi, rfl⟩ := List.mem_iff_getElem.1 ha
      simp only [List.length_take] at hi
      rw [List.getElem_take]
      have := h2 i (by omega)
      simpa using this
    conv => lhs; rw [e, List.takeWhile_append_of_pos hall]
    rw [List.takeWhile_cons]
    simp only [h1, Bool.not_true, Bool.false_eq_true, if_false, List.append_nil]
  · rw [List.any_eq_true]
    exact ⟨_, List.getElem_mem _, h1⟩

theorem takeWhile_take_of_all {p : Byte → Bool} {l : List Byte} {n : Nat} (h : ∀ c ∈ l.take n, p c = true) :
    l.takeWhile p = l.take n ++ (l.drop n).takeWhile p := by
  conv => lhs; rw [← List.take_append_drop n l]
  rw [List.takeWhile_append_of_pos h]

theorem pushLoop_eq : ∀ (fuel : Nat) (b : Buf) (rest : List Byte), Holds b rest → rest.length < fuel →
    ∃ xs pos b' rest', b.pushLoop fuel = .ok (xs, pos, b') ∧ Holds b' rest' ∧ rest = xs ++ rest' ∧
      ((∃ k, pos = some k ∧ (rest'.take 32).findIdx? isBreak = some k ∧ ∀ c ∈ xs, isBreak c = false) ∨
       (pos = none ∧ rest'.length < 32 ∧ (∀ c ∈ xs, isBreak c = false) ∧ xs.length = 32 * (rest.length / 32)))
  | 0, _, _, _, hf => by omega
  | fuel + 1, b, rest, h, hf => by
    simp only [Buf.pushLoop, getMaxBuf_eq h, bind, Except.bind]
    by_cases hr : rest.length < 32
    · simp only [if_pos hr]
      exact ⟨[], none, b, rest, rfl, h, rfl, .inr ⟨rfl, hr, by simp, by simp; omega⟩⟩
    · simp only [if_neg hr]
      have hl : (rest.take 32).length = 32 := by simp; omega
      by_cases hm : Simd.compToBitmask 32 (rest.take 32) b%'\r' ||| Simd.compToBitmask 32 (rest.take 32) b%'\n' ≠ 0#32
      · rw [if_pos hm]
        have := Simd.trailingZeros_findIdx _ (rest.take 32) isBreak hl (breakMask_bit _) hm
        exact ⟨[], _, b, rest, rfl, h, rfl, .inl ⟨_, rfl, this.1, by simp⟩⟩
      · rw [if_neg hm]
        have hz := Simd.mask_zero_findIdx _ (rest.take 32) isBreak hl (breakMask_bit _) (by simpa using hm)
        have h1 := skip_holds' h 32 (by omega)
        obtain ⟨xs, pos, b', rest', e, hb, hcat, hcase⟩ := pushLoop_eq fuel (b.skip maxLen) (rest.drop 32) h1 (by simp; omega)
        rw [e]
        refine ⟨rest.take 32 ++ xs, pos, b', rest', rfl, hb, ?_, ?_⟩
        · rw [List.append_assoc, ← hcat, List.take_append_drop]
        · have hno : ∀ {ys : List Byte}, (∀ c ∈ ys, isBreak c = false) → ∀ c ∈ rest.take 32 ++ ys, isBreak c = false := by
            intro ys hy c hc
            rcases List.mem_append.1 hc with hc | hc
            · exact hz c hc
            · exact hy c hc
          rcases hcase with ⟨k, h1, h2, h3⟩ | ⟨h1, h2, h3, h4⟩
          · exact .inl ⟨k, h1, h2, hno h3⟩
          · refine .inr ⟨h1, h2, hno h3, ?_⟩
            rw [List.length_append, hl, h4, List.length_drop]
            omega

theorem pushNonBreakzChr_eq {b : Buf} {rest : List Byte} (h : Holds b rest) :
    ∃ b', b.pushNonBreakzChr = .ok (lineOf rest, b') ∧ Holds b' (rest.drop (lineOf rest).length) := by
  obtain ⟨xs, pos, b', rest', e, hb, hcat, hcase⟩ := pushLoop_eq b.size b rest h (by rw [size_eq h]; omega)
  simp only [Buf.pushNonBreakzChr, e, bind, Except.bind, getBuf_eq hb]
  have main : ∀ k, (rest'.take 32).findIdx? isBreak = some k → (∀ c ∈ xs, isBreak c = false) →
      lineOf rest = xs ++ (rest'.take 32).take k ∧ k ≤ 32 ∧ k ≤ rest'.length := by
    intro k hk hx
    obtain ⟨h1, h2, h3, h4⟩ := findIdx?_take hk
    refine ⟨?_, by omega, by omega⟩
    unfold lineOf
    rw [if_pos (by rw [hcat, List.any_append, h2, Bool.or_true])]
    rw [hcat, List.takeWhile_append_of_pos (by intro c hc; simp [hx c hc]), h1, List.take_take, Nat.min_eq_left (by omega)]
  have fin : ∀ k, lineOf rest = xs ++ (rest'.take 32).take k → k ≤ 32 → k ≤ rest'.length →
      Holds (b'.skip k) (rest.drop (lineOf rest).length) := by
    intro k h1 h2 h3
    rw [h1]
    have := skip_holds' hb k h2
    have el : (xs ++ (rest'.take 32).take k).length = xs.length + k := by simp; omega
    rw [el, hcat, ← List.drop_drop, List.drop_left]
    exact this
  rcases hcase with ⟨k, h1, h2, h3⟩ | ⟨h1, h2, h3, h4⟩
  · subst h1
    obtain ⟨g1, g2, g3⟩ := main k h2 h3
    refine ⟨_, ?_, fin k g1 g2 g3⟩
    simp only [Option.getD_some, g1]
  · subst h1
    simp only [Option.getD_none]
    cases hf : (rest'.take 32).findIdx? isBreak with
    | some k =>
      obtain ⟨g1, g2, g3⟩ := main k hf h3
      refine ⟨_, ?_, fin k g1 g2 g3⟩
      simp only [Option.getD_some, g1]
    | none =>
      simp only [Option.getD_none, List.take_zero, List.append_nil]
      have hx : lineOf rest = xs := by
        unfold lineOf
        rw [List.findIdx?_eq_none_iff, List.take_of_length_le (by omega)] at hf
        rw [if_neg]
        · rw [hcat, ← hcat, ← h4, hcat, List.take_left]
        · rw [hcat]
          simp only [List.any_append, Bool.or_eq_true, List.any_eq_true, not_or, not_exists, not_and, Bool.not_eq_true]
          exact ⟨h3, hf⟩
      have := fin 0 (by simpa using hx) (by omega) (by omega)
      refine ⟨_, ?_, this⟩
      rw [hx]

/-! ### White space up to the end of the line -/

/-- the blanks that count as white space -/
def wsByte (skipTab : Bool) (c : Byte) : Bool := c == 32 || (skipTab && c == 9)

theorem flag_ws (skipTab : Bool) (v : List Byte) (hv : IsBytes v) (hl : v.length = 32) (i : Nat) :
    (Simd.flagMask v (0x04 + if skipTab then 1 else 0)).getLsbD i = decide (i < 32 ∧ wsByte skipTab (Simd.lane v i) = true) := by
  rw [Simd.flagMask_bit]
  by_cases h : i < 32
  · have hb : Simd.lane v i < 256 := by
      have e : Simd.lane v i = v[i]'(by omega) := by simp [Simd.lane, hl, h]
      rw [e]
      exact hv _ (List.getElem_mem _)
    congr 1
    cases skipTab
    · have := Simd.cls_space _ hb
      simp only [Bool.false_eq_true, if_false, Nat.add_zero, wsByte, Bool.false_and, Bool.or_false, beq_iff_eq, eq_iff_iff]
      rw [this]
    · have := Simd.cls_blank _ hb
      simp only [if_true, wsByte, Bool.true_and, Bool.or_eq_true, beq_iff_eq, eq_iff_iff]
      rw [this]
  · simp [h]

theorem flag_break (v : List Byte) (hv : IsBytes v) (hl : v.length = 32) (i : Nat) :
    (Simd.flagMask v 0x02).getLsbD i = decide (i < 32 ∧ isBreak (Simd.lane v i) = true) := by
  rw [Simd.flagMask_bit]
  by_cases h : i < 32
  · have hb : Simd.lane v i < 256 := by
      have e : Simd.lane v i = v[i]'(by omega) := by simp [Simd.lane, hl, h]
      rw [e]
      exact hv _ (List.getElem_mem _)
    have := Simd.cls_break _ hb
    congr 1
    rw [eq_iff_iff, this]
  · simp [h]

theorem flag_hash (v : List Byte) (hv : IsBytes v) (hl : v.length = 32) : Simd.flagMask v 0x08 = 0#32 := by
  apply Simd.bv_ext
  intro i h
  rw [Simd.flagMask_bit]
  have hb : Simd.lane v i < 256 := by
    have e : Simd.lane v i = v[i]'(by omega) := by simp [Simd.lane, hl, h]
    rw [e]
    exact hv _ (List.getElem_mem _)
  simp [Simd.cls_hash _ hb]

theorem mask_any {v : List Byte} {p : Byte → Bool} {m : BitVec 32} (hl : v.length = 32)
    (hm : ∀ i, m.getLsbD i = decide (i < 32 ∧ p (Simd.lane v i) = true)) : (m != 0#32) = v.any p := by
  by_cases h : m = 0#32
  · have := Simd.mask_zero_findIdx m v p hl hm h
    rw [h]
    simp only [bne_self_eq_false]
    symm
    rw [List.any_eq_false]
    intro c hc
    simp [this c hc]
  · have := (Simd.trailingZeros_findIdx m v p hl hm h).1
    rw [List.findIdx?_eq_some_iff_getElem] at this
    obtain ⟨hk, h1, _⟩ := this
    have h2 : v.any p = true := List.any_eq_true.2 ⟨_, List.getElem_mem hk, h1⟩
    rw [h2]
    simp [h]

theorem wsLoop_eq (skipTab : Bool) : ∀ (fuel : Nat) (b : Buf) (rest : List Byte) (consumed : Nat) (hasWs : Bool), IsBytes rest →
    Holds b rest → rest.length < fuel →
    ∃ n ws found b' rest', b.wsLoop skipTab fuel consumed hasWs = .ok (consumed + n, ws, found, b') ∧ Holds b' rest' ∧
      ((∃ k xs, found = some k ∧ rest = xs ++ rest' ∧ n = xs.length + k ∧ (rest'.take 32).findIdx? isBreak = some k ∧
          xs.length % 32 = 0 ∧ 32 ≤ rest'.length ∧
          (∀ c ∈ xs, isBreak c = false) ∧ ws = (hasWs || (rest.take (xs.length + 32)).any (wsByte skipTab))) ∨
       (found = none ∧ n = 32 * (rest.length / 32) ∧ rest' = rest.drop n ∧ (∀ c ∈ rest.take n, isBreak c = false) ∧
          ws = (hasWs || (rest.take n).any (wsByte skipTab))))
  | 0, _, _, _, _, _, _, hf => by omega
  | fuel + 1, b, rest, consumed, hasWs, hby, h, hf => by
    simp only [Buf.wsLoop, getMaxBuf_eq h, bind, Except.bind]
    by_cases hr : rest.length < 32
    · simp only [if_pos hr]
      have e0 : rest.length / 32 = 0 := by omega
      exact ⟨0, hasWs, none, b, rest, rfl, h, .inr ⟨rfl, by omega, by simp, by simp, by simp⟩⟩
    · simp only [if_neg hr]
      have hl : (rest.take 32).length = 32 := by simp; omega
      have hv : IsBytes (rest.take 32) := fun c hc => hby c (List.mem_of_mem_take hc)
      rw [flag_hash _ hv hl]
      simp only [BitVec.zero_and, BitVec.zero_or]
      rw [mask_any hl (flag_ws skipTab _ hv hl)]
      by_cases hm : Simd.flagMask (rest.take 32) 0x02 ≠ 0#32
      · rw [if_pos hm]
        have := Simd.trailingZeros_findIdx _ (rest.take 32) isBreak hl (flag_break _ hv hl) hm
        exact ⟨_, _, _, b, rest, rfl, h, .inl ⟨_, [], rfl, rfl, by simp, this.1, by simp, by omega, by simp, by simp⟩⟩
      · rw [if_neg hm]
        have hz := Simd.mask_zero_findIdx _ (rest.take 32) isBreak hl (flag_break _ hv hl) (by simpa using hm)
        have h1 := skip_holds' h 32 (by omega)
        obtain ⟨n, ws, found, b', rest', e, hb, hcase⟩ := wsLoop_eq skipTab fuel (b.skip maxLen) (rest.drop 32) (consumed + maxLen)
          (hasWs || (rest.take 32).any (wsByte skipTab)) (fun c hc => hby c (List.mem_of_mem_drop hc)) h1 (by simp; omega)
        rw [e]
        refine ⟨32 + n, ws, found, b', rest', by simp [maxLen, Nat.add_assoc], hb, ?_⟩
        have split : ∀ m, rest.take (32 + m) = rest.take 32 ++ (rest.drop 32).take m := by
          intro m
          rw [List.take_add]
        rcases hcase with ⟨k, xs, g1, g2, g3, g4, g5, g6, g7, g8⟩ | ⟨g1, g2, g3, g4, g5⟩
        · refine .inl ⟨k, rest.take 32 ++ xs, g1, ?_, ?_, g4, ?_, g6, ?_, ?_⟩
          · rw [List.append_assoc, ← g2, List.take_append_drop]
          · rw [g3, List.length_append, hl]; omega
          · rw [List.length_append, hl]; omega
          · intro c hc
            rcases List.mem_append.1 hc with hc | hc
            · exact hz c hc
            · exact g7 c hc
          · rw [g8, List.length_append, hl, Nat.add_assoc, split, List.any_append, Bool.or_assoc]
        · refine .inr ⟨g1, ?_, ?_, ?_, ?_⟩
          · rw [g2, List.length_drop]; omega
          · rw [g3, List.drop_drop]
          · rw [split]
            intro c hc
            rcases List.mem_append.1 hc with hc | hc
            · exact hz c hc
            · exact g4 c hc
          · rw [g5, split, List.any_append, Bool.or_assoc]

theorem sharedLoop_eq (debug skipTabs : Bool) : ∀ (rounds : Nat) (b : Buf) (rest : List Byte) (consumed : Nat) (anyTabs hasWs : Bool),
    Holds b rest → rest.length + 1 < rounds →
    ∃ b', b.sharedLoop debug skipTabs rounds consumed anyTabs hasWs =
        .ok (consumed + (Source.wsToEol skipTabs rest anyTabs hasWs).1, (Source.wsToEol skipTabs rest anyTabs hasWs).2, b') ∧
      Holds b' (rest.drop (Source.wsToEol skipTabs rest anyTabs hasWs).1)
  | 0, _, _, _, _, _, _, hf => by omega
  | rounds + 1, b, rest, consumed, anyTabs, hasWs, h, hf => by
    simp only [Buf.sharedLoop, peekz_eq h debug 0 (by omega), bind, Except.bind]
    cases rest with
    | nil => exact ⟨b, by simp [Source.wsToEol], h⟩
    | cons c r =>
      have h1 := skip_holds' h 1 (by omega)
      simp only [List.drop_succ_cons, List.drop_zero] at h1
      simp only [List.length_cons] at hf
      simp only [List.getElem?_cons_zero, Option.getD_some]
      unfold Source.wsToEol
      by_cases hc : c = b%' '
      · simp only [if_pos hc]
        obtain ⟨b', e, hb⟩ := sharedLoop_eq debug skipTabs rounds (b.skip 1) r (consumed + 1) anyTabs true h1 (by omega)
        rw [e]
        exact ⟨b', by simp; omega, by simpa using hb⟩
      · simp only [if_neg hc]
        by_cases ht : c = b%'\t' ∧ skipTabs = true
        · simp only [if_pos ht]
          obtain ⟨b', e, hb⟩ := sharedLoop_eq debug skipTabs rounds (b.skip 1) r (consumed + 1) true hasWs h1 (by omega)
          rw [e]
          exact ⟨b', by simp; omega, by simpa using hb⟩
        · simp only [if_neg ht]
          by_cases hh : c = b%'#'
          · simp only [if_pos hh]
            by_cases hw : anyTabs = false ∧ hasWs = false
            · simp only [if_pos hw]
              exact ⟨b, by simp, by simpa using h⟩
            · simp only [if_neg hw]
              obtain ⟨b1, e1, hb1⟩ := consumeWhile_eq debug (!isBreakz ·) (by rfl) (b.skip 1).size (b.skip 1) r h1
                (by rw [size_eq h1]; omega)
              simp only [Buf.skipWhileNonBreakz, e1, Except.map]
              -- the next byte is a break, NUL or the end
              have hstop : (r.drop (r.takeWhile (!isBreakz ·)).length)[0]?.getD 0 = 0 ∨
                  isBreakz ((r.drop (r.takeWhile (!isBreakz ·)).length)[0]?.getD 0) = true := by
                rw [drop_length_takeWhile]
                cases hd : r.dropWhile (!isBreakz ·) with
                | nil => left; rfl
                | cons d q =>
                  right
                  have := List.head?_dropWhile_not (!isBreakz ·) r
                  rw [hd] at this
                  simpa using this
              have hz : ∀ d : Nat, (d = 0 ∨ isBreakz d = true) → d ≠ 32 ∧ d ≠ 9 ∧ d ≠ 35 := by
                intro d hd
                simp only [isBreakz, Bool.or_eq_true, beq_iff_eq] at hd
                omega
              obtain ⟨z1, z2, z3⟩ := hz _ hstop
              cases rounds with
              | zero => omega
              | succ rounds =>
                simp only [Buf.sharedLoop, peekz_eq hb1 debug 0 (by omega), bind, Except.bind]
                rw [if_neg z1, if_neg (by intro hx; exact z2 hx.1), if_neg z3]
                refine ⟨b1, by simp; omega, ?_⟩
                simpa using hb1
          · simp only [if_neg hh]
            exact ⟨b, by simp, by simpa using h⟩

/-- what `skip_ws_to_eol` of the buffered source computes, as a function of the bytes that remain: with a line break in one of the
whole blocks of 32 bytes it stops there whatever came before; otherwise the whole blocks are skipped and the remainder is treated
as by the string source -/
def bufferedWs (skipTab hasWs : Bool) (rest : List Byte) : Nat × Except String (Bool × Bool) :=
  match rest.findIdx? isBreak with
  | some p =>
    if 32 * (p / 32) + 32 ≤ rest.length then
      (p, .ok (false, hasWs || (rest.take (32 * (p / 32) + 32)).any (wsByte skipTab)))
    else
      let k := 32 * (rest.length / 32)
      let x := Source.wsToEol skipTab (rest.drop k) false (hasWs || (rest.take k).any (wsByte skipTab))
      (k + x.1, x.2)
  | none =>
    let k := 32 * (rest.length / 32)
    let x := Source.wsToEol skipTab (rest.drop k) false (hasWs || (rest.take k).any (wsByte skipTab))
    (k + x.1, x.2)

theorem skipWsToEol_eq {b : Buf} {rest : List Byte} (h : Holds b rest) (hby : IsBytes rest) (debug skipTab hasWs : Bool) :
    ∃ b', b.skipWsToEol debug skipTab hasWs = .ok ((bufferedWs skipTab hasWs rest).1, (bufferedWs skipTab hasWs rest).2, b') ∧
      Holds b' (rest.drop (bufferedWs skipTab hasWs rest).1) := by
  obtain ⟨n, ws, found, b', rest', e, hb, hcase⟩ := wsLoop_eq skipTab b.size b rest 0 hasWs hby h (by rw [size_eq h]; omega)
  simp only [Buf.skipWsToEol, e, bind, Except.bind, Nat.zero_add]
  rcases hcase with ⟨k, xs, g1, g2, g3, g4, g5, g6, g7, g8⟩ | ⟨g1, g2, g3, g4, g5⟩
  · subst g1
    obtain ⟨f1, f2, f3, f4⟩ := findIdx?_take g4
    have hfind : rest.findIdx? isBreak = some n := by
      rw [g2, List.findIdx?_append]
      have : xs.findIdx? isBreak = none := by
        rw [List.findIdx?_eq_none_iff]
        exact g7
      rw [this]
      have h4 : rest'.findIdx? isBreak = some k := by
        have h4 := g4
        rw [List.findIdx?_eq_some_iff_getElem] at h4 ⊢
        obtain ⟨a1, a2, a3⟩ := h4
        refine ⟨f3, ?_, ?_⟩
        · simpa using a2
        · intro j hj
          have := a3 j hj
          simpa using this
      rw [h4, g3]
      simp
      omega
    have hlen : rest.length = xs.length + rest'.length := by rw [g2]; simp
    have hdiv : 32 * (n / 32) = xs.length := by omega
    unfold bufferedWs
    rw [hfind]
    simp only []
    rw [hdiv, if_pos (by omega)]
    refine ⟨_, by rw [g8], ?_⟩
    have := skip_holds' hb k (by omega)
    simp only []
    rw [g3, g2, ← List.drop_drop, List.drop_left]
    exact this
  · subst g1
    have key : bufferedWs skipTab hasWs rest =
        (n + (Source.wsToEol skipTab (rest.drop n) false ws).1, (Source.wsToEol skipTab (rest.drop n) false ws).2) := by
      unfold bufferedWs
      cases hfi : rest.findIdx? isBreak with
      | none => simp only []; rw [← g2, ← g5]
      | some p =>
        simp only []
        rw [if_neg, ← g2, ← g5]
        intro hle
        rw [List.findIdx?_eq_some_iff_getElem] at hfi
        obtain ⟨a1, a2, a3⟩ := hfi
        have hp : p < n := by omega
        have hm : rest[p] ∈ rest.take n := by
          rw [List.mem_take_iff_getElem]
          exact ⟨p, by omega, rfl⟩
        have := g4 _ hm
        simp [this] at a2
    have h0 := skip_holds' hb 0 (by omega)
    rw [List.drop_zero] at h0
    obtain ⟨b2, e2, hb2⟩ := sharedLoop_eq debug skipTab (b'.size + 1) (b'.skip 0) rest' n false ws h0
      (by rw [size_eq hb]; omega)
    rw [key]
    simp only []
    rw [e2, g3]
    refine ⟨b2, rfl, ?_⟩
    rw [g3, List.drop_drop] at hb2
    exact hb2

end Verif.Buffered
