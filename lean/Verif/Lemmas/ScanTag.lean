import Verif.Lemmas.ScanEntries
import Verif.Spec.Tags
/-!
# Scanning a tag
-/
namespace Verif.Scanner
open Verif Verif.CharUtils Verif.Source Verif.Emitter

theorem tagByte_iff {b : Byte} : Spec.TagByte b ↔ isTagChar b = true ∧ b ≠ 37 := by
  simp only [Spec.TagByte, isTagChar, isUriChar, isWordChar, isAsciiAlphanumeric, isFlow, List.contains_iff_mem, Bool.and_eq_true, Bool.or_eq_true, Bool.not_eq_true',
    List.mem_cons, List.not_mem_nil, decide_eq_true_eq, beq_iff_eq, bne_iff_ne, Bool.or_eq_false_iff, beq_eq_false_iff_ne, or_false]
  omega

theorem suffix_run {cfg : Cfg} {m post} (hp : ∀ c, post.head? = some c → isTagChar c = false) : ∀ {w : List Byte} {k n str s}, (∀ b ∈ w, Spec.TagByte b) →
    s.src.rest = w ++ post → w.length < k → loopM (suffixBody cfg m) k (n, str) s = (.ok (n + w.length, str ++ w), if w = [] then s else on s w.length) := by
  intro w
  induction w with
  | nil =>
    intro k n str s _ hr hk
    obtain ⟨k, rfl⟩ : ∃ j, k = j + 1 := ⟨k - 1, by omega⟩
    have h0 := peekz_head hr
    have : isTagChar (s.src.peekz 0) = false := by
      rw [h0]
      cases post with
      | nil => rfl
      | cons c _ => exact hp c rfl
    rw [loop_done (b := (n, str)) (s1 := s) (by unfold suffixBody; ev [this])]
    simp
  | cons a w ih =>
    intro k n str s hw hr hk
    obtain ⟨k, rfl⟩ : ∃ j, k = j + 1 := ⟨k - 1, by omega⟩
    have h0 : s.src.peekz 0 = a := peekz_cons hr
    obtain ⟨h1, h2⟩ := tagByte_iff.1 (hw a (by simp))
    rw [loop_next (b := (n + 1, str ++ [a])) (s1 := on s 1) (by unfold suffixBody; ev [h0, h1, h2]; rw [bind_run (skipNonBlank_on _)]; rfl)]
    rw [ih (fun b hb => hw b (by simp [hb])) (s := on s 1) (on_rest (w := [a]) hr rfl) (by simp at hk; omega)]
    by_cases hw0 : w = []
    · subst hw0; simp
    · rw [if_neg hw0, if_neg (by simp), on_on]
      simp [Nat.add_assoc, Nat.add_comm 1]

theorem takeWhile_split {α} (p : α → Bool) : ∀ l : List α, ∃ r, l = l.takeWhile p ++ r ∧ ∀ c, r.head? = some c → p c = false
  | [] => ⟨[], rfl, by simp⟩
  | a :: l => by
    by_cases h : p a = true
    · obtain ⟨r, h1, h2⟩ := takeWhile_split p l
      exact ⟨r, by rw [List.takeWhile_cons_of_pos h, List.cons_append, ← h1], h2⟩
    · exact ⟨a :: l, by rw [List.takeWhile_cons_of_neg h]; rfl, by intro c hc; simp at hc; subst hc; simpa using h⟩

/-- `!suffix` before white space -/
theorem scanTag_local {cfg : Cfg} {s : SSt} {suf b r} (hne : suf ≠ []) (ht : ∀ x ∈ suf, Spec.TagByte x) (hb : b = 32 ∨ b = 10)
    (hr : s.src.rest = 33 :: (suf ++ b :: r)) (hf : suf.length < cfg.fuel) :
    scanTag cfg s = (.ok ⟨⟨s.mark, (on s (suf.length + 1)).mark⟩, .tag [33] suf⟩, on s (suf.length + 1)) := by
  have hbt : isTagChar b = false ∧ isAlpha b = false := by rcases hb with rfl | rfl <;> decide
  have h0 : s.src.peekz 0 = 33 := peekz_cons hr
  have h1 : s.src.nextNextByteIs 60 = false := by
    cases suf with
    | nil => exact absurd rfl hne
    | cons a suf =>
      have : s.src.peekz 1 = a := by simp [Src.peekz, hr]
      simp only [Src.nextNextByteIs, this, beq_eq_false_iff_ne]
      rintro rfl
      exact absurd (ht 60 (by simp)) (by decide)
  obtain ⟨w2, hsplit, hw2⟩ := takeWhile_split isAlpha suf
  generalize hal : suf.takeWhile isAlpha = al at hsplit
  have hrest1 : (on s 1).src.rest = suf ++ b :: r := on_rest (w := [33]) hr rfl
  have htw : (suf ++ b :: r).takeWhile isAlpha = al := by
    rw [← hal]
    clear hsplit hw2 hal hr hrest1 hf h0 h1 hne
    induction suf with
    | nil => simp [hbt.2]
    | cons a suf ih =>
      have := ih fun x hx => ht x (by simp [hx])
      by_cases ha : isAlpha a = true
      · simp [ha, this]
      · simp [ha]
  have hfa : fetchAlpha (on s 1) = (.ok al, on s (al.length + 1)) := by
    unfold fetchAlpha Src.fetchWhileIsAlpha
    simp only [hrest1, htw]
    simp [on, Src.skip, Nat.add_assoc, Nat.add_comm 1]
  have hrest2 : (on s (al.length + 1)).src.rest = w2 ++ b :: r := on_rest (w := 33 :: al) (by rw [hr, hsplit]; simp) (by simp)
  have hp2 : (on s (al.length + 1)).src.peekz 0 ≠ 33 := by
    rw [peekz_head hrest2]
    cases w2 with
    | nil => simp; rcases hb with rfl | rfl <;> decide
    | cons a w2 =>
      have := ht a (by rw [hsplit]; simp)
      simp
      rintro rfl
      exact absurd this (by decide)
  have hhandle : scanTagHandle false s.mark s = (.ok (33 :: al), on s (al.length + 1)) := by
    unfold scanTagHandle
    ev [h0]
    rw [bind_run (show failIf _ _ _ s = (.ok (), s) from rfl), bind_run (skipNonBlank_on _), bind_run hfa]
    ev [hp2]
    rfl
  have hgl : ¬ ((33 :: al).length ≥ 2 ∧ (33 :: al).head? = some b%'!' ∧ (33 :: al).getLast? = some b%'!') := by
    rintro ⟨h2, -, h3⟩
    cases hx : al with
    | nil => rw [hx] at h2; simp at h2
    | cons a al' =>
      rw [hx] at h3
      have h4 : (a :: al').getLast? = some 33 := by simpa using h3
      have : (33 : Nat) ∈ al := by rw [hx]; exact List.mem_of_getLast? h4
      exact absurd (ht 33 (by rw [hsplit]; simp [this])) (by decide)
  have hsuf : scanTagSuffix cfg (33 :: al) s.mark (on s (al.length + 1)) = (.ok suf, on s (suf.length + 1)) := by
    unfold scanTagSuffix
    have hstr : (if (33 :: al).length > 1 then (33 :: al).drop 1 else []) = al := by
      cases al <;> simp
    rw [hstr]
    have hlen : suf.length = al.length + w2.length := by rw [hsplit]; simp
    rw [bind_run (suffix_run (w := w2) (by intro c hc; simp at hc; subst hc; exact hbt.1) (fun x hx => ht x (by rw [hsplit]; simp [hx])) hrest2 (by omega))]
    have hst : (if w2 = [] then on s (al.length + 1) else on (on s (al.length + 1)) w2.length) = on s (suf.length + 1) := by
      by_cases hx : w2 = []
      · rw [if_pos hx, hlen, hx]; rfl
      · rw [if_neg hx, on_on, hlen]; congr 1; omega
    have hz : (((33 :: al).length + w2.length, suf).fst == 0) = false := by simp
    rw [hst, ← hsplit]
    ev [hz]
  have hpost : isBlankOrBreakz ((on s (suf.length + 1)).src.peekz 0) = true := by
    have : (on s (suf.length + 1)).src.rest = b :: r := on_rest (w := 33 :: suf) (by rw [hr]; simp) (by simp)
    rw [peekz_cons this]
    rcases hb with rfl | rfl <;> decide
  unfold scanTag scanTagParts
  have hse : suf.isEmpty = false := by simpa using hne
  ev [h1]
  rw [bind_run hhandle, if_neg hgl, bind_run hsuf]
  ev [hse, hpost, Bool.true_or]
  rfl

/-- between a tag at column `c` with a suffix of `n` bytes and the node at column `c'` -/
def TGap (w : List Byte) (c n c' : Nat) : Prop := (w = [32] ∧ c' = c + n + 2) ∨ (w = 32 :: 10 :: List.replicate (c' - 1) 32 ∧ 1 ≤ c')

theorem TGap.bytes {w c n c'} (h : TGap w c n c') : ∀ b ∈ w, b = 32 ∨ b = 10 := by
  rcases h with ⟨rfl, rfl⟩ | ⟨rfl, h⟩
  · simp
  · intro b hb
    simp only [List.mem_cons, List.mem_replicate] at hb
    omega

/-- a tag in front of a node -/
theorem tag_goes {cfg s out I i i0 I0 suf w q c c' al} (h : Here cfg s out I i (33 :: (suf ++ (w ++ q))) c al)
    (hne : suf ≠ []) (ht : ∀ x ∈ suf, Spec.TagByte x) (hx : BCtx I i i0 I0) (hi : i0 < c) (hi' : i ≤ c') (hl : c' ≠ 1 ∨ i = 0)
    (hv : TGap w c suf.length c') (hq : TokenHead q) (hq0 : q ≠ []) (hqm : ¬ DocMark q) (hf : (33 :: (suf ++ (w ++ q))).length < cfg.fuel) :
    Goes cfg s (33 :: (suf ++ (w ++ q))).length (out ++ [.tag [33] suf]) I i q c' (w.contains 10) := by
  obtain ⟨s2, hp, e⟩ := fetch_here h (by simp) (fun _ => ⟨33, _, rfl, by decide, by decide, by simp⟩)
  have h0 : s2.src.peekz 0 = 33 := peekz_cons hp.rest
  have em : fetchMain cfg s2 = fetchTag cfg s2 := by
    unfold fetchMain
    ev [h0]
    simp
  obtain ⟨b, r, hw, hb⟩ : ∃ b r, w ++ q = b :: r ∧ (b = 32 ∨ b = 10) := by
    rcases hv with ⟨rfl, -⟩ | ⟨rfl, -⟩
    · exact ⟨_, _, rfl, .inl rfl⟩
    · exact ⟨_, _, rfl, .inl rfl⟩
  generalize hA : ({ s2 with simpleKeys := savedKeys s2, simpleKeyAllowed := false } : SSt) = A
  have a1 : A.src.rest = 33 :: (suf ++ b :: r) := by rw [← hA]; show s2.src.rest = _; rw [hp.rest, hw]
  have a2 : A.mark = s2.mark := by rw [← hA]
  have hscan := scanTag_local (cfg := cfg) hne ht hb a1 (by simp at hf; omega)
  generalize hC : ({ on A (suf.length + 1) with tokens := A.tokens ++ [⟨⟨A.mark, (on A (suf.length + 1)).mark⟩, .tag [33] suf⟩] } : SSt) = C
  have efin : fetchMain cfg s2 = (.ok (), C) := by
    rw [em]
    unfold fetchTag setAllowed
    rw [bind_run (save_run s2)]
    ev []
    rw [hA, bind_run hscan, ← hC]
    rfl
  refine Goes.one (e.trans efin) ?_ (by simp; omega)
  have htC : types C = out ++ [.tag [33] suf] := by
    rw [← hC, ← hA]; simp [types]; exact hp.toks
  have hrC : C.src.rest = w ++ q := by
    rw [hw, ← hC]; exact on_rest (w := 33 :: suf) (by rw [a1]; simp) (by simp)
  have hmC : C.mark = ⟨s2.mark.pos + (suf.length + 1), s2.mark.col + (suf.length + 1), s2.mark.line⟩ := by
    rw [← hC]; simp [on, a2]
  have haC : C.simpleKeyAllowed = false := by rw [← hC, ← hA]; rfl
  have hsv : ∃ k', savedKeys s2 = [k'] ∧ (k'.possible = true → k'.required = false ∧ k'.mark.line ≤ s2.mark.line) := by
    obtain ⟨k, hk, hkp⟩ := hp.keys
    unfold savedKeys
    split
    · exact ⟨keyHere s2, by simp [hk], fun _ => ⟨BCtx.notRequired (by rw [hp.indents, hp.indent]; exact hx) hp.col hi, Nat.le_refl _⟩⟩
    · exact ⟨k, hk, fun hx => ⟨(hkp hx).1, (hkp hx).2.2⟩⟩
  obtain ⟨k', hk', hkp'⟩ := hsv
  have hgm : (gapMark C.mark w).col = c' ∧ (w.contains 10 = false ∧ (gapMark C.mark w).line = s2.mark.line ∨ s2.mark.line < (gapMark C.mark w).line) := by
    rcases hv with ⟨rfl, rfl⟩ | ⟨rfl, h1⟩
    · refine ⟨?_, .inl ⟨rfl, ?_⟩⟩ <;> simp [gapMark, hmC, hp.col]; omega
    · have : gapMark C.mark (32 :: 10 :: List.replicate (c' - 1) 32) = gapMark { C.mark with pos := C.mark.pos + 1, col := C.mark.col + 1 } (10 :: List.replicate (c' - 1) 32) := by
        simp [gapMark]
      rw [this, gapMark_line]
      refine ⟨?_, .inr ?_⟩
      · show 1 + (c' - 1) = c'; omega
      · simp [hmC]
  have := here_gap (cfg := cfg) (s := C) (w := w) (q := q) (c := c') (k := k') (I := I) (i := i) (n := 0)
    hv.bytes hrC hq (by simp at hf ⊢; omega)
    (by rw [← hC, ← hA]; exact ⟨hp.calm.level, hp.calm.impl, hp.calm.parsed, hp.calm.started, hp.calm.fit.skip (by simp [hp.rest])⟩)
    (fun _ => hgm.1)
    (by rw [lowCol_eq hq0 hqm, ← hC, ← hA]; show unroll c' s2.indent s2.indents = _; rw [hp.indent, hp.indents]; exact unroll_ok hi')
    (by rw [← hC, ← hA]; exact hk')
    (fun hx => ⟨(hkp' hx).1, fun _ => by
      have h2 := (hkp' hx).2
      rcases hgm.2 with ⟨h3, h4⟩ | h3
      · exact .inr ⟨by rw [haC, h3]; rfl, by omega⟩
      · exact .inl (by omega)⟩)
    (fun _ _ _ _ => hl)
  rw [htC, haC] at this
  simpa using this

end Verif.Scanner
