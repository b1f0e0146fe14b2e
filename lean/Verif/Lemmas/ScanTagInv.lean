import Verif.Lemmas.ScanTag
/-!
# What a scanned tag was written as
-/
namespace Verif.Scanner
open Verif Verif.CharUtils Verif.Source Verif.Emitter

/-- from `s` to `s'` the bytes `w` were read, none of them a space or a line feed -/
def Eaten (s s' : SSt) (w : List Byte) : Prop := s.src.rest = w ++ s'.src.rest ∧ 32 ∉ w ∧ 10 ∉ w

theorem Eaten.refl (s : SSt) : Eaten s s [] := ⟨rfl, by simp⟩

theorem Eaten.trans {a b c : SSt} {v w} (h1 : Eaten a b v) (h2 : Eaten b c w) : Eaten a c (v ++ w) :=
  ⟨by rw [h1.1, h2.1]; simp, by simp [h1.2.1, h2.2.1], by simp [h1.2.2, h2.2.2]⟩

theorem rest_of_peekz {s : SSt} {c} (h : s.src.peekz 0 = c) (hc : c ≠ 0) : ∃ r, s.src.rest = c :: r := by
  cases hr : s.src.rest with
  | nil => simp [Src.peekz, hr] at h; exact absurd h.symm hc
  | cons a r => simp [Src.peekz, hr] at h; exact ⟨r, by rw [h]⟩

theorem failIf_ok {b m msg} {s s' : SSt} {u} (h : failIf b m msg s = (.ok u, s')) : b = false ∧ s' = s := by
  cases b with
  | false => cases h; exact ⟨rfl, rfl⟩
  | true => cases h

theorem skipNonBlank_ok {s s' : SSt} {u} (h : skipNonBlank s = (.ok u, s')) : s' = on s 1 := by
  rw [skipNonBlank_on] at h; cases h; rfl

theorem asHex_lt {c n} (h : asHex c = some n) : n < 16 := by
  unfold asHex at h
  split at h
  · cases h; omega
  · split at h
    · cases h; omega
    · split at h
      · cases h; omega
      · cases h

theorem uriStep_ok {width code s r s'} (h : uriStep width code s = (.ok r, s')) :
    s'.src = s.src.skip 3 ∧ ((∃ y, r = .next y ∧ 1 ≤ y.1) ∨ r = .done code) := by
  unfold uriStep skipN at h
  rw [upd_bind] at h
  split at h
  · cases h
  · split at h
    · cases h; exact ⟨rfl, .inr rfl⟩
    · cases h; exact ⟨rfl, .inl ⟨_, rfl, by dsimp only; omega⟩⟩

/-- one escape -/
theorem uriBody_ok {m x s r s'} (h : uriBody m x s = (.ok r, s')) :
    ∃ w, Eaten s s' w ∧ w.length = 3 ∧ ((∃ y, r = .next y ∧ 1 ≤ y.1) ∨ ∃ code, r = .done code ∧ (x.1 = 0 → code < 256)) := by
  unfold uriBody at h
  rw [peekz_bind, peekz_bind, peekz_bind] at h
  obtain ⟨u, s1, h1, h'⟩ := bind_ok h
  clear h
  obtain ⟨h1, rfl⟩ := failIf_ok h1
  have h := h'; clear h'
  simp only [Bool.not_eq_false', Bool.and_eq_true, beq_iff_eq] at h1
  obtain ⟨⟨h0, hc⟩, hn⟩ := h1
  have hex : ∀ {c}, isAsciiHexdigit c = true → c ≠ 0 ∧ c ≠ 32 ∧ c ≠ 10 := by
    intro c hc
    simp only [isAsciiHexdigit, Bool.or_eq_true, Bool.and_eq_true, decide_eq_true_eq] at hc
    omega
  obtain ⟨r0, hr0⟩ := rest_of_peekz h0 (by decide)
  obtain ⟨c, nc, r', hr⟩ : ∃ c nc r', s1.src.rest = 37 :: c :: nc :: r' := by
    match r0, hr0 with
    | [], hr0 => simp [Src.peekz, hr0] at hc; exact absurd rfl (hex hc).1
    | [c], hr0 => simp [Src.peekz, hr0] at hn; exact absurd rfl (hex hn).1
    | c :: nc :: r', hr0 => exact ⟨c, nc, r', hr0⟩
  have e1 : s1.src.peekz 1 = c := by simp [Src.peekz, hr]
  have e2 : s1.src.peekz 2 = nc := by simp [Src.peekz, hr]
  rw [e1] at hc
  rw [e2] at hn
  rw [e1, e2] at h
  have hsk : ∀ s2 : SSt, s2.src = s1.src.skip 3 → Eaten s1 s2 [37, c, nc] := by
    intro s2 hs
    have := (hex hc).2
    have := (hex hn).2
    refine ⟨by rw [hs]; simp [Src.skip, hr], ?_, ?_⟩ <;> simp <;> omega
  cases hh1 : asHex c with
  | none => rw [hh1] at h; cases h
  | some hh =>
  cases hh2 : asHex nc with
  | none => rw [hh1, hh2] at h; cases h
  | some ll =>
    rw [hh1, hh2] at h
    have l1 := asHex_lt hh1
    have l2 := asHex_lt hh2
    try dsimp only at h
    split at h
    · cases hwd : utf8Width (hh * 16 + ll) with
      | none => rw [hwd] at h; cases h
      | some wd =>
        rw [hwd] at h
        obtain ⟨a, b⟩ := uriStep_ok h
        refine ⟨_, hsk _ a, rfl, ?_⟩
        rcases b with b | b
        · exact .inl b
        · exact .inr ⟨_, b, fun _ => by omega⟩
    · split at h
      · obtain ⟨a, b⟩ := uriStep_ok h
        refine ⟨_, hsk _ a, rfl, ?_⟩
        rcases b with b | b
        · exact .inl b
        · exact .inr ⟨_, b, fun hx => by contradiction⟩
      · cases h

theorem uriLoop_ok {m} : ∀ {k x s code s'}, loopM (uriBody m) k x s = (.ok code, s') →
    ∃ w, Eaten s s' w ∧ 3 ≤ w.length ∧ (x.1 = 0 → w.length < 6 → code < 256) := by
  intro k
  induction k with
  | zero => intro x s code s' h; cases h
  | succ k ih =>
    intro x s code s' h
    rw [loopM] at h
    obtain ⟨r, s1, h1, h2⟩ := bind_ok h
    obtain ⟨w, hw, hl, hr⟩ := uriBody_ok h1
    rcases hr with ⟨y, rfl, hy⟩ | ⟨c, rfl, hc⟩
    · obtain ⟨w2, hw2, hl2, -⟩ := ih h2
      exact ⟨w ++ w2, hw.trans hw2, by simp; omega, fun _ hx => by simp at hx; omega⟩
    · cases h2
      exact ⟨w, hw, by omega, fun hx _ => hc hx⟩

theorem escapes_ok {cfg m s o s'} (h : scanUriEscapes cfg m s = (.ok o, s')) : ∃ w, Eaten s s' w ∧ o.length < w.length := by
  unfold scanUriEscapes at h
  obtain ⟨code, s1, h1, h⟩ := bind_ok h
  obtain ⟨w, hw, hl, hc⟩ := uriLoop_ok h1
  cases hch : Utf8.charFromU32 code with
  | none => rw [hch] at h; cases h
  | some ch =>
    rw [hch] at h
    cases h
    refine ⟨w, hw, ?_⟩
    have hch' : ch = code := by
      unfold Utf8.charFromU32 at hch
      split at hch
      · cases hch; rfl
      · cases hch
    subst hch'
    by_cases h6 : w.length < 6
    · have := hc rfl h6
      unfold Utf8.encode
      split
      · simp; omega
      · split
        · simp; omega
        · omega
    · unfold Utf8.encode
      repeat' split
      all_goals simp; omega

/-- the bytes `w` read as `o`: shorter, or the same, without escapes -/
def Plainly (p : Byte → Prop) (w o : List Byte) : Prop := o.length < w.length ∨ (o = w ∧ ∀ b ∈ w, p b)

theorem Plainly.append {p w o w' o'} (h1 : Plainly p w o) (h2 : Plainly p w' o') : Plainly p (w ++ w') (o ++ o') := by
  unfold Plainly at *
  rcases h1 with h1 | ⟨rfl, h1⟩
  · left
    rcases h2 with h2 | ⟨rfl, h2⟩ <;> simp <;> omega
  · rcases h2 with h2 | ⟨rfl, h2⟩
    · left; simp; omega
    · right
      refine ⟨rfl, fun b hb => ?_⟩
      rcases List.mem_append.1 hb with hb | hb
      · exact h1 b hb
      · exact h2 b hb

theorem on_eaten {s : SSt} {c r} (h : s.src.rest = c :: r) (hc : c ≠ 32 ∧ c ≠ 10) : Eaten s (on s 1) [c] :=
  ⟨by simp [on, Src.skip, h], by simpa using fun h => hc.1 h.symm, by simpa using fun h => hc.2 h.symm⟩

theorem tagChar_ne {c} (h : isTagChar c = true) : c ≠ 0 ∧ c ≠ 32 ∧ c ≠ 10 := by
  refine ⟨?_, ?_, ?_⟩ <;> rintro rfl <;> revert h <;> decide

theorem uriChar_ne {c} (h : isUriChar c = true) : c ≠ 0 ∧ c ≠ 32 ∧ c ≠ 10 := by
  refine ⟨?_, ?_, ?_⟩ <;> rintro rfl <;> revert h <;> decide

theorem suffixLoop_ok {cfg m} : ∀ {k x s y s'}, loopM (suffixBody cfg m) k x s = (.ok y, s') →
    ∃ w o, Eaten s s' w ∧ y.2 = x.2 ++ o ∧ Plainly Spec.TagByte w o := by
  intro k
  induction k with
  | zero => intro x s y s' h; cases h
  | succ k ih =>
    intro x s y s' h
    rw [loopM] at h
    obtain ⟨r, s1, h1, h2⟩ := bind_ok h
    unfold suffixBody at h1
    rw [peekz_bind] at h1
    split at h1
    · rename_i hc
      obtain ⟨r0, hr⟩ := rest_of_peekz rfl (tagChar_ne hc).1
      split at h1
      · rename_i h37
        obtain ⟨e, s2, h3, h4⟩ := bind_ok h1
        cases h4
        obtain ⟨w, hw, hl⟩ := escapes_ok h3
        obtain ⟨w2, o2, hw2, hy, hp⟩ := ih h2
        exact ⟨w ++ w2, e ++ o2, hw.trans hw2, by rw [hy]; simp, Plainly.append (.inl hl) hp⟩
      · rename_i h37
        obtain ⟨e, s2, h3, h4⟩ := bind_ok h1
        cases h4
        obtain rfl := skipNonBlank_ok h3
        obtain ⟨w2, o2, hw2, hy, hp⟩ := ih h2
        have htb := tagByte_iff.2 ⟨hc, h37⟩
        exact ⟨_, _, (on_eaten hr (tagChar_ne hc).2).trans hw2, by rw [hy]; simp,
          Plainly.append (w := [s.src.peekz 0]) (o := [s.src.peekz 0]) (.inr ⟨rfl, by simpa using htb⟩) hp⟩
    · cases h1; cases h2
      exact ⟨[], [], .refl _, by simp, .inr ⟨rfl, by simp⟩⟩

theorem uriCharsLoop_ok {cfg m} : ∀ {k x s y s'}, loopM (uriCharsBody cfg m) k x s = (.ok y, s') →
    ∃ w o, Eaten s s' w ∧ y = x ++ o ∧ o.length ≤ w.length := by
  intro k
  induction k with
  | zero => intro x s y s' h; cases h
  | succ k ih =>
    intro x s y s' h
    rw [loopM] at h
    obtain ⟨r, s1, h1, h2⟩ := bind_ok h
    unfold uriCharsBody at h1
    rw [peekz_bind] at h1
    split at h1
    · rename_i hc
      obtain ⟨r0, hr⟩ := rest_of_peekz rfl (uriChar_ne hc).1
      obtain ⟨e, s2, h3, h4⟩ := bind_ok h1
      cases h4
      obtain ⟨w2, o2, hw2, hy, hp⟩ := ih h2
      unfold uriScansOrNonBlank at h3
      rw [gets_bind] at h3
      have hpc : s.src.peekChecked 0 = some (s.src.peekz 0) := by
        unfold Src.peekChecked; rw [hr]; rfl
      rw [hpc] at h3
      try dsimp only at h3
      split at h3
      · obtain ⟨e', s3, h5, h6⟩ := bind_ok h3
        cases h6
        obtain ⟨w, hw, hl⟩ := escapes_ok h5
        exact ⟨w ++ w2, e' ++ o2, hw.trans hw2, by rw [hy]; simp, by simp; omega⟩
      · obtain ⟨e', s3, h5, h6⟩ := bind_ok h3
        cases h6
        obtain rfl := skipNonBlank_ok h5
        exact ⟨_, _, (on_eaten hr (uriChar_ne hc).2).trans hw2, by rw [hy]; simp; rfl, by simp; omega⟩
    · cases h1; cases h2
      exact ⟨[], [], .refl _, by simp, by simp⟩

theorem takeWhile_drop {p : Byte → Bool} : ∀ l : List Byte, l = l.takeWhile p ++ l.drop (l.takeWhile p).length
  | [] => rfl
  | a :: l => by
    by_cases h : p a = true
    · simp only [List.takeWhile_cons, h, if_true, List.length_cons, List.drop_succ_cons, List.cons_append]
      rw [← takeWhile_drop l]
    · simp [h]

theorem alpha_ne {c} (h : isAlpha c = true) : c ≠ 0 ∧ c ≠ 32 ∧ c ≠ 10 := by
  refine ⟨?_, ?_, ?_⟩ <;> rintro rfl <;> revert h <;> decide

theorem alpha_tagByte {c} (h : isAlpha c = true) : Spec.TagByte c := by
  simp only [isAlpha, Bool.or_eq_true, Bool.and_eq_true, decide_eq_true_eq, beq_iff_eq] at h
  unfold Spec.TagByte
  rcases h with (((h | h) | h) | rfl) | rfl
  · exact .inl h
  · exact .inr (.inr (.inl h))
  · exact .inr (.inl h)
  · exact .inr (.inr (.inr (by decide)))
  · exact .inr (.inr (.inr (by decide)))

theorem fetchAlpha_ok {s al s'} (h : fetchAlpha s = (.ok al, s')) : Eaten s s' al ∧ ∀ b ∈ al, isAlpha b = true := by
  unfold fetchAlpha Src.fetchWhileIsAlpha at h
  cases h
  have ha : ∀ b ∈ s.src.rest.takeWhile isAlpha, isAlpha b = true := fun b hb => by
    have := List.all_takeWhile (l := s.src.rest) (p := isAlpha)
    exact List.all_eq_true.1 this b hb
  exact ⟨⟨takeWhile_drop _, fun h => (alpha_ne (ha _ h)).2.1 rfl, fun h => (alpha_ne (ha _ h)).2.2 rfl⟩, ha⟩

theorem handle_ok {m s hd s'} (h : scanTagHandle false m s = (.ok hd, s')) :
    ∃ al, (∀ b ∈ al, isAlpha b = true) ∧ Eaten s s' hd ∧ (hd = 33 :: al ++ [33] ∨ (hd = 33 :: al ∧ s'.src.peekz 0 ≠ 33)) := by
  unfold scanTagHandle at h
  rw [peekz_bind] at h
  obtain ⟨_, s0, h0, h'⟩ := bind_ok h
  clear h
  obtain ⟨h0, rfl⟩ := failIf_ok h0
  have h := h'; clear h'
  simp only [bne_eq_false_iff_eq] at h0
  obtain ⟨r, hr⟩ := rest_of_peekz h0 (by decide)
  obtain ⟨_, s1, h1, h⟩ := bind_ok h
  obtain rfl := skipNonBlank_ok h1
  obtain ⟨al, s2, h2, h⟩ := bind_ok h
  obtain ⟨he, ha⟩ := fetchAlpha_ok h2
  have he := (on_eaten hr (by decide)).trans he
  rw [peekz_bind] at h
  refine ⟨al, ha, ?_⟩
  split at h
  · rename_i hc
    obtain ⟨r2, hr2⟩ := rest_of_peekz hc (by decide)
    obtain ⟨_, s3, h3, h⟩ := bind_ok h
    obtain rfl := skipNonBlank_ok h3
    cases h
    exact ⟨he.trans (on_eaten hr2 (by decide)), .inl rfl⟩
  · rename_i hc
    obtain ⟨_, s3, h3, h'⟩ := bind_ok h
    clear h
    obtain ⟨-, rfl⟩ := failIf_ok h3
    have h := h'; clear h'
    cases h
    exact ⟨he, .inr ⟨rfl, hc⟩⟩

theorem verbatim_ok {cfg m s o s'} (h1 : s.src.nextNextByteIs 60 = true) (h0 : s.src.peekz 0 = 33) (h : scanVerbatimTag cfg m s = (.ok o, s')) :
    ∃ w, Eaten s s' w ∧ o.length + 3 ≤ w.length := by
  obtain ⟨r, hr⟩ := rest_of_peekz h0 (by decide)
  obtain ⟨r', rfl⟩ : ∃ r', r = 60 :: r' := by
    simp only [Src.nextNextByteIs, beq_iff_eq, Src.peekz, hr] at h1
    cases r with
    | nil => simp at h1
    | cons a r => simp at h1; exact ⟨r, by rw [h1]⟩
  unfold scanVerbatimTag at h
  obtain ⟨_, s1, h1, h⟩ := bind_ok h
  obtain rfl := skipNonBlank_ok h1
  obtain ⟨_, s1, h1, h⟩ := bind_ok h
  obtain rfl := skipNonBlank_ok h1
  have hr1 : (on s 1).src.rest = 60 :: r' := on_rest (w := [33]) hr rfl
  obtain ⟨y, s2, h2, h⟩ := bind_ok h
  obtain ⟨w, o', hw, hy, hl⟩ := uriCharsLoop_ok h2
  rw [peekz_bind] at h
  obtain ⟨_, s3, h3, h'⟩ := bind_ok h
  clear h
  obtain ⟨h3, rfl⟩ := failIf_ok h3
  have h := h'; clear h'
  simp only [bne_eq_false_iff_eq] at h3
  obtain ⟨r3, hr3⟩ := rest_of_peekz h3 (by decide)
  obtain ⟨_, s4, h4, h⟩ := bind_ok h
  obtain rfl := skipNonBlank_ok h4
  cases h
  exact ⟨_, (((on_eaten hr (by decide)).trans (on_eaten hr1 (by decide))).trans hw).trans (on_eaten hr3 (by decide)), by
    simp [hy]; omega⟩

theorem suffix_ok {cfg hd m s o s'} (h : scanTagSuffix cfg hd m s = (.ok o, s')) :
    ∃ w o', Eaten s s' w ∧ o = hd.drop 1 ++ o' ∧ Plainly Spec.TagByte w o' := by
  unfold scanTagSuffix at h
  obtain ⟨y, s1, h1, h⟩ := bind_ok h
  obtain ⟨w, o', hw, hy, hp⟩ := suffixLoop_ok h1
  obtain ⟨_, s2, h2, h'⟩ := bind_ok h
  clear h
  obtain ⟨-, rfl⟩ := failIf_ok h2
  have h := h'; clear h'
  cases h
  refine ⟨w, o', hw, ?_, hp⟩
  rw [hy]
  congr 1
  dsimp only
  split
  · rfl
  · rename_i h; rw [List.drop_eq_nil_of_le (by omega)]

/-- what was read ends before the white space -/
theorem eaten_le {s s' : SSt} {w u b r} (h : Eaten s s' w) (hb : b = 32 ∨ b = 10) (hr : s.src.rest = u ++ b :: r) :
    ∃ v, u = w ++ v := by
  obtain ⟨h1, h2, h3⟩ := h
  rw [hr] at h1
  rcases List.append_eq_append_iff.1 h1 with ⟨a, rfl, h⟩ | ⟨a, h, -⟩
  · cases a with
    | nil => exact ⟨[], by simp⟩
    | cons c a =>
      cases h
      rcases hb with rfl | rfl
      · exact absurd (by simp) h2
      · exact absurd (by simp) h3
  · exact ⟨a, h⟩

/-- the parts of a tag -/
theorem parts_ok {cfg m s p s'} (h : scanTagParts cfg m s = (.ok p, s')) (h0 : s.src.peekz 0 = 33) :
    (∃ w, p.1 = [] ∧ Eaten s s' w ∧ p.2.length + 3 ≤ w.length) ∨
    (∃ al, p.1 = 33 :: al ++ [33]) ∨
    (p = ([], [33]) ∧ s.src.peekz 1 ≠ 33) ∨
    (p.1 = [33] ∧ p.2 ≠ [] ∧ ∃ w, Eaten s s' (33 :: w) ∧ Plainly Spec.TagByte w p.2) := by
  unfold scanTagParts at h
  rw [gets_bind] at h
  split at h
  · rename_i hv
    obtain ⟨o, s1, h1, h⟩ := bind_ok h
    cases h
    obtain ⟨w, hw, hl⟩ := verbatim_ok hv h0 h1
    exact .inl ⟨w, rfl, hw, hl⟩
  · obtain ⟨hd, s1, h1, h⟩ := bind_ok h
    obtain ⟨al, ha, he, hh⟩ := handle_ok h1
    rcases hh with rfl | ⟨rfl, hne⟩
    · rw [if_pos ⟨by simp, by simp, by rw [List.getLast?_append]; simp⟩] at h
      obtain ⟨o, s2, h2, h⟩ := bind_ok h
      cases h
      exact .inr (.inl ⟨al, rfl⟩)
    · have hal : ∀ b ∈ al, b ≠ 33 := by
        rintro b hb rfl
        exact absurd (ha _ hb) (by decide)
      rw [if_neg] at h
      · obtain ⟨o, s2, h2, h⟩ := bind_ok h
        obtain ⟨w, o', hw, ho, hp⟩ := suffix_ok h2
        cases h
        simp only [List.drop_succ_cons, List.drop_zero] at ho
        split
        · rename_i hem
          refine .inr (.inr (.inl ⟨rfl, ?_⟩))
          rw [ho] at hem
          obtain ⟨rfl, rfl⟩ : al = [] ∧ o' = [] := by simpa using hem
          have := he.1
          intro h33
          apply hne
          simp only [Src.peekz, this] at h33 ⊢
          simpa using h33
        · rename_i hem
          refine .inr (.inr (.inr ⟨rfl, by simpa using hem, al ++ w, by simpa using he.trans hw, ?_⟩))
          rw [ho]
          exact Plainly.append (.inr ⟨rfl, fun b hb => alpha_tagByte (ha b hb)⟩) hp
      · rintro ⟨hl, -, hg⟩
        cases hc : al.getLast? with
        | none => rw [List.getLast?_eq_none_iff] at hc; subst hc; simp at hl
        | some x =>
          have hx := List.mem_of_getLast? hc
          rw [List.getLast?_cons, hc] at hg
          simp at hg
          exact hal _ hx hg

/-- **what is read back**: only a local tag whose suffix needs no escapes is printed as a text that is read as that tag -/
theorem readsBack_local {cfg : Cfg} {s : SSt} {t : Tag} {b r} (hb : b = 32 ∨ b = 10) (hr : s.src.rest = displayTag t ++ b :: r)
    (h : Spec.ReadsBackAs cfg [] s t) : t.handle = bs!"!" ∧ t.suffix ≠ [] ∧ ∀ b ∈ t.suffix, Spec.TagByte b := by
  obtain ⟨h0, sp, hd, sf, s', h, hres⟩ := h
  unfold scanTag at h
  rw [getMark_bind] at h
  obtain ⟨p, s1, h1, h⟩ := bind_ok h
  rw [gets_bind] at h
  obtain ⟨_, s2, h2, h'⟩ := bind_ok h
  clear h
  obtain ⟨-, rfl⟩ := failIf_ok h2
  have h := h'; clear h'
  rw [getMark_bind] at h
  cases h
  have hpk : s.src.peekz 0 = 33 := by
    cases hs : s.src.rest with
    | nil => rw [hs] at h0; cases h0
    | cons a r => rw [hs] at h0; cases h0; exact peekz_cons hs
  have hdisp : ∃ v, displayTag t = 33 :: v := by
    rw [hr] at h0
    cases hd : displayTag t with
    | nil => unfold displayTag at hd; split at hd <;> simp at hd
    | cons a v => rw [hd] at h0; cases h0; exact ⟨v, rfl⟩
  obtain ⟨v, hv⟩ := hdisp
  rcases parts_ok h1 hpk with ⟨w, hp, hw, hl⟩ | ⟨al, hp⟩ | ⟨rfl, hne⟩ | ⟨hp1, hp2, w, hw, hpl⟩
  · exfalso
    obtain ⟨x, hx⟩ := eaten_le hw hb hr
    have ht : t = ⟨[], p.2⟩ := by
      rw [hp] at hres
      unfold Parser.resolveTag at hres
      simp [Parser.mapGet] at hres
      exact hres.symm
    subst ht
    have : (displayTag ⟨[], p.2⟩).length = p.2.length + 1 := by unfold displayTag; rw [if_neg (by simp)]; simp
    rw [hx] at this
    simp at this
    omega
  · exfalso
    rw [hp] at hres
    unfold Parser.resolveTag at hres
    split at hres
    · have ht : t = ⟨bs!"tag:yaml.org,2002:", p.2⟩ := by cases hres; rfl
      subst ht
      unfold displayTag at hv
      rw [if_neg (by simp)] at hv
      cases hv
    · rw [if_neg (by simp)] at hres
      have hg : Parser.mapGet ([] : List (List Byte × List Byte)) (33 :: al ++ [33]) = none := rfl
      rw [hg] at hres
      dsimp only at hres
      rw [if_pos ⟨by simp, by simp, by rw [List.getLast?_append]; simp⟩] at hres
      cases hres
  · exfalso
    have ht : t = ⟨[], [33]⟩ := by cases hres; rfl
    subst ht
    apply hne
    rw [show displayTag ⟨[], [33]⟩ = [33, 33] from rfl] at hr
    simp [Src.peekz, hr]
  · have ht : t = ⟨[33], p.2⟩ := by
      rw [hp1] at hres
      unfold Parser.resolveTag at hres
      simp [Parser.mapGet] at hres
      exact hres.symm
    subst ht
    refine ⟨rfl, hp2, ?_⟩
    rcases hpl with hlt | ⟨heq, hall⟩
    · exfalso
      obtain ⟨x, hx⟩ := eaten_le hw hb hr
      have : (displayTag ⟨[33], p.2⟩).length = p.2.length + 1 := by unfold displayTag; rw [if_pos rfl]; simp
      rw [hx] at this
      simp at this
      omega
    · rw [← heq] at hall; exact hall

end Verif.Scanner
