import Verif.Lemmas.ScanTag
import Verif.Spec.Block
import Verif.Spec.TokenGrammar
/-!
# Scanning anchors, aliases and tags, as people write them
-/
namespace Verif.Scanner
open Verif Verif.CharUtils Verif.Source Verif.Emitter Verif.Spec

/-- the end of the text, white space, or, in a flow collection, the end of an item -/
def MEnd (level : Nat) (r : List Byte) : Prop := r = [] ∨ ∃ c r', r = c :: r' ∧ (c = 32 ∨ c = 10 ∨ (0 < level ∧ (c = 44 ∨ c = 93 ∨ c = 125)))

theorem MEnd.cases {n r} (h : MEnd n r) : r.headD 0 = 0 ∨ r.headD 0 = 32 ∨ r.headD 0 = 10 ∨ (0 < n ∧ (r.headD 0 = 44 ∨ r.headD 0 = 93 ∨ r.headD 0 = 125)) := by
  rcases h with rfl | ⟨c, r', rfl, h⟩
  · exact .inl rfl
  · exact .inr h

theorem MEnd.notAlpha {n r} (h : MEnd n r) : ∀ c, r.head? = some c → isAlpha c = false ∧ isTagChar c = false ∧ c ≠ 33 := by
  rcases h with rfl | ⟨c, r', rfl, h⟩
  · simp
  · intro d hd
    simp at hd
    subst hd
    rcases h with rfl | rfl | ⟨-, rfl | rfl | rfl⟩ <;> decide

theorem MEnd.stops {n r} (h : MEnd n r) : (isBlankOrBreakz (r.headD 0) || (decide (n > 0) && isFlow (r.headD 0))) = true := by
  rcases h.cases with h | h | h | ⟨h0, h | h | h⟩ <;> rw [h] <;> first | rfl | (simp [h0]; decide)

/-- the state before an anchor, an alias or a tag is read -/
def keyed (s : SSt) : SSt := { s with simpleKeys := savedKeys s, simpleKeyAllowed := false }

/-- the text of an anchor, an alias or a tag -/
structure Mark (t : List Byte) (tok : TokenType) : Prop where
  head : ∃ c r, t = c :: r ∧ (c = 33 ∨ c = 38 ∨ c = 42)
  flat : ∀ b ∈ t, b ≠ 10
  run : ∀ {cfg : Cfg} {s : SSt} {r}, s.src.rest = t ++ r → MEnd s.flowLevel r → t.length < cfg.fuel →
    fetchMain cfg s = (.ok (), { on (keyed s) t.length with tokens := s.tokens ++ [⟨⟨s.mark, (on s t.length).mark⟩, tok⟩] })

theorem Mark.ne {t tok} (h : Mark t tok) : t ≠ [] := by
  obtain ⟨c, r, rfl, -⟩ := h.head
  simp

/-! ## Anchors and aliases -/

theorem anchor_chars {post} (hp : ∀ c, post.head? = some c → isAnchorChar c = false) : ∀ {w : List Byte} {k str s}, (∀ b ∈ w, isAnchorChar b = true) →
    s.src.rest = w ++ post → w.length < k → loopM anchorBody k str s = (.ok (str ++ w), if w = [] then s else on s w.length) := by
  intro w
  induction w with
  | nil =>
    intro k str s _ hr hk
    obtain ⟨k, rfl⟩ : ∃ j, k = j + 1 := ⟨k - 1, by omega⟩
    have h0 := peekz_head hr
    have : isAnchorChar (s.src.peekz 0) = false := by
      rw [h0]
      cases post with
      | nil => rfl
      | cons c _ => exact hp c rfl
    rw [loop_done (b := str) (s1 := s) (by unfold anchorBody; ev [this])]
    simp
  | cons a w ih =>
    intro k str s hw hr hk
    obtain ⟨k, rfl⟩ : ∃ j, k = j + 1 := ⟨k - 1, by omega⟩
    have h0 : s.src.peekz 0 = a := peekz_cons hr
    have h1 := hw a (by simp)
    rw [loop_next (b := str ++ [a]) (s1 := on s 1) (by unfold anchorBody; ev [h0, h1]; rw [bind_run (skipNonBlank_on _)]; rfl)]
    rw [ih (fun b hb => hw b (by simp [hb])) (s := on s 1) (on_rest (w := [a]) hr rfl) (by simp at hk; omega)]
    by_cases hw0 : w = []
    · subst hw0; simp
    · rw [if_neg hw0, if_neg (by simp), on_on]
      simp [Nat.add_comm 1]

theorem name_char {b : Byte} (h : Block.Ink b ∧ b ∉ bs!",[]{}") : isAnchorChar b = true := by
  obtain ⟨⟨h1, h2, h3, h4, h5⟩, h6⟩ := h
  simp at h6
  simp [isAnchorChar, isYamlNonSpace, isBlank, isBreak, isFlow, h1, h2, h3, h4, h5, h6]

theorem anchor_mark {a : List Byte} (al : Bool) (h : Block.Name a) : Mark ((if al then 42 else 38) :: a) (if al then .alias a else .anchor a) := by
  have hw : ∀ b ∈ a, isAnchorChar b = true := fun b hb => name_char (h.2 b hb)
  refine ⟨⟨_, _, rfl, by cases al <;> simp⟩, ?_, ?_⟩
  · intro b hb
    rcases List.mem_cons.1 hb with rfl | hb
    · cases al <;> decide
    · exact (h.2 b hb).1.2.2.1
  · intro cfg s r hr hm hf
    have h0 : s.src.peekz 0 = if al then 42 else 38 := peekz_cons (by rw [hr]; rfl)
    have em : fetchMain cfg s = fetchAnchor cfg al s := by
      unfold fetchMain
      cases al <;> (ev [h0]; simp)
    rw [em]
    unfold fetchAnchor setAllowed
    rw [bind_run (save_run s)]
    ev []
    show (scanAnchor cfg al >>= fun tok => pushTok tok) (keyed s) = _
    have hr1 : (on (keyed s) 1).src.rest = a ++ r := on_rest (s := keyed s) (w := [if al then 42 else 38]) (by show s.src.rest = _; rw [hr]; rfl) rfl
    have hstop : ∀ c, r.head? = some c → isAnchorChar c = false := by
      rcases hm with rfl | ⟨c, r', rfl, h⟩
      · simp
      · intro d hd
        simp at hd
        subst hd
        rcases h with rfl | rfl | ⟨-, rfl | rfl | rfl⟩ <;> decide
    have hscan : scanAnchor cfg al (keyed s) = (.ok ⟨⟨s.mark, (on s (a.length + 1)).mark⟩, if al then .alias a else .anchor a⟩, on (keyed s) (a.length + 1)) := by
      unfold scanAnchor
      rw [getMark_bind, bind_run (skipNonBlank_on _), bind_run (anchor_chars hstop hw hr1 (by simp at hf; omega))]
      have he : ([] ++ a).isEmpty = false := by simpa using h.1
      rw [if_neg h.1, on_on, Nat.add_comm 1]
      ev [he]
      rfl
    rw [bind_run hscan]
    rfl

/-! ## Tags -/

/-- `!suffix` -/
theorem scanTag_primary {cfg : Cfg} {s : SSt} {suf r} (hne : suf ≠ []) (ht : ∀ x ∈ suf, Spec.TagByte x) (hm : MEnd s.flowLevel r)
    (hr : s.src.rest = 33 :: (suf ++ r)) (hf : suf.length < cfg.fuel) :
    scanTag cfg s = (.ok ⟨⟨s.mark, (on s (suf.length + 1)).mark⟩, .tag [33] suf⟩, on s (suf.length + 1)) := by
  have h0 : s.src.peekz 0 = 33 := peekz_cons hr
  have h1 : s.src.nextNextByteIs 60 = false := by
    cases suf with
    | nil => exact absurd rfl hne
    | cons a suf =>
      have : s.src.peekz 1 = a := by simp [Src.peekz, hr]
      simp only [Src.nextNextByteIs, this, beq_eq_false_iff_ne]
      rintro rfl
      exact absurd (ht 60 (by simp)) (by decide)
  obtain ⟨w2, hsplit, hw2⟩ := takeWhile_split isAlpha suf
  generalize hal : suf.takeWhile isAlpha = al at hsplit
  have hrest1 : (on s 1).src.rest = suf ++ r := on_rest (w := [33]) hr rfl
  have htw : (suf ++ r).takeWhile isAlpha = al := by
    rw [← hal]
    clear hsplit hw2 hal hr hrest1 hf h0 h1 hne
    induction suf with
    | nil =>
      cases r with
      | nil => rfl
      | cons c r => simp [(hm.notAlpha c rfl).1]
    | cons a suf ih =>
      have := ih fun x hx => ht x (by simp [hx])
      by_cases ha : isAlpha a = true
      · simp [ha, this]
      · simp [ha]
  have hfa : fetchAlpha (on s 1) = (.ok al, on s (al.length + 1)) := by
    unfold fetchAlpha Src.fetchWhileIsAlpha
    simp only [hrest1, htw]
    simp [on, Src.skip, Nat.add_assoc, Nat.add_comm 1]
  have hrest2 : (on s (al.length + 1)).src.rest = w2 ++ r := on_rest (w := 33 :: al) (by rw [hr, hsplit]; simp) (by simp)
  have hp2 : (on s (al.length + 1)).src.peekz 0 ≠ 33 := by
    rw [peekz_head hrest2]
    cases w2 with
    | nil =>
      cases r with
      | nil => decide
      | cons c r => exact (hm.notAlpha c rfl).2.2
    | cons a w2 =>
      have := ht a (by rw [hsplit]; simp)
      simp
      rintro rfl
      exact absurd this (by decide)
  have hhandle : scanTagHandle false s.mark s = (.ok (33 :: al), on s (al.length + 1)) := by
    unfold scanTagHandle
    ev [h0]
    rw [bind_run (show failIf _ _ _ s = (.ok (), s) from rfl), bind_run (skipNonBlank_on _), bind_run hfa]
    ev [hp2]
    rfl
  have hgl : ¬ ((33 :: al).length ≥ 2 ∧ (33 :: al).head? = some b%'!' ∧ (33 :: al).getLast? = some b%'!') := by
    rintro ⟨h2, -, h3⟩
    cases hx : al with
    | nil => rw [hx] at h2; simp at h2
    | cons a al' =>
      rw [hx] at h3
      have h4 : (a :: al').getLast? = some 33 := by simpa using h3
      have : (33 : Nat) ∈ al := by rw [hx]; exact List.mem_of_getLast? h4
      exact absurd (ht 33 (by rw [hsplit]; simp [this])) (by decide)
  have hsuf : scanTagSuffix cfg (33 :: al) s.mark (on s (al.length + 1)) = (.ok suf, on s (suf.length + 1)) := by
    unfold scanTagSuffix
    have hstr : (if (33 :: al).length > 1 then (33 :: al).drop 1 else []) = al := by
      cases al <;> simp
    rw [hstr]
    have hlen : suf.length = al.length + w2.length := by rw [hsplit]; simp
    rw [bind_run (suffix_run (w := w2) (fun c hc => (hm.notAlpha c hc).2.1) (fun x hx => ht x (by rw [hsplit]; simp [hx])) hrest2 (by omega))]
    have hst : (if w2 = [] then on s (al.length + 1) else on (on s (al.length + 1)) w2.length) = on s (suf.length + 1) := by
      by_cases hx : w2 = []
      · rw [if_pos hx, hlen, hx]; rfl
      · rw [if_neg hx, on_on, hlen]; congr 1; omega
    have hz : (((33 :: al).length + w2.length, suf).fst == 0) = false := by simp
    rw [hst, ← hsplit]
    ev [hz]
  have hpost : (isBlankOrBreakz ((on s (suf.length + 1)).src.peekz 0) || (decide ((on s (suf.length + 1)).flowLevel > 0) && isFlow ((on s (suf.length + 1)).src.peekz 0))) = true := by
    rw [peekz_head (on_rest (w := 33 :: suf) (r := r) (by rw [hr]; simp) (by simp))]
    exact hm.stops
  unfold scanTag scanTagParts
  have hse : suf.isEmpty = false := by simpa using hne
  ev [h1]
  rw [bind_run hhandle, if_neg hgl, bind_run hsuf]
  ev [hse, hpost]
  rfl

/-- `!!suffix` -/
theorem scanTag_secondary {cfg : Cfg} {s : SSt} {suf r} (hne : suf ≠ []) (ht : ∀ x ∈ suf, Spec.TagByte x) (hm : MEnd s.flowLevel r)
    (hr : s.src.rest = 33 :: 33 :: (suf ++ r)) (hf : suf.length < cfg.fuel) :
    scanTag cfg s = (.ok ⟨⟨s.mark, (on s (suf.length + 2)).mark⟩, .tag [33, 33] suf⟩, on s (suf.length + 2)) := by
  have h0 : s.src.peekz 0 = 33 := peekz_cons hr
  have h1 : s.src.nextNextByteIs 60 = false := by
    have : s.src.peekz 1 = 33 := by simp [Src.peekz, hr]
    simp [Src.nextNextByteIs, this]
  have hrest1 : (on s 1).src.rest = 33 :: (suf ++ r) := on_rest (w := [33]) hr rfl
  have hfa : fetchAlpha (on s 1) = (.ok [], on s 1) := by
    unfold fetchAlpha Src.fetchWhileIsAlpha
    simp only [hrest1]
    simp [isAlpha, on, Src.skip]
  have hp2 : (on s 1).src.peekz 0 = 33 := peekz_cons hrest1
  have hhandle : scanTagHandle false s.mark s = (.ok [33, 33], on s 2) := by
    unfold scanTagHandle
    ev [h0]
    rw [bind_run (show failIf _ _ _ s = (.ok (), s) from rfl), bind_run (skipNonBlank_on _), bind_run hfa]
    ev [hp2]
    rw [bind_run (skipNonBlank_on _), on_on]
    rfl
  have hrest2 : (on s 2).src.rest = suf ++ r := on_rest (w := [33, 33]) hr rfl
  have hsuf : scanTagSuffix cfg [] s.mark (on s 2) = (.ok suf, on s (suf.length + 2)) := by
    unfold scanTagSuffix
    rw [if_neg (by simp)]
    rw [bind_run (suffix_run (w := suf) (fun c hc => (hm.notAlpha c hc).2.1) ht hrest2 hf)]
    have hz : (([] : List Byte).length + suf.length, ([] : List Byte) ++ suf).fst ≠ 0 := by simpa using hne
    rw [if_neg hne, on_on, Nat.add_comm 2]
    ev []
    simp [hne, failIf]
    rfl
  have hpost : (isBlankOrBreakz ((on s (suf.length + 2)).src.peekz 0) || (decide ((on s (suf.length + 2)).flowLevel > 0) && isFlow ((on s (suf.length + 2)).src.peekz 0))) = true := by
    rw [peekz_head (on_rest (w := 33 :: 33 :: suf) (r := r) (by rw [hr]; simp) (by simp))]
    exact hm.stops
  unfold scanTag scanTagParts
  ev [h1]
  rw [bind_run hhandle, if_pos (by simp), bind_run hsuf]
  ev [hpost]
  rfl

/-- `!name!suffix` -/
theorem scanTag_named {cfg : Cfg} {s : SSt} {nm suf r} (hnm : ∀ x ∈ nm, isAlpha x = true) (hne : suf ≠ []) (ht : ∀ x ∈ suf, Spec.TagByte x) (hm : MEnd s.flowLevel r)
    (hr : s.src.rest = 33 :: (nm ++ 33 :: (suf ++ r))) (hf : suf.length < cfg.fuel) :
    scanTag cfg s = (.ok ⟨⟨s.mark, (on s (nm.length + suf.length + 2)).mark⟩, .tag (33 :: (nm ++ [33])) suf⟩, on s (nm.length + suf.length + 2)) := by
  have h0 : s.src.peekz 0 = 33 := peekz_cons hr
  have h1 : s.src.nextNextByteIs 60 = false := by
    cases nm with
    | nil =>
      have : s.src.peekz 1 = 33 := by simp [Src.peekz, hr]
      simp [Src.nextNextByteIs, this]
    | cons a nm =>
      have : s.src.peekz 1 = a := by simp [Src.peekz, hr]
      simp only [Src.nextNextByteIs, this, beq_eq_false_iff_ne]
      rintro rfl
      exact absurd (hnm 60 (by simp)) (by decide)
  have hrest1 : (on s 1).src.rest = nm ++ 33 :: (suf ++ r) := on_rest (w := [33]) hr rfl
  have hfa : fetchAlpha (on s 1) = (.ok nm, on s (nm.length + 1)) := by
    have htw : (nm ++ 33 :: (suf ++ r)).takeWhile isAlpha = nm := by
      rw [List.takeWhile_append_of_pos hnm]
      have : isAlpha 33 = false := by decide
      simp [this]
    unfold fetchAlpha Src.fetchWhileIsAlpha
    simp only [hrest1, htw]
    simp [on, Src.skip, Nat.add_assoc, Nat.add_comm 1]
  have hp2 : (on s (nm.length + 1)).src.peekz 0 = 33 := peekz_cons (on_rest (w := 33 :: nm) (r := 33 :: (suf ++ r)) (by rw [hr]; simp) (by simp))
  have hhandle : scanTagHandle false s.mark s = (.ok (33 :: (nm ++ [33])), on s (nm.length + 2)) := by
    unfold scanTagHandle
    ev [h0]
    rw [bind_run (show failIf _ _ _ s = (.ok (), s) from rfl), bind_run (skipNonBlank_on _), bind_run hfa]
    ev [hp2]
    rw [bind_run (skipNonBlank_on _), on_on]
    rfl
  have hrest2 : (on s (nm.length + 2)).src.rest = suf ++ r := on_rest (w := 33 :: (nm ++ [33])) (by rw [hr]; simp) (by simp)
  have hsuf : scanTagSuffix cfg [] s.mark (on s (nm.length + 2)) = (.ok suf, on s (nm.length + suf.length + 2)) := by
    unfold scanTagSuffix
    rw [if_neg (by simp)]
    rw [bind_run (suffix_run (w := suf) (fun c hc => (hm.notAlpha c hc).2.1) ht hrest2 hf)]
    rw [if_neg hne, on_on, show nm.length + 2 + suf.length = nm.length + suf.length + 2 by omega]
    ev []
    simp [hne, failIf]
    rfl
  have hpost : (isBlankOrBreakz ((on s (nm.length + suf.length + 2)).src.peekz 0) || (decide ((on s (nm.length + suf.length + 2)).flowLevel > 0) && isFlow ((on s (nm.length + suf.length + 2)).src.peekz 0))) = true := by
    rw [peekz_head (on_rest (w := 33 :: (nm ++ 33 :: suf)) (r := r) (by rw [hr]; simp) (by simp; omega))]
    exact hm.stops
  unfold scanTag scanTagParts
  ev [h1]
  rw [bind_run hhandle, if_pos ⟨by simp, rfl, (by rw [← List.cons_append]; exact List.getLast?_concat)⟩, bind_run hsuf]
  ev [hpost]
  rfl

theorem uri_chars {cfg : Cfg} {m post} : ∀ {w : List Byte} {k str s}, (∀ b ∈ w, isUriChar b = true ∧ b ≠ 37) →
    s.src.rest = w ++ 62 :: post → w.length < k → loopM (uriCharsBody cfg m) k str s = (.ok (str ++ w), if w = [] then s else on s w.length) := by
  intro w
  induction w with
  | nil =>
    intro k str s _ hr hk
    obtain ⟨k, rfl⟩ : ∃ j, k = j + 1 := ⟨k - 1, by omega⟩
    have h0 : s.src.peekz 0 = 62 := peekz_cons hr
    have : isUriChar 62 = false := by decide
    rw [loop_done (b := str) (s1 := s) (by unfold uriCharsBody; ev [h0, this])]
    simp
  | cons a w ih =>
    intro k str s hw hr hk
    obtain ⟨k, rfl⟩ : ∃ j, k = j + 1 := ⟨k - 1, by omega⟩
    have h0 : s.src.peekz 0 = a := peekz_cons hr
    have hpk : s.src.peekChecked 0 = some a := by simp [Src.peekChecked, hr]
    obtain ⟨h1, h2⟩ := hw a (by simp)
    have hu : uriScansOrNonBlank cfg str m s = (.ok (str ++ [a]), on s 1) := by
      unfold uriScansOrNonBlank
      ev [hpk, h2]
      rw [bind_run (skipNonBlank_on _)]
      rfl
    rw [loop_next (b := str ++ [a]) (s1 := on s 1) (by unfold uriCharsBody; ev [h0, h1]; rw [bind_run hu]; rfl)]
    rw [ih (fun b hb => hw b (by simp [hb])) (s := on s 1) (on_rest (w := [a]) hr rfl) (by simp at hk; omega)]
    by_cases hw0 : w = []
    · subst hw0; simp
    · rw [if_neg hw0, if_neg (by simp), on_on]
      simp [Nat.add_comm 1]

/-- `!<suffix>` -/
theorem scanTag_verbatim {cfg : Cfg} {s : SSt} {suf r} (hne : suf ≠ []) (ht : ∀ x ∈ suf, isUriChar x = true ∧ x ≠ 37) (hm : MEnd s.flowLevel r)
    (hr : s.src.rest = 33 :: 60 :: (suf ++ 62 :: r)) (hf : suf.length < cfg.fuel) :
    scanTag cfg s = (.ok ⟨⟨s.mark, (on s (suf.length + 3)).mark⟩, .tag [] suf⟩, on s (suf.length + 3)) := by
  have h1 : s.src.nextNextByteIs 60 = true := by
    have : s.src.peekz 1 = 60 := by simp [Src.peekz, hr]
    simp [Src.nextNextByteIs, this]
  have hrest2 : (on s 2).src.rest = suf ++ 62 :: r := on_rest (w := [33, 60]) hr rfl
  have h62 : (on s (suf.length + 2)).src.peekz 0 = 62 := peekz_cons (on_rest (w := 33 :: 60 :: suf) (r := 62 :: r) (by rw [hr]; simp) (by simp))
  have hv : scanVerbatimTag cfg s.mark s = (.ok suf, on s (suf.length + 3)) := by
    unfold scanVerbatimTag
    rw [bind_run (skipNonBlank_on _), bind_run (skipNonBlank_on _), on_on, bind_run (uri_chars ht hrest2 hf), if_neg hne, on_on, Nat.add_comm (1 + 1)]
    ev [h62]
    rw [bind_run (show failIf _ _ _ (on s (suf.length + 2)) = (.ok (), on s (suf.length + 2)) from rfl), bind_run (skipNonBlank_on _), on_on]
    rfl
  have hpost : (isBlankOrBreakz ((on s (suf.length + 3)).src.peekz 0) || (decide ((on s (suf.length + 3)).flowLevel > 0) && isFlow ((on s (suf.length + 3)).src.peekz 0))) = true := by
    rw [peekz_head (on_rest (w := 33 :: 60 :: (suf ++ [62])) (r := r) (by rw [hr]; simp) (by simp))]
    exact hm.stops
  unfold scanTag scanTagParts
  ev [h1]
  rw [bind_run hv]
  ev [hpost]
  rfl

theorem tag_mark {t h sf} (hh : ∃ r, t = 33 :: r) (hfl : ∀ b ∈ t, b ≠ 10)
    (hs : ∀ {cfg : Cfg} {s : SSt} {r}, s.src.rest = t ++ r → MEnd s.flowLevel r → t.length < cfg.fuel → scanTag cfg s = (.ok ⟨⟨s.mark, (on s t.length).mark⟩, .tag h sf⟩, on s t.length)) :
    Mark t (.tag h sf) := by
  obtain ⟨t', rfl⟩ := hh
  refine ⟨⟨_, _, rfl, .inl rfl⟩, hfl, ?_⟩
  intro cfg s r hr hm hf
  have h0 : s.src.peekz 0 = 33 := peekz_cons (by rw [hr]; rfl)
  have em : fetchMain cfg s = fetchTag cfg s := by
    unfold fetchMain
    ev [h0]
    simp
  rw [em]
  unfold fetchTag setAllowed
  rw [bind_run (save_run s)]
  ev []
  show (scanTag cfg >>= fun tok => pushTok tok) (keyed s) = _
  rw [bind_run (hs (s := keyed s) hr hm hf)]
  rfl

theorem tagByte_uri {b : Byte} (h : Spec.TagByte b) : isUriChar b = true ∧ b ≠ 37 := by
  obtain ⟨h1, h2⟩ := tagByte_iff.1 h
  simp only [isTagChar, Bool.and_eq_true] at h1
  exact ⟨h1.1.1, h2⟩

theorem tagByte_flat {b : Byte} (h : Spec.TagByte b) : b ≠ 10 := by
  rintro rfl
  exact absurd h (by decide)

theorem handleByte {b : Byte} (h : Block.HandleByte b) : isAlpha b = true := by
  unfold Block.HandleByte at h
  simp only [isAlpha, Bool.or_eq_true, Bool.and_eq_true, decide_eq_true_eq, beq_iff_eq]
  omega

/-- the prefixes of handles, as the parser looks them up -/
def tagTable [Block.Handles] : List Byte → Option (List Byte) := fun h => if h = [] then none else Block.Handles.lookup h

theorem tagTable_none : @tagTable Block.noHandles = fun _ => none := by
  funext h
  unfold tagTable
  split <;> rfl

/-- the token of a tag, and what the parser makes of it -/
theorem tagText_mark [H : Block.Handles] {w t} (h : Block.TagText false w t) : ∃ hd sf, Mark w (.tag hd sf) ∧ ReadsAs tagTable hd sf t := by
  cases h with
  | @primary s h1 h2 =>
    refine ⟨_, _, tag_mark ⟨_, rfl⟩ ?_ (fun hr hm hf => scanTag_primary h1 h2 hm hr (by simp at hf; omega)), ?_⟩
    case refine_2 =>
      unfold Block.prefixOf
      cases hl : Block.Handles.lookup bs!"!" with
      | none => exact .other (by simpa [tagTable] using hl) (by simp) (by simp)
      | some p => exact .declared (by simpa [tagTable] using hl)
    intro b hb
    rcases List.mem_cons.1 hb with rfl | hb
    · decide
    · exact tagByte_flat (h2 b hb)
  | @secondary s h1 h2 =>
    refine ⟨_, _, tag_mark ⟨_, rfl⟩ ?_ (fun hr hm hf => scanTag_secondary h1 h2 hm hr (by simp at hf; omega)), ?_⟩
    case refine_2 =>
      unfold Block.prefixOf
      cases hl : Block.Handles.lookup bs!"!!" with
      | none => exact .secondary (by simpa [tagTable] using hl)
      | some p => exact .declared (by simpa [tagTable] using hl)
    intro b hb
    simp only [List.mem_cons] at hb
    rcases hb with rfl | rfl | hb
    · decide
    · decide
    · exact tagByte_flat (h2 b hb)
  | @named n s p h0 h0' hp h1 h2 =>
    refine ⟨_, _, tag_mark ⟨_, rfl⟩ ?_ (h := 33 :: (n ++ [33])) (sf := s) ?_, .declared (by simpa [tagTable] using hp)⟩
    · intro b hb
      simp only [List.mem_cons, List.mem_append] at hb
      rcases hb with rfl | hb | rfl | hb
      · decide
      · rintro rfl
        exact absurd (handleByte (h0' _ hb)) (by decide)
      · decide
      · exact tagByte_flat (h2 b hb)
    · intro cfg _ _ hr hm hf
      have := scanTag_named (cfg := cfg) (fun x hx => handleByte (h0' x hx)) h1 h2 hm (by rw [hr]; simp) (by simp at hf; omega)
      rw [this]
      simp only [List.length_cons, List.length_append]
      rw [show n.length + (s.length + 1) + 1 = n.length + s.length + 2 by omega]
  | @verbatim s h1 h2 h3 =>
    have hu : ∀ x ∈ s, isUriChar x = true ∧ x ≠ 37 := by
      intro x hx
      rcases h2 x hx with h | rfl | rfl
      · exact tagByte_uri h
      · decide
      · decide
    refine ⟨_, _, tag_mark ⟨_, rfl⟩ ?_ ?_, .other (by simp [tagTable]) (by simp) (by simp)⟩
    · intro b hb
      simp only [List.mem_cons, List.mem_append, List.not_mem_nil, or_false] at hb
      rcases hb with rfl | rfl | hb | rfl
      · decide
      · decide
      · rintro rfl
        exact absurd (hu 10 hb).1 (by decide)
      · decide
    · intro cfg _ _ hr hm hf
      have := scanTag_verbatim (cfg := cfg) (suf := s) h1 hu hm (by rw [hr]; simp) (by simp at hf; omega)
      simpa using this
  | verbatimCore h => cases h

end Verif.Scanner
