import Verif.Lemmas.ScanLabel
import Verif.Lemmas.ScanBlockParts
/-!
# Anchors, aliases and tags in block collections
-/
namespace Verif.Scanner
open Verif Verif.CharUtils Verif.Source Verif.Emitter Verif.Spec

theorem FirstBlank.mend {n r} (h : FirstBlank r) : MEnd n r := by
  rcases h with rfl | h | h
  · exact .inl rfl
  · cases r with
    | nil => cases h
    | cons b g => simp at h; subst h; exact .inr ⟨_, _, rfl, .inl rfl⟩
  · cases r with
    | nil => cases h
    | cons b g => simp at h; subst h; exact .inr ⟨_, _, rfl, .inr (.inl rfl)⟩

theorem Mark.starts {t tok u} (h : Mark t tok) : Starts (t ++ u) := by
  obtain ⟨c, r, rfl, hc⟩ := h.head
  refine ⟨by simp, fun r _ => ⟨?_, ?_, fun x y hx e => ?_⟩⟩
  · intro d hd
    simp at hd
    subst hd
    rcases hc with rfl | rfl | rfl <;> decide
  · rcases hc with rfl | rfl | rfl <;> simp
  · simp at e
    omega

/-- an anchor, an alias or a tag -/
theorem mark_goes {cfg s out I i i0 I0 t tok w q c c' al I' i' n} (h : Here cfg s out I i (t ++ (w ++ q)) c al) (hm : Mark t tok) (hx : BCtx I i i0 I0)
    (h0 : i0 = 0 → I = [] ∧ i = 0) (hi : i0 < c) (hw : Lay w q) (hq : TokenHead q) (hb : FirstBlank (w ++ q))
    (hcol : q ≠ [] → ∀ m : Marker, m.col = c + t.length → (gapMark m w).col = c') (hf : (t ++ (w ++ q)).length < cfg.fuel)
    (hu : unroll (lowCol q c') i I = some (I', i', n)) :
    Goes cfg s (t ++ (w ++ q)).length (out ++ [tok] ++ List.replicate n .blockEnd) I' i' q c' (w.contains 10) := by
  obtain ⟨s2, hp, e⟩ := fetch_here h (by simp [hm.ne]) (by
    obtain ⟨d, r, rfl, hd⟩ := hm.head
    exact fun _ => ⟨d, r ++ (w ++ q), rfl, by omega, by omega, fun h => by omega⟩)
  have hrun := hm.run (cfg := cfg) (s := s2) hp.rest hb.mend (by simp at hf; omega)
  generalize hC : ({ on (keyed s2) t.length with tokens := s2.tokens ++ [⟨⟨s2.mark, (on s2 t.length).mark⟩, tok⟩] } : SSt) = C at hrun
  have hpos := List.length_pos_iff.2 hm.ne
  refine Goes.one (e.trans hrun) ?_ (by simp; omega)
  have htC : types C = out ++ [tok] := by rw [← hC]; simp [types]; exact hp.toks
  have hrC : C.src.rest = w ++ q := by rw [← hC]; exact on_rest (s := keyed s2) (w := t) hp.rest rfl
  have hmC : C.mark = ⟨s2.mark.pos + t.length, s2.mark.col + t.length, s2.mark.line⟩ := by rw [← hC]; rfl
  have haC : C.simpleKeyAllowed = false := by rw [← hC]; rfl
  have hsv : ∃ k', savedKeys s2 = [k'] ∧ (k'.possible = true → k'.required = false ∧ k'.mark.line ≤ s2.mark.line) := by
    obtain ⟨k, hk, hkp⟩ := hp.keys
    unfold savedKeys
    split
    · exact ⟨keyHere s2, by simp [hk], fun _ => ⟨BCtx.notRequired (by rw [hp.indents, hp.indent]; exact hx) hp.col hi, Nat.le_refl _⟩⟩
    · exact ⟨k, hk, fun hx => ⟨(hkp hx).1, (hkp hx).2.2⟩⟩
  obtain ⟨k', hk', hkp'⟩ := hsv
  have hline : C.mark.line = s2.mark.line := by rw [hmC]
  have := here_lay (cfg := cfg) (s := C) (w := w) (q := q) (c := c') (k := k') (I := I') (i := i') (n := n) hw hrC hq (by simp at hf ⊢; omega)
    (by rw [← hC]; exact ⟨hp.calm.level, hp.calm.impl, hp.calm.parsed, hp.calm.started, hp.calm.fit.skip (by simp [hp.rest])⟩)
    (fun hq => hcol hq C.mark (by rw [hmC]; simp [hp.col]))
    (by rw [← hC]; show unroll _ s2.indent s2.indents = _; rw [hp.indent, hp.indents]; exact hu)
    (by rw [← hC]; exact hk')
    (fun hx => ⟨(hkp' hx).1, fun _ => by
      have h2 := (hkp' hx).2
      rw [haC]
      by_cases h10 : w.contains 10 = true
      · exact .inl (by have := gapMark_lt C.mark w h10; omega)
      · exact .inr ⟨by simpa using h10, by have := gapMark_le C.mark w; omega⟩⟩)
    (by
      rw [← hC]
      intro u hlast hpr h1
      simp at hlast
      subst hlast
      replace h1 : s2.mark.col = 1 := h1
      rw [hp.col] at h1
      obtain ⟨rfl, rfl⟩ := h0 (by omega)
      right
      unfold unroll at hu
      split at hu
      · cases hu
      · simp only [Option.some.injEq, Prod.mk.injEq] at hu; exact hu.2.1.symm)
  rw [htC, haC] at this
  simpa using this

/-- a label: an anchor, a tag, or both -/
def LabelG (l : List Byte) (toks : List TokenType) : Prop :=
  ∀ {cfg s out I i i0 I0 w q c c' al I' i' n}, Here cfg s out I i (l ++ (w ++ q)) c al → BCtx I i i0 I0 → (i0 = 0 → I = [] ∧ i = 0) → i0 < c →
    Lay w q → TokenHead q → FirstBlank (w ++ q) → (q ≠ [] → ∀ m : Marker, m.col = c + l.length → (gapMark m w).col = c') → (l ++ (w ++ q)).length < cfg.fuel →
    unroll (lowCol q c') i I = some (I', i', n) →
    Goes cfg s (l ++ (w ++ q)).length (out ++ toks ++ List.replicate n .blockEnd) I' i' q c' (w.contains 10)

theorem Mark.label {t tok} (h : Mark t tok) : LabelG t [tok] := fun hh hx h0 hi hw hq hb hc hf hu => mark_goes hh h hx h0 hi hw hq hb hc hf hu

theorem Mark.two {t1 tok1 t2 tok2 m} (h1 : Mark t1 tok1) (h2 : Mark t2 tok2) : LabelG (t1 ++ (Block.spaces (m + 1) ++ t2)) [tok1, tok2] := by
  intro cfg s out I i i0 I0 w q c c' al I' i' n hh hx h0 hi hw hq hb hc hf hu
  have e : (t1 ++ (Block.spaces (m + 1) ++ t2)) ++ (w ++ q) = t1 ++ (Block.spaces (m + 1) ++ (t2 ++ (w ++ q))) := by simp
  rw [e] at hh hf ⊢
  have hs : Starts t2 := by simpa using h2.starts (u := [])
  have hne : t2 ++ (w ++ q) ≠ [] := by simp [hs.1]
  have hp := List.length_pos_iff.2 h1.ne
  have := mark_goes (c' := c + t1.length + (m + 1)) (I' := I) (i' := i) (n := 0) hh h1 hx h0 hi spaces_lay' (hs.2 _ hb).1 (.inr (.inl rfl))
    (fun _ k hk => by rw [spaces_col, hk]) hf (by rw [lowCol_deep hne (by omega)]; exact unroll_ok (by have := hx.le; omega))
  refine this.then fun s' h' => ?_
  have := mark_goes h' h2 hx h0 (by omega) hw hq hb (fun hq k hk => hc hq k (by rw [hk]; simp [spaces_len]; omega)) (by simp at hf ⊢; omega) hu
  simpa using this

/-- the tokens of a label -/
inductive LToks [Block.Handles] : List TokenType → Option (List Byte) → Option Tag → Prop
  | anchor {a} : LToks [.anchor a] (some a) none
  | tag {h s t} : ReadsAs tagTable h s t → LToks [.tag h s] none (some t)
  | anchorTag {a h s t} : ReadsAs tagTable h s t → LToks [.anchor a, .tag h s] (some a) (some t)
  | tagAnchor {a h s t} : ReadsAs tagTable h s t → LToks [.tag h s, .anchor a] (some a) (some t)

/-- one or two marks -/
inductive Marks : List Byte → List TokenType → Prop
  | one {t tok} : Mark t tok → Marks t [tok]
  | two {t1 tok1 t2 tok2 m} : Mark t1 tok1 → Mark t2 tok2 → Marks (t1 ++ (Block.spaces (m + 1) ++ t2)) [tok1, tok2]

theorem label_marks [Block.Handles] {l a tg} (h : Block.Label false l a tg) : ∃ toks, Marks l toks ∧ LToks toks a tg := by
  cases h with
  | anchor h => exact ⟨_, .one (anchor_mark false h), .anchor⟩
  | tag h =>
    obtain ⟨hd, sf, h1, h2⟩ := tagText_mark h
    exact ⟨_, .one h1, .tag h2⟩
  | anchorTag h h' =>
    obtain ⟨hd, sf, h1, h2⟩ := tagText_mark h'
    exact ⟨_, .two (anchor_mark false h) h1, .anchorTag h2⟩
  | tagAnchor h h' =>
    obtain ⟨hd, sf, h1, h2⟩ := tagText_mark h'
    exact ⟨_, .two h1 (anchor_mark false h), .tagAnchor h2⟩

theorem Marks.label {l toks} (h : Marks l toks) : LabelG l toks := by
  cases h with
  | one h => exact h.label
  | two h1 h2 => exact h1.two h2

theorem Marks.starts {l toks u} (h : Marks l toks) : Starts (l ++ u) := by
  cases h with
  | one h => exact h.starts
  | two h1 h2 => rw [List.append_assoc]; exact h1.starts

theorem Marks.starts' {l toks} (h : Marks l toks) : Starts l := by simpa using h.starts (u := [])

/-- nothing but a label, or an alias -/
theorem LabelG.alone {l toks p c} (h : LabelG l toks) : NodeG false none p c l toks := by
  intro cfg s out I i i0 I0 w q c' al' I' i' k hh _ hx hb h0 hi hp he _ hf hu
  have := h (c' := c') (I' := I') (i' := i') (n := k) hh hx h0 hi he.1 he.head he.pend (fun hq m _ => (he.col hq m).1) hf ((hx.unroll he.low).trans hu)
  by_cases hq : q = []
  · subst hq
    obtain ⟨m, s', f, h', hb⟩ := this
    exact ⟨m, s', f, h'.nil _, hb⟩
  · rw [(he.col hq ⟨0, 0, 0⟩).2.2] at this
    exact this

/-- a label before a node on the same line -/
theorem LabelG.inline {l toks p c f m t toks'} (h : LabelG l toks) (hl : Starts l) (h' : NodeG false f p (c + l.length + (m + 1)) t toks') (hs : Starts t) :
    NodeG false f p c (l ++ (Block.spaces (m + 1) ++ t)) (toks ++ toks') := by
  intro cfg s out I i i0 I0 w q c' al' I' i' k hh _ hx hb h0 hi hp he hfo hf hu
  have e : (l ++ (Block.spaces (m + 1) ++ t)) ++ (w ++ q) = l ++ (Block.spaces (m + 1) ++ (t ++ (w ++ q))) := by simp
  rw [e] at hh hf ⊢
  have hne : t ++ (w ++ q) ≠ [] := by simp [hs.1]
  have hlen := List.length_pos_iff.2 hl.1
  have := h (c' := c + l.length + (m + 1)) (I' := I) (i' := i) (n := 0) hh hx h0 hi spaces_lay' (hs.2 _ he.pend).1 (.inr (.inl rfl))
    (fun _ k hk => by rw [spaces_col, hk]) hf (by rw [lowCol_deep hne (by omega)]; exact unroll_ok (by have := hx.le; omega))
  refine this.then fun s' hh' => ?_
  have := h' hh' (by simp) hx hb h0 (by omega) hp he hfo (by simp at hf ⊢; omega) hu
  simpa using this

/-- a label before a node on a later line -/
theorem LabelG.under {l toks p c f m g t toks'} (h : LabelG l toks) (hg : Block.Break m g) (hm : p ≤ m) (h' : NodeG true f p (m + 1) t toks') (hs : Starts t) :
    NodeG false f p c (l ++ (g ++ t)) (toks ++ toks') := by
  intro cfg s out I i i0 I0 w q c' al' I' i' k hh _ hx hb h0 hi hp he hfo hf hu
  have e : (l ++ (g ++ t)) ++ (w ++ q) = l ++ (g ++ (t ++ (w ++ q))) := by simp
  rw [e] at hh hf ⊢
  have := h (c' := m + 1) (I' := I) (i' := i) (n := 0) hh hx h0 hi (break_lay hg) (hs.2 _ he.pend).1 (break_pend hg)
    (fun _ k _ => break_col hg k) hf (by rw [hs.low he.pend]; exact unroll_ok (by have := hx.le; omega))
  rw [break_newline hg] at this
  refine this.then fun s' hh' => ?_
  have := h' hh' (fun _ => rfl) hx hb h0 (by omega) hp he hfo (by simp at hf ⊢; omega) hu
  simpa using this

/-- an entry whose value is a label and a sequence in the column of the key -/
theorem entry_labelled {f n k tok j m l ltoks g t toks} (hk : LeafText k tok) (hj : k.length + j ≤ 1024) (hl : LabelG l ltoks) (hls : ∀ u, Starts (l ++ u)) (hg : Block.Break n g)
    (h : PartG .blockSequenceStart f (n + 1) t toks) (hs : Starts t) :
    PartG .blockMappingStart f (n + 1) (k ++ (Block.spaces j ++ 58 :: (Block.spaces (m + 1) ++ (l ++ (g ++ t))))) (.key :: tok :: .value :: (ltoks ++ toks)) := by
  intro cfg s out I i i0 I0 w q c' I' i' z b hh ho he hfo hf hu
  have e : (k ++ (Block.spaces j ++ 58 :: (Block.spaces (m + 1) ++ (l ++ (g ++ t))))) ++ (w ++ q) =
    k ++ (Block.spaces j ++ (58 :: (Block.spaces (m + 1) ++ (l ++ (g ++ (t ++ (w ++ q))))))) := by simp
  rw [e] at hh hf ⊢
  have hs' := hls (g ++ t)
  have hq : TokenHead (l ++ (g ++ (t ++ (w ++ q)))) := by simpa using (hs'.2 _ he.pend).1
  have hne : l ++ (g ++ (t ++ (w ++ q))) ≠ [] := by have := (hls []).1; simp at this; simp [this]
  obtain ⟨I1, i1, hx, hgo⟩ := pair_lay (c' := n + 1 + k.length + j + 1 + (m + 1)) (w := Block.spaces (m + 1)) hh hk spaces_mem (by rw [spaces_len]; exact hj) (by omega) ho spaces_lay' hq (.inr (.inl rfl))
    (fun _ x hx => by rw [spaces_col, hx, spaces_len]) hf
  have := hgo I1 i1 0 (by rw [lowCol_deep hne (by omega)]; exact unroll_ok (by have := hx.le; omega))
  refine this.then fun s' h' => ?_
  have := hl (c' := n + 1) (I' := ⟨i0, true⟩ :: I0) (i' := n + 1) (n := 0) h' hx (by simp) (by omega) (break_lay hg) (hs.2 _ he.pend).1 (break_pend hg)
    (fun _ k _ => break_col hg k) (by simp at hf ⊢; omega) (by rw [hs.low he.pend, hx.unroll (Nat.le_refl _)]; exact unroll_ok (Nat.le_refl _))
  rw [break_newline hg] at this
  refine this.then fun s' h' => ?_
  have := h h' (.inr ⟨rfl, rfl, rfl⟩) he hfo (by simp at hf ⊢; omega) hu
  simpa using this

/-- an indicator with a label and a sequence in the same column -/
theorem lead_labelled {c0 tok e f n m l ltoks g t toks} (hld : LeadG .blockMappingStart c0 tok e) (hl : LabelG l ltoks) (hls : ∀ u, Starts (l ++ u)) (hg : Block.Break n g)
    (h : PartG .blockSequenceStart f (n + 1) t toks) (hs : Starts t) :
    PartG .blockMappingStart f (n + 1) (c0 :: (Block.spaces (m + 1) ++ (l ++ (g ++ t)))) (tok :: (ltoks ++ toks)) := by
  intro cfg s out I i i0 I0 w q c' I' i' z b hh ho he hfo hf hu
  have e : (c0 :: (Block.spaces (m + 1) ++ (l ++ (g ++ t)))) ++ (w ++ q) = c0 :: (Block.spaces (m + 1) ++ (l ++ (g ++ (t ++ (w ++ q))))) := by simp
  rw [e] at hh hf ⊢
  have hs' := hls (g ++ t)
  have hq : TokenHead (l ++ (g ++ (t ++ (w ++ q)))) := by simpa using (hs'.2 _ he.pend).1
  have hne : l ++ (g ++ (t ++ (w ++ q))) ≠ [] := by have := (hls []).1; simp at this; simp [this]
  obtain ⟨I1, i1, hx, hgo⟩ := hld (c' := n + 1 + 1 + (m + 1)) (w := Block.spaces (m + 1)) hh ho spaces_lay' hq (.inr (.inl rfl)) (fun h => by cases h)
    (fun _ x hx => by rw [spaces_col, hx]) hf
  have := hgo I1 i1 0 (by rw [lowCol_deep hne (by omega)]; exact unroll_ok (by have := hx.le; omega))
  refine this.then fun s' h' => ?_
  have := hl (c' := n + 1) (I' := ⟨i0, true⟩ :: I0) (i' := n + 1) (n := 0) h' hx (by simp) (by omega) (break_lay hg) (hs.2 _ he.pend).1 (break_pend hg)
    (fun _ k _ => break_col hg k) (by simp at hf ⊢; omega) (by rw [hs.low he.pend, hx.unroll (Nat.le_refl _)]; exact unroll_ok (Nat.le_refl _))
  rw [break_newline hg] at this
  refine this.then fun s' h' => ?_
  have := h h' (.inr ⟨rfl, rfl, rfl⟩) he hfo (by simp at hf ⊢; omega) hu
  simpa using this

end Verif.Scanner
