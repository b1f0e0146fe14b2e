import Verif.Lemmas.ScanTag
import Verif.Lemmas.EmitText
import Verif.Lemmas.LiteralText
/-!
# Scanning what the emitter writes
-/
namespace Verif.Scanner
open Verif Verif.CharUtils Verif.Source Verif.Emitter
variable {F : Type}

/-- the token a scalar is read as -/
def scalarTok (fo : FloatOps F) : Scalar F → TokenType
  | .str v => .scalar (if needQuotes fo v then .doubleQuote else .plain) v
  | x => .scalar .plain (scalarTxt fo x)

/-- the token a scalar is read as, if it may have been written as a block -/
def leafTok (fo : FloatOps F) (ec : Config) : Scalar F → TokenType
  | .str v => if shouldEmitStringAsBlock ec v then .scalar .literal v else scalarTok fo (.str v)
  | x => scalarTok fo x

theorem leafTok_plain {fo : FloatOps F} {ec x} (h : isBlockScalar ec x = false) : leafTok fo ec x = scalarTok fo x := by
  cases x with
  | str v => simp only [isBlockScalar] at h; rw [leafTok, h]; simp
  | _ => rfl

/-- written as text that is read as one token -/
def LeafOk (fo : FloatOps F) (ec : Config) (doc : Bool) (x : Scalar F) : Prop :=
  (isBlockScalar ec x = false ∧ ScalarText (scalarTxt fo x) (scalarTok fo x)) ∨ ∃ v, x = .str v ∧ shouldEmitStringAsBlock ec v = true ∧ Spec.LiteralBack doc v

/-- every scalar is written as text that is read as one token, the simple keys are short enough and no blocks, and tags are local and not on keys -/
def Scans (fo : FloatOps F) (ec : Config) (doc : Bool) : Yaml F → Prop
  | .seq [] => True
  | .seq (x :: xs) => Scans fo ec false x ∧ Scans fo ec false (.seq xs)
  | .map [] => True
  | .map ((k, v) :: es) =>
    Scans fo ec false k ∧ Scans fo ec false v ∧ (PlainKey ec k ∧ ∀ x, k = .scalar x → (scalarTxt fo x).length ≤ 1024) ∧ Scans fo ec false (.map es)
  | .tagged t x => (t.handle = [33] ∧ t.suffix ≠ [] ∧ ∀ b ∈ t.suffix, Spec.TagByte b) ∧ (∀ t' y, x ≠ .tagged t' y) ∧ Scans fo ec doc x
  | .scalar x => LeafOk fo ec doc x
  | _ => False

theorem Scans.seqs {fo : FloatOps F} {ec doc xs} (h : Scans fo ec doc (.seq xs)) (d : Bool) : Scans fo ec d (.seq xs) := by
  cases xs <;> rw [Scans] at * <;> exact h

theorem Scans.maps {fo : FloatOps F} {ec doc es} (h : Scans fo ec doc (.map es)) (d : Bool) : Scans fo ec d (.map es) := by
  cases es <;> rw [Scans] at * <;> exact h

mutual
/-- the tokens of a node -/
def nodeToks (fo : FloatOps F) (ec : Config) : Yaml F → List TokenType
  | .seq xs => seqToks fo ec xs
  | .map es => mapToks fo ec es
  | .scalar x => [leafTok fo ec x]
  | .tagged t x => .tag [33] t.suffix :: nodeToks fo ec x
  | _ => []
def seqToks (fo : FloatOps F) (ec : Config) : List (Yaml F) → List TokenType
  | [] => [.flowSequenceStart, .flowSequenceEnd]
  | x :: xs => .blockSequenceStart :: .blockEntry :: (nodeToks fo ec x ++ (itemToks fo ec xs ++ [.blockEnd]))
def itemToks (fo : FloatOps F) (ec : Config) : List (Yaml F) → List TokenType
  | [] => []
  | x :: xs => .blockEntry :: (nodeToks fo ec x ++ itemToks fo ec xs)
def mapToks (fo : FloatOps F) (ec : Config) : List (Yaml F × Yaml F) → List TokenType
  | [] => [.flowMappingStart, .flowMappingEnd]
  | e :: es => .blockMappingStart :: (entryToks fo ec e ++ (entriesToks fo ec es ++ [.blockEnd]))
def entriesToks (fo : FloatOps F) (ec : Config) : List (Yaml F × Yaml F) → List TokenType
  | [] => []
  | e :: es => entryToks fo ec e ++ entriesToks fo ec es
def entryToks (fo : FloatOps F) (ec : Config) : Yaml F × Yaml F → List TokenType
  | (k, v) => .key :: (nodeToks fo ec k ++ .value :: nodeToks fo ec v)
end

theorem ScalarText.head {t tok post} (h : ScalarText t tok) : TokenHead (t ++ post) := by
  cases h with
  | plain h _ =>
    obtain ⟨c, t', rfl, hc⟩ := h.cons
    intro d hd
    simp at hd
    subst hd
    simp [hc.1, hc.2.1, hc.2.2.1, hc.2.2.2.1, hc.2.2.2.2.1, hc.2.2.2.2.2.1]
  | quoted _ => simp [TokenHead]

theorem head_append {t post : List Byte} (h : t ≠ []) (ht : TokenHead t) : TokenHead (t ++ post) := by
  intro c hc
  cases t with
  | nil => exact absurd rfl h
  | cons a t => exact ht c (by simpa using hc)

mutual
theorem nodeTxt_head {fo : FloatOps F} {ec doc l} (x : Yaml F) (h : Scans fo ec doc x) : nodeTxt fo ec l x ≠ [] ∧ TokenHead (nodeTxt fo ec l x) := by
  match x with
  | .seq [] => rw [nodeTxt, seqTxt]; simp [TokenHead]
  | .seq (x :: xs) => rw [nodeTxt, seqTxt]; simp [TokenHead]
  | .map [] => rw [nodeTxt, mapTxt]; simp [TokenHead]
  | .map (e :: es) =>
    rw [nodeTxt, mapTxt]
    have hx : Scans fo ec false e.1 := by obtain ⟨k, v⟩ := e; rw [Scans] at h; exact h.1
    have := entryTxt_head (ec := ec) (l := l) e hx
    exact ⟨by simp [this.1], head_append this.1 this.2⟩
  | .scalar x =>
    rw [Scans] at h
    rw [nodeTxt]
    rcases h with ⟨hb, h⟩ | ⟨v, rfl, hb, -⟩
    · rw [leafTxt_plain hb]
      exact ⟨h.ne, by simpa using h.head (post := [])⟩
    · rw [leafTxt, if_pos hb]
      unfold blockTxt
      split <;> simp [TokenHead]
  | .bad => simp [Scans] at h
  | .tagged t y =>
    rw [Scans] at h
    rw [nodeTxt, displayTag, if_pos h.1.1]
    simp [TokenHead]
  | .alias _ => simp [Scans] at h
theorem entryTxt_head {fo : FloatOps F} {ec doc l} (e : Yaml F × Yaml F) (h : Scans fo ec doc e.1) : entryTxt fo ec l e ≠ [] ∧ TokenHead (entryTxt fo ec l e) := by
  match e with
  | (k, v) =>
    rw [entryTxt]
    split
    · simp [TokenHead]
    · have := nodeTxt_head (ec := ec) (l := l) k h
      exact ⟨by simp [this.1], head_append this.1 this.2⟩
end

/-- a scalar written as a block, possibly after a tag -/
def topBlock (ec : Config) : Yaml F → Bool
  | .scalar x => isBlockScalar ec x
  | .tagged _ y => topBlock ec y
  | _ => false

theorem ScalarText.noMark {t tok post} (h : ScalarText t tok) : ¬ DocMark (t ++ post) := by
  intro hd
  obtain ⟨x, r, hx, hr, -⟩ := hd.cons
  have := h.marker (c := 1) (post := post) rfl
  obtain ⟨a, r', h1, -, h5, h2⟩ := this
  rw [hr] at h1
  cases h1
  rcases hx with rfl | rfl
  · obtain ⟨b, r', h3, h4⟩ := h2 rfl
    cases h3
    exact h4 rfl
  · contradiction

theorem noMark_head {a : Byte} {t : List Byte} (h : a ≠ 45 ∧ a ≠ 46) : ¬ DocMark (a :: t) := by
  intro hd
  obtain ⟨x, r, hx, hr, -⟩ := hd.cons
  cases hr
  omega

mutual
theorem nodeTxt_noMark {fo : FloatOps F} {ec doc l} (x : Yaml F) (h : Scans fo ec doc x) (post : List Byte) : ¬ DocMark (nodeTxt fo ec l x ++ post) := by
  match x with
  | .seq [] => rw [nodeTxt, seqTxt]; exact noMark_head (by decide)
  | .seq (x :: xs) =>
    rw [nodeTxt, seqTxt]
    unfold valGap
    intro hd
    obtain ⟨x, r, -, hr, -⟩ := hd.cons
    split at hr <;> simp at hr <;> omega
  | .map [] => rw [nodeTxt, mapTxt]; exact noMark_head (by decide)
  | .map (e :: es) =>
    rw [nodeTxt, mapTxt, List.append_assoc]
    have hx : Scans fo ec false e.1 := by obtain ⟨k, v⟩ := e; rw [Scans] at h; exact h.1
    exact entryTxt_noMark e hx _
  | .scalar x =>
    rw [Scans] at h
    rw [nodeTxt]
    rcases h with ⟨hb, h⟩ | ⟨v, rfl, hb, -⟩
    · rw [leafTxt_plain hb]
      exact h.noMark
    · rw [leafTxt, if_pos hb]
      unfold blockTxt
      split <;> exact noMark_head (by decide)
  | .bad => simp [Scans] at h
  | .tagged t y =>
    rw [Scans] at h
    rw [nodeTxt, displayTag, if_pos h.1.1]
    exact noMark_head (by decide)
  | .alias _ => simp [Scans] at h
theorem entryTxt_noMark {fo : FloatOps F} {ec doc l} (e : Yaml F × Yaml F) (h : Scans fo ec doc e.1) (post : List Byte) : ¬ DocMark (entryTxt fo ec l e ++ post) := by
  match e with
  | (k, v) =>
    rw [entryTxt]
    split
    · exact noMark_head (by decide)
    · rw [List.append_assoc]
      exact nodeTxt_noMark k h _
end

theorem valGap_inline {ec : Config} {l c : Nat} {x : Yaml F} {inline : Bool} (hc : c = 2 * l + 1) : VGap (valGap ec (l + 1) inline x) c (c + 2) := by
  unfold valGap ind
  split
  · exact .inr ⟨by rw [show c + 2 - 1 = 2 * (l + 1) by omega], by omega⟩
  · exact .inl ⟨rfl, rfl⟩

theorem End.deeper {w q c' i0 c} (h : End w q c' i0) (hc : i0 < c) : End w q c' c := by
  rcases h with h | ⟨h1, h2, h3, h4⟩
  · exact .inl h
  · exact .inr ⟨h1, h2, .inl (by omega), h4⟩

theorem unroll_close {w q c' i0 I0 c I' i' n} (he : End w q c' i0) (hc : i0 < c) (hu : unroll (lowCol q c') i0 I0 = some (I', i', n)) :
    unroll (lowCol q c') c (⟨i0, true⟩ :: I0) = some (I', i', n + 1) := by
  have := he.low
  rw [unroll_step (by omega), hu]
  rfl

theorem next_end {l c : Nat} {q : List Byte} (hc : c = 2 * l + 1) (hq : q ≠ []) (hh : TokenHead q) : End (10 :: ind l) q c c :=
  .inr ⟨by unfold ind; rw [show c - 1 = 2 * l by omega], by omega, .inl (by omega), hh, hq⟩

mutual
theorem node_goes {fo : FloatOps F} {ec : Config} {doc : Bool} {cfg : Cfg} {s out I i i0 I0 w q c c' al I' i' n l} (x : Yaml F) (hx : Scans fo ec doc x) (hdl : l = 0 → doc = true)
    (h : Here cfg s out I i (nodeTxt fo ec l x ++ (w ++ q)) c al) (hil : i0 < 2 * l + 1) (hl0 : l = 0 → i = 0) (hcol : isNonEmptyCollection x = true → al = true ∧ c = 2 * l + 1)
    (hctx : BCtx I i i0 I0) (hb : BlockTop I0) (hi : i0 < c) (he : End w q c' i0) (hf : (nodeTxt fo ec l x ++ (w ++ q)).length < cfg.fuel)
    (hu : unroll (lowCol q c') i0 I0 = some (I', i', n)) (hbl : l = 0 → topBlock ec x = true → ¬ DocMark q) :
    Goes cfg s (nodeTxt fo ec l x ++ (w ++ q)).length (out ++ nodeToks fo ec x ++ List.replicate n .blockEnd) I' i' q c' true := by
  match x with
  | .scalar x =>
    rw [Scans] at hx
    rw [nodeTxt] at h hf ⊢
    rw [nodeToks]
    rcases hx with ⟨hpl, hx⟩ | ⟨v, rfl, hbk, hv⟩
    · rw [leafTxt_plain hpl] at h hf ⊢
      rw [leafTok_plain hpl]
      exact scalar_goes h hx hctx hb hi he hf hu
    · rw [leafTxt, if_pos hbk] at h hf ⊢
      rw [leafTok, if_pos hbk]
      obtain ⟨strip, k, y, gs, e1, e2, h1, h2, h3, h4⟩ := literal_shape hv l hdl
      rw [e1] at h hf ⊢
      rw [← e2]
      exact block_goes h hctx hb hi hil he h1 h2 h3 h4 (fun hC => hbl (by omega) (by simp [topBlock, isBlockScalar, hbk])) hf hu
  | .seq [] =>
    rw [nodeTxt, seqTxt] at h hf ⊢
    rw [nodeToks, seqToks]
    exact empty_goes h .seq hctx hi he hf hu
  | .map [] =>
    rw [nodeTxt, mapTxt] at h hf ⊢
    rw [nodeToks, mapToks]
    exact empty_goes h .map hctx hi he hf hu
  | .seq (x :: xs) =>
    obtain ⟨rfl, hc⟩ := hcol rfl
    rw [nodeTxt] at h hf ⊢
    have := seq_goes (x :: xs) (hx.seqs _) (by simp) h (.inl ⟨hctx, hb, hi, rfl⟩) hc hi he hf hu
    rw [nodeToks, seqToks]
    simpa [itemToks] using this
  | .map (e :: es) =>
    obtain ⟨rfl, hc⟩ := hcol rfl
    rw [nodeTxt] at h hf ⊢
    have := map_goes (e :: es) (hx.maps _) (by simp) h (.inl ⟨hctx, hb, hi, rfl⟩) hc hi he hf hu
    rw [nodeToks, mapToks]
    simpa [entriesToks] using this
  | .bad => simp [Scans] at hx
  | .tagged t y =>
    rw [Scans] at hx
    obtain ⟨⟨ht1, ht2, ht3⟩, -, hy⟩ := hx
    obtain ⟨hn, hh⟩ := nodeTxt_head (ec := ec) (l := l) y hy
    have e1 : nodeTxt fo ec l (.tagged t y) ++ (w ++ q) = 33 :: (t.suffix ++ ((32 :: (if isNonEmptyCollection y then 10 :: ind l else [])) ++ (nodeTxt fo ec l y ++ (w ++ q)))) := by
      rw [nodeTxt, displayTag, if_pos ht1]; simp
    rw [e1] at h hf ⊢
    have hle : i ≤ i0 + 1 := by rcases hctx with ⟨-, rfl⟩ | ⟨-, rfl⟩ <;> omega
    rw [nodeToks]
    by_cases hc : isNonEmptyCollection y = true
    · rw [if_pos hc] at h hf ⊢
      have hg := tag_goes (c' := 2 * l + 1) h ht2 ht3 hctx hi (by omega) (by by_cases hl : l = 0; exact .inr (hl0 hl); exact .inl (by omega))
        (.inr ⟨by simp [ind], by omega⟩) (head_append hn hh) (by simp [hn]) (nodeTxt_noMark y hy _) hf
      refine hg.then fun s' h' => ?_
      have := node_goes y hy hdl h' hil hl0 (fun _ => ⟨by simp, rfl⟩) hctx hb hil he (by simp at hf ⊢; omega) hu (fun h1 h2 => hbl h1 (by rw [topBlock]; exact h2))
      simpa using this
    · rw [if_neg hc] at h hf ⊢
      have hg := tag_goes (c' := c + t.suffix.length + 2) h ht2 ht3 hctx hi (by omega) (.inl (by omega))
        (.inl ⟨rfl, rfl⟩) (head_append hn hh) (by simp [hn]) (nodeTxt_noMark y hy _) hf
      refine hg.then fun s' h' => ?_
      have := node_goes y hy hdl h' hil hl0 (fun hx => absurd hx hc) hctx hb (by omega) he (by simp at hf ⊢; omega) hu (fun h1 h2 => hbl h1 (by rw [topBlock]; exact h2))
      simpa using this
  | .alias _ => simp [Scans] at hx
theorem seq_goes {fo : FloatOps F} {ec : Config} {cfg : Cfg} {s out I i i0 I0 w q c c' I' i' n l b} (xs : List (Yaml F)) (hx : Scans fo ec false (.seq xs)) (hne : xs ≠ [])
    (h : Here cfg s out I i (seqTxt fo ec l xs ++ (w ++ q)) c true) (ho : Opens I i i0 I0 c .blockSequenceStart b) (hc : c = 2 * l + 1)
    (hi : i0 < c) (he : End w q c' i0) (hf : (seqTxt fo ec l xs ++ (w ++ q)).length < cfg.fuel)
    (hu : unroll (lowCol q c') i0 I0 = some (I', i', n)) :
    Goes cfg s (seqTxt fo ec l xs ++ (w ++ q)).length (out ++ b ++ itemToks fo ec xs ++ .blockEnd :: List.replicate n .blockEnd) I' i' q c' true := by
  match xs with
  | [] => exact absurd rfl hne
  | x :: ys =>
    rw [Scans] at hx
    obtain ⟨hn, hh⟩ := nodeTxt_head (ec := ec) (l := l + 1) x hx.1
    have e1 : seqTxt fo ec l (x :: ys) ++ (w ++ q) = 45 :: (valGap ec (l + 1) true x ++ (nodeTxt fo ec (l + 1) x ++ (itemsTxt fo ec l ys ++ (w ++ q)))) := by
      rw [seqTxt]; simp
    rw [e1] at h hf ⊢
    obtain ⟨I1, i1, hctx, hg⟩ := item_goes h ho (valGap_inline hc) (head_append hn hh) (by simp [hn]) (nodeTxt_noMark x hx.1 _) hf
    refine hg.then fun s' h' => ?_
    match ys with
    | [] =>
      rw [itemsTxt, List.nil_append] at h' hf ⊢
      have := node_goes x hx.1 (by omega) h' (by omega) (by omega) (fun _ => ⟨rfl, by omega⟩) hctx (.inr ⟨_, _, rfl⟩) (by omega) (he.deeper (by omega)) (by simp at hf ⊢; omega)
        (unroll_close he hi hu) (fun h => by omega)
      rw [itemToks, itemToks]
      simpa [List.replicate_succ] using this
    | y :: ys =>
      have e2 : itemsTxt fo ec l (y :: ys) ++ (w ++ q) = (10 :: ind l) ++ (seqTxt fo ec l (y :: ys) ++ (w ++ q)) := by
        rw [itemsTxt, seqTxt]; simp
      have e3 : (itemsTxt fo ec l (y :: ys)).length = (10 :: ind l).length + (seqTxt fo ec l (y :: ys)).length := by
        rw [itemsTxt, seqTxt]; simp; omega
      rw [e2] at h' hf ⊢
      have := node_goes (I' := ⟨i0, true⟩ :: I0) (i' := c) (n := 0) x hx.1 (by omega) h' (by omega) (by omega) (fun _ => ⟨rfl, by omega⟩) hctx (.inr ⟨_, _, rfl⟩) (by omega)
        (next_end hc (by rw [seqTxt]; simp) (by rw [seqTxt]; simp [TokenHead])) (by simp at hf ⊢; omega)
        (by rw [lowCol_eq (by rw [seqTxt]; simp) (by have := nodeTxt_noMark (ec := ec) (l := l) (.seq (y :: ys)) hx.2 (w ++ q); rwa [nodeTxt] at this)]; exact unroll_ok (Nat.le_refl _)) (fun h => by omega)
      refine this.then fun s2 h2 => ?_
      have := seq_goes (y :: ys) hx.2 (by simp) h2 (.inr ⟨rfl, rfl, rfl⟩) hc hi he (by simp at hf ⊢; omega) hu
      rw [itemToks]
      simpa using this
theorem map_goes {fo : FloatOps F} {ec : Config} {cfg : Cfg} {s out I i i0 I0 w q c c' I' i' n l b} (es : List (Yaml F × Yaml F)) (hx : Scans fo ec false (.map es)) (hne : es ≠ [])
    (h : Here cfg s out I i (mapTxt fo ec l es ++ (w ++ q)) c true) (ho : Opens I i i0 I0 c .blockMappingStart b) (hc : c = 2 * l + 1)
    (hi : i0 < c) (he : End w q c' i0) (hf : (mapTxt fo ec l es ++ (w ++ q)).length < cfg.fuel)
    (hu : unroll (lowCol q c') i0 I0 = some (I', i', n)) :
    Goes cfg s (mapTxt fo ec l es ++ (w ++ q)).length (out ++ b ++ entriesToks fo ec es ++ .blockEnd :: List.replicate n .blockEnd) I' i' q c' true := by
  match es with
  | [] => exact absurd rfl hne
  | e :: es =>
    have hx' : (Scans fo ec false e.1 ∧ Scans fo ec false e.2 ∧ PlainKey ec e.1 ∧ ∀ x, e.1 = .scalar x → (scalarTxt fo x).length ≤ 1024) ∧ Scans fo ec false (.map es) := by
      obtain ⟨k, v⟩ := e
      rw [Scans] at hx
      exact ⟨⟨hx.1, hx.2.1, hx.2.2.1⟩, hx.2.2.2⟩
    have e1 : mapTxt fo ec l (e :: es) ++ (w ++ q) = entryTxt fo ec l e ++ (entriesTxt fo ec l es ++ (w ++ q)) := by
      rw [mapTxt]; simp
    rw [e1] at h hf ⊢
    match es with
    | [] =>
      rw [entriesTxt, List.nil_append] at h hf ⊢
      have := entry_goes e hx'.1 h ho hc hi (he.deeper (by omega)) hf (unroll_close he hi hu)
      rw [entriesToks, entriesToks]
      simpa [List.replicate_succ] using this
    | e2 :: es =>
      obtain ⟨hn, hh⟩ := entryTxt_head (ec := ec) (l := l) e2 (by obtain ⟨k, v⟩ := e2; have := hx'.2; rw [Scans] at this; exact this.1)
      have hn2 : mapTxt fo ec l (e2 :: es) ≠ [] := by rw [mapTxt]; simp [hn]
      have hh2 : TokenHead (mapTxt fo ec l (e2 :: es)) := by rw [mapTxt]; exact head_append hn hh
      have e2' : entriesTxt fo ec l (e2 :: es) ++ (w ++ q) = (10 :: ind l) ++ (mapTxt fo ec l (e2 :: es) ++ (w ++ q)) := by
        rw [entriesTxt, mapTxt]; simp
      rw [e2'] at h hf ⊢
      have := entry_goes (I' := ⟨i0, true⟩ :: I0) (i' := c) (n := 0) e hx'.1 h ho hc hi
        (next_end hc (by simp [hn2]) (head_append hn2 hh2)) hf (by rw [lowCol_eq (by simp [hn2]) (by have := nodeTxt_noMark (ec := ec) (l := l) (.map (e2 :: es)) hx'.2 (w ++ q); rwa [nodeTxt] at this)]; exact unroll_ok (Nat.le_refl _))
      refine this.then fun s2 h2 => ?_
      have := map_goes (e2 :: es) hx'.2 (by simp) h2 (.inr ⟨rfl, rfl, rfl⟩) hc hi he (by simp at hf ⊢; omega) hu
      rw [entriesToks]
      simpa using this
theorem entry_goes {fo : FloatOps F} {ec : Config} {cfg : Cfg} {s out I i i0 I0 w q c c' I' i' n l b} (e : Yaml F × Yaml F)
    (hx : Scans fo ec false e.1 ∧ Scans fo ec false e.2 ∧ PlainKey ec e.1 ∧ ∀ x, e.1 = .scalar x → (scalarTxt fo x).length ≤ 1024)
    (h : Here cfg s out I i (entryTxt fo ec l e ++ (w ++ q)) c true) (ho : Opens I i i0 I0 c .blockMappingStart b) (hc : c = 2 * l + 1)
    (hi : i0 < c) (he : End w q c' c) (hf : (entryTxt fo ec l e ++ (w ++ q)).length < cfg.fuel)
    (hu : unroll (lowCol q c') c (⟨i0, true⟩ :: I0) = some (I', i', n)) :
    Goes cfg s (entryTxt fo ec l e ++ (w ++ q)).length (out ++ b ++ entryToks fo ec e ++ List.replicate n .blockEnd) I' i' q c' true := by
  match e with
  | (k, v) =>
    obtain ⟨hk, hv, hnt, hlen⟩ := hx
    obtain ⟨hnv, hhv⟩ := nodeTxt_head (ec := ec) (l := l + 1) v hv
    rw [entryToks]
    by_cases hcx : isComplexKey k = true
    · have e1 : entryTxt fo ec l (k, v) ++ (w ++ q) = 63 :: (valGap ec (l + 1) true k ++ (nodeTxt fo ec (l + 1) k ++ ((10 :: ind l) ++
          (58 :: (valGap ec (l + 1) true v ++ (nodeTxt fo ec (l + 1) v ++ (w ++ q))))))) := by
        rw [entryTxt, if_pos hcx]; simp
      obtain ⟨hnk, hhk⟩ := nodeTxt_head (ec := ec) (l := l + 1) k hk
      rw [e1] at h hf ⊢
      obtain ⟨I1, i1, hctx, hg⟩ := key_goes h ho (valGap_inline hc) (head_append hnk hhk) (by simp [hnk]) (nodeTxt_noMark k hk _) hf
      refine hg.then fun s1 h1 => ?_
      have := node_goes (I' := ⟨i0, true⟩ :: I0) (i' := c) (n := 0) k hk (by omega) h1 (by omega) (by omega) (fun _ => ⟨rfl, by omega⟩) hctx (.inr ⟨_, _, rfl⟩) (by omega)
        (next_end hc (by simp) (by simp [TokenHead])) (by simp at hf ⊢; omega)
        (by rw [lowCol_eq (by simp) (noMark_head (by decide))]; exact unroll_ok (Nat.le_refl _)) (fun h => by omega)
      refine this.then fun s2 h2 => ?_
      obtain ⟨I2, i2, hctx2, hg2⟩ := colon_goes h2 (valGap_inline hc) (head_append hnv hhv) (by simp [hnv]) (nodeTxt_noMark v hv _) (by simp at hf ⊢; omega)
      refine hg2.then fun s3 h3 => ?_
      have := node_goes v hv (by omega) h3 (by omega) (by omega) (fun _ => ⟨rfl, by omega⟩) hctx2 (.inr ⟨_, _, rfl⟩) (by omega) he (by simp at hf ⊢; omega) hu (fun h => by omega)
      simpa using this
    · match k with
      | .scalar x =>
        have e1 : entryTxt fo ec l (.scalar x, v) ++ (w ++ q) = scalarTxt fo x ++ (58 :: (valGap ec (l + 1) false v ++ (nodeTxt fo ec (l + 1) v ++ (w ++ q)))) := by
          rw [entryTxt, if_neg hcx, nodeTxt, leafTxt_plain (hnt.2 x rfl)]; simp
        rw [e1] at h hf ⊢
        rw [Scans] at hk
        have hk : ScalarText (scalarTxt fo x) (scalarTok fo x) := by
          rcases hk with ⟨-, hk⟩ | ⟨v, rfl, hbk, -⟩
          · exact hk
          · have := hnt.2 _ rfl; simp [isBlockScalar, hbk] at this
        have hkg : ∃ c'', KGap (valGap ec (l + 1) false v) c (scalarTxt fo x).length c'' ∧ c < c'' ∧
            (isNonEmptyCollection v = true → (valGap ec (l + 1) false v).contains 10 = true ∧ c'' = 2 * (l + 1) + 1) := by
          unfold valGap ind
          split
          · exact ⟨2 * (l + 1) + 1, .inr ⟨by simp, by omega⟩, by omega, fun _ => ⟨by simp, rfl⟩⟩
          · rename_i hnot
            exact ⟨c + (scalarTxt fo x).length + 2, .inl ⟨rfl, rfl⟩, by omega, fun hx => by simp [hx] at hnot⟩
        obtain ⟨c'', hkg, hlt, hcol⟩ := hkg
        obtain ⟨I1, i1, hctx, hg⟩ := pair_goes h hk (hlen x rfl) (by omega) ho hkg (head_append hnv hhv) (by simp [hnv]) (nodeTxt_noMark v hv _) hf
        refine hg.then fun s1 h1 => ?_
        have := node_goes v hv (by omega) h1 (by omega) (by omega) hcol hctx (.inr ⟨_, _, rfl⟩) (by omega) he (by simp at hf ⊢; omega) hu (fun h => by omega)
        rw [nodeToks, leafTok_plain (hnt.2 x rfl)]
        simpa using this
      | .seq _ => simp [isComplexKey] at hcx
      | .map _ => simp [isComplexKey] at hcx
      | .bad => simp [Scans] at hk
      | .tagged t y => exact absurd rfl (hnt.1 t y)
      | .alias _ => simp [Scans] at hk
end

end Verif.Scanner
