import Verif.Lemmas.ScanFlowTok
import Verif.Lemmas.LabelSem
/-!
# Nodes of flow collections inside of block collections
-/
namespace Verif.Scanner
open Verif Verif.CharUtils Verif.Source Verif.Emitter Verif.Spec
variable {F : Type}

/-! ## Gaps and beginnings -/

theorem space_gap {p g q} (h : Block.Space p g) : GapF p g q := by
  rcases h with ⟨n, rfl⟩ | ⟨n, hn, h⟩
  · refine ⟨spaces_lay', ?_, deep_flat fun b hb => by rw [spaces_mem b hb]; decide⟩
    cases n <;> simp [Block.spaces, List.replicate_succ]
  · refine ⟨break_lay h, ?_, fun m _ => by rw [break_col h]; omega⟩
    rcases break_first h with h | h <;> simp [h]

theorem space_first {p g} (h : Block.Space p g) : g = [] ∨ ∃ c r, g = c :: r ∧ (c = 32 ∨ c = 10) := by
  rcases h with ⟨n, rfl⟩ | ⟨n, hn, h⟩
  · cases n with
    | zero => exact .inl rfl
    | succ n => exact .inr ⟨_, _, rfl, .inl rfl⟩
  · cases g with
    | nil => exact .inl rfl
    | cons c g => exact .inr ⟨c, g, rfl, by simpa using break_first h⟩

/-- does not make a document marker of what stands before it -/
def Calmly (r : List Byte) : Prop := ∀ c r', r = c :: r' → c ≠ 45 ∧ c ≠ 46

/-- the text of a node in a flow collection: not a gap, and not a document marker -/
def FStarts (t : List Byte) : Prop := t ≠ [] ∧ ∀ r, Calmly r → TokenHead (t ++ r) ∧ NotMarkL (t ++ r)

theorem FStarts.starts {t} (h : FStarts t) : Starts t := by
  refine ⟨h.1, fun r hr => h.2 r ?_⟩
  rintro c r' rfl
  have : c = 32 ∨ c = 10 := by simpa [FirstBlank] using hr
  omega

theorem FStarts.append {t r} (h : FStarts t) (hr : ∀ r', Calmly r' → Calmly (r ++ r')) : FStarts (t ++ r) :=
  ⟨by simp [h.1], fun r' h' => by rw [List.append_assoc]; exact h.2 _ (hr r' h')⟩

theorem calmly_gap {p g r} (h : Block.Space p g) (hr : Calmly r) : Calmly (g ++ r) := by
  rcases space_first h with rfl | ⟨c, r', rfl, hc⟩
  · exact hr
  · intro d r'' e
    simp at e
    omega

theorem calmly_cons {c r} (h : c ≠ 45 ∧ c ≠ 46) : Calmly (c :: r) := by
  intro d r' e
  simp at e
  rw [← e.1]; exact h

theorem fstarts_cons {c : Byte} {t} (h : 33 ≤ c ∧ c ≠ 35 ∧ c ≠ 37 ∧ c ≠ 45 ∧ c ≠ 46) : FStarts (c :: t) := by
  refine ⟨by simp, fun r _ => ⟨?_, ?_, ?_⟩⟩
  · intro d hd; simp at hd; omega
  · simp; omega
  · intro x y hx e; simp at e; omega

theorem pfirst_starts {t i v} (h : PFirst t) (ht : PFlow i t v) : FStarts t := by
  obtain ⟨c0, t0, h0, hp, h35⟩ := ht.cons
  obtain ⟨⟨c, t', rfl, h1, -⟩, h3⟩ := h
  simp at h0
  obtain ⟨rfl, rfl⟩ := h0
  refine ⟨by simp, fun r hr => ⟨?_, ?_, ?_⟩⟩
  · intro d hd
    simp at hd
    subst hd
    obtain ⟨h1, h2, h3, h4, h5⟩ := hp
    exact ⟨h1, h5, h2, h3, h4, h35⟩
  · simp at h1 ⊢; omega
  · intro x r' hx e
    match t', e with
    | [], e =>
      simp at e
      have := hr _ _ e.2
      omega
    | [d], e =>
      simp at e
      have := hr _ _ e.2.2
      omega
    | d :: d' :: t', e =>
      simp at e
      obtain ⟨rfl, rfl, rfl, rfl⟩ := e
      obtain ⟨y, r', rfl, hy⟩ := h3 _ _ hx rfl
      exact ⟨y, _, rfl, hy.blank⟩

/-! ## Steps -/

theorem comma_step {cfg s out k ks n M i0 I0 L g q} (h : FlB cfg s out k ks n M i0 I0 L (44 :: (g ++ q))) (hg : GapF i0 g q) (hq : TokenHead q) :
    ∃ s' k', fetchNextToken cfg s = (.ok (), s') ∧ FlB cfg s' (out ++ [.flowEntry]) k' ks n M i0 I0 L q ∧ s'.simpleKeyAllowed = true ∧
      s'.flowMappingStarted = s.flowMappingStarted := by
  obtain ⟨s2, e, h2, hr, hcol, -, hfm, -, -⟩ := flb_fetch h (by simp) (by intro d hd; simp at hd; omega) ⟨by simp, by intro x y hx e; simp at e; omega⟩
  obtain ⟨sp, a, w', hw, hlay, e'⟩ := flowEntry_run (cfg := cfg) hr hg.lay hg.first hq h2.keys (h2.req k (by simp)) (by rw [h2.impl]; exact h2.poss)
  refine ⟨_, { k with possible := false }, e.trans e', ⟨⟨w', hlay, ?_, ?_⟩, ?_, h2.ctx, ?_, rfl, ?_, h2.level, h2.impl, h2.poss, h2.parsed, h2.started, ?_, ?_⟩, rfl, hfm⟩
  · exact pass_rest (a := 44 :: a) (l := false) (by rw [hr, hw]; simp)
  · show i0 < (gapMark (gapMark s2.mark (44 :: a)) w').col
    rw [← gapMark_append, show (44 :: a) ++ w' = [44] ++ g by rw [hw]; rfl]
    exact (Deep.append (deep_flat (by simp)) hg.deep) _ hcol
  · have hf := h2.fuel
    show (pass s2 (44 :: a) false).src.rest.length < _
    rw [pass_rest (a := 44 :: a) (r := w' ++ q) (by rw [hr, hw]; simp)]
    rw [hr, hw] at hf
    simp at hf ⊢; omega
  · rw [← h2.toks]; simp [types]
  · intro x hx
    rcases List.mem_cons.1 hx with rfl | hx
    · intro hy; cases hy
    · exact h2.req x (by simp [hx])
  · exact h2.fit.skip (by simp [hr, hw])
  · exact Nat.le_trans h2.line (gapMark_le _ _)

theorem colon_step {cfg s out toks k ks n M i0 I0 L g q} (h : FlB cfg s (out ++ toks) k ks n M i0 I0 L (58 :: (g ++ q))) (hg : GapF i0 g q) (hq : TokenHead q)
    (hk : k.possible = true ∧ k.tokenNumber = out.length) (hfm : s.flowMappingStarted = true)
    (hn : (∃ c r, g ++ q = c :: r ∧ (c = 32 ∨ c = 10 ∨ c = 44 ∨ c = 125 ∨ c = 93)) ∨ (g = [] ∧ s.src.rest = 58 :: (g ++ q) ∧ s.adjacentValueAllowedAt = s.mark.pos)) :
    ∃ s' k', fetchNextToken cfg s = (.ok (), s') ∧ FlB cfg s' (out ++ (.key :: (toks ++ [.value]))) k' ks n M i0 I0 L q ∧ s'.flowMappingStarted = true := by
  obtain ⟨s2, e, h2, hr, hcol, -, hfm2, hadj, hid⟩ := flb_fetch h (by simp) (by intro d hd; simp at hd; omega) ⟨by simp, by intro x y hx e; simp at e; omega⟩
  have hty : s2.tokens.length = (out ++ toks).length := by
    have := congrArg List.length h2.toks
    simpa [types] using this
  obtain ⟨sp, sp', e'⟩ := flowColon_run (cfg := cfg) (n := n) hr
    (by
      rcases hn with hn | ⟨h0, hx, hy⟩
      · exact .inl hn
      · refine .inr ⟨?_, ?_⟩
        · rw [h0, List.nil_append]
          intro hx
          exact (hq 9 hx).2.2.1 rfl
        · rw [hid hx]; exact hy)
    h2.level (hfm2.trans hfm) h2.keys hk.1 h2.parsed (by rw [hk.2, hty]; simp)
  refine ⟨_, { k with possible := false }, e.trans e', ⟨⟨g, hg.lay, ?_, ?_⟩, ?_, h2.ctx, ?_, rfl, ?_, h2.level, h2.impl, h2.poss, h2.parsed, h2.started, ?_, ?_⟩, hfm2.trans hfm⟩
  · exact pass_rest (a := [58]) (l := false) hr
  · show i0 < (gapMark (gapMark s2.mark [58]) g).col
    exact hg.deep _ (deep_flat (by simp) _ hcol)
  · have hf := h2.fuel
    show (pass s2 [58] false).src.rest.length < _
    rw [pass_rest (a := [58]) hr]
    rw [hr] at hf
    simp at hf ⊢; omega
  · have ht : s2.tokens.map (·.tt) = out ++ toks := h2.toks
    simp [types, ht, hk.2]
  · intro x hx
    rcases List.mem_cons.1 hx with rfl | hx
    · intro hy; cases hy
    · exact h2.req x (by simp [hx])
  · exact h2.fit.skip (by simp [hr])
  · exact Nat.le_trans h2.line (gapMark_le _ _)

/-! ## Goals -/

/-- a node in a flow collection is read as `toks` -/
def FNode (kind : Block.Kind) (p : Nat) (t : List Byte) (toks : List TokenType) : Prop :=
  ∀ {cfg s out k ks n M I0 L g q}, FlB cfg s out k ks n M p I0 L (t ++ (g ++ q)) → BlockTop I0 → GapF p g q → EndsF q → (kind = .plain → StopF q) → (kind = .mark → g = [] → q.head? ≠ some 58) → Calmly (g ++ q) →
    ∃ m s', Fetches cfg m s s' ∧ m ≤ t.length ∧ Post cfg s s' out toks ks n M p I0 L q (kind = .quoted ∨ kind = .nested ∧ 10 ∉ g)

/-- what stands between the brackets, with `close` after it; `fm`: there was a `{` -/
def Inner (close : Byte) (fm : Bool) (p : Nat) (r : List Byte) (toks : List TokenType) : Prop :=
  ∀ {cfg s out k ks n M I0 L q}, FlB cfg s out k ks n M p I0 L (r ++ close :: q) → BlockTop I0 → s.simpleKeyAllowed = true → (fm = true → s.flowMappingStarted = true) →
    ∃ m s' k', Fetches cfg m s s' ∧ m ≤ r.length ∧ FlB cfg s' (out ++ toks) k' ks n M p I0 L (close :: q) ∧ (s.flowMappingStarted = true → s'.flowMappingStarted = true)

/-- the brackets -/
inductive Brackets : Byte → Byte → TokenType → TokenType → Prop
  | seq : Brackets 91 93 .flowSequenceStart .flowSequenceEnd
  | map : Brackets 123 125 .flowMappingStart .flowMappingEnd

theorem Brackets.open {c d tt tt'} (h : Brackets c d tt tt') : (c = 91 ∧ tt = TokenType.flowSequenceStart) ∨ (c = 123 ∧ tt = .flowMappingStart) := by
  cases h <;> simp

theorem Brackets.close {c d tt tt'} (h : Brackets c d tt tt') : (d = 93 ∧ tt' = TokenType.flowSequenceEnd) ∨ (d = 125 ∧ tt' = .flowMappingEnd) := by
  cases h <;> simp

theorem Brackets.head {c d tt tt' q} (h : Brackets c d tt tt') : TokenHead (d :: q) ∧ NotMarkL (d :: q) := by
  cases h <;> exact ⟨by intro d hd; simp at hd; omega, by simp, by intro x y hx e; simp at e; omega⟩

theorem flowOpen_state {cfg : Cfg} {s : SSt} {c d tt tt' g q i0 I0 out k' ks n L} (hb : Brackets c d tt tt') (hr : s.src.rest = c :: (g ++ q)) (hg : GapF i0 g q) (hq : TokenHead q)
    (hx : BCtx s.indents s.indent i0 I0) (hfu : s.src.rest.length < cfg.fuel) (hty : types s = out) (hk : savedKeys s = k' :: ks)
    (hreq : ∀ x ∈ k' :: ks, x.possible = true → x.required = false) (hl : s.flowLevel = n) (hp : ∀ x ∈ s.implicitFlowMappingStates, x = .possible)
    (hpar : s.tokensParsed = 0) (hst : s.streamStartProduced = true) (hfit : Fit s.src) (hline : L ≤ s.mark.line) (hcol : i0 < s.mark.col) :
    ∃ s', fetchMain cfg s = (.ok (), s') ∧ FlB cfg s' (out ++ [tt]) (SimpleKey.new ⟨0, 0, 0⟩) (k' :: ks) n
      (if c = 91 then .possible :: s.implicitFlowMappingStates else s.implicitFlowMappingStates) i0 I0 L q ∧ s'.simpleKeyAllowed = true ∧
      (s.flowMappingStarted = true ∨ c = 123 → s'.flowMappingStarted = true) := by
  have hc10 : c ≠ 10 := by cases hb <;> decide
  obtain ⟨sp, e, w', I, i, hw, hlay, hx', e'⟩ := flowOpen_run (cfg := cfg) hb.open hr hg hq hx
  refine ⟨_, e', ⟨⟨w', hlay, ?_, ?_⟩, ?_, hx', ?_, by rw [← hk], ?_, ?_, rfl, ?_, hpar, hst, ?_, ?_⟩, rfl, ?_⟩
  · exact pass_rest (a := c :: e) (l := false) (by rw [hr, hw]; simp)
  · show i0 < (gapMark (gapMark s.mark (c :: e)) w').col
    rw [← gapMark_append, show (c :: e) ++ w' = [c] ++ g by rw [hw]; rfl]
    exact (Deep.append (deep_flat (by simp [hc10])) hg.deep) _ hcol
  · show (pass s (c :: e) false).src.rest.length < _
    rw [pass_rest (a := c :: e) (r := w' ++ q) (by rw [hr, hw]; simp)]
    rw [hr, hw] at hfu
    simp at hfu ⊢; omega
  · rw [← hty]; simp [types]
  · intro x hx
    rcases List.mem_cons.1 hx with rfl | hx
    · intro hy; cases hy
    · exact hreq x hx
  · show s.flowLevel + 1 = _
    rw [hl]
  · intro x hx
    split at hx
    · rcases List.mem_cons.1 hx with rfl | hx
      · rfl
      · exact hp x hx
    · exact hp x hx
  · exact hfit.skip (by simp [hr, hw])
  · exact Nat.le_trans hline (gapMark_le _ _)
  · rintro (h | h)
    · show (s.flowMappingStarted || _) = true
      rw [h]; rfl
    · show (_ || c == 123) = true
      rw [h]; simp

theorem nested_node {c d tt tt' p g r toks} (hb : Brackets c d tt tt') (hg : Block.Space p g) (hh : ∀ q, TokenHead (r ++ d :: q)) (hi : Inner d (c == 123) p r toks) :
    FNode .nested p (c :: (g ++ (r ++ [d]))) (tt :: (toks ++ [tt'])) := by
  intro cfg s out k ks n M I0 L g' q h hbt hg' hq _ _ hcm
  have e0 : (c :: (g ++ (r ++ [d]))) ++ (g' ++ q) = c :: (g ++ (r ++ d :: (g' ++ q))) := by simp
  rw [e0] at h
  have hstart : TokenHead (c :: (g ++ (r ++ d :: (g' ++ q)))) ∧ NotMarkL (c :: (g ++ (r ++ d :: (g' ++ q)))) := by
    cases hb <;> exact ⟨by intro d hd; simp at hd; omega, by simp, by intro x y hx e; simp at e; omega⟩
  obtain ⟨s2, e2, h2, hr2, hcol2, hal2, hfm2, -, -⟩ := flb_fetch h (by simp) hstart.1 hstart.2
  obtain ⟨k', hk', hreq', hkal⟩ := flb_keys h2
  obtain ⟨s3, e3, h3, hal3, hfm3⟩ := flowOpen_state (cfg := cfg) (n := n + 1) (L := L) hb hr2 (space_gap hg) (hh _) h2.ctx h2.fuel h2.toks hk'
    (fun x hx => by
      rcases List.mem_cons.1 hx with rfl | hx
      · exact hreq'
      · exact h2.req x (by simp [hx]))
    h2.level (by rw [h2.impl]; exact h2.poss) h2.parsed h2.started h2.fit h2.line hcol2
  obtain ⟨m, s4, k4, f4, hm4, h4, hfm4⟩ := hi h3 hbt hal3 (fun hx => hfm3 (.inr (by simpa using hx)))
  obtain ⟨s5, e5, h5, hr5, hcol5, -, hfm5, -, -⟩ := flb_fetch h4 (by simp) hb.head.1 hb.head.2
  obtain ⟨sp, e, w', hw, hlay, hw', he10, e6⟩ := flowClose_run (cfg := cfg) (n := n + 1) hb.close hr5 hg'.lay hg'.first hq.head h5.keys (h5.req k4 (by simp)) h5.level
    (by rw [h5.impl]; exact h5.poss)
  have hd10 : d ≠ 10 := by cases hb <;> decide
  have hrest : (pass s5 (d :: e) false).src.rest = w' ++ q := pass_rest (a := d :: e) (by rw [hr5, hw]; simp)
  have hM : (if d = 93 then s5.implicitFlowMappingStates.tail else s5.implicitFlowMappingStates) = M := by
    rw [h5.impl, h2.impl]
    cases hb <;> simp
  refine ⟨1 + m + 1, _, Fetches.step (e2.trans e3) (f4.trans (.step (e5.trans e6) .refl)), ?_, ⟨k', ⟨⟨w', hlay, hrest, ?_⟩, ?_, h5.ctx, ?_, rfl, ?_, rfl, hM, h.poss, h5.parsed, h5.started, ?_, ?_⟩, fun hx => hkal.1 (by rw [hal2]; exact hx), fun hx => by rw [h.keys, ← h2.keys]; exact hkal.2 (by rw [hal2]; exact hx)⟩, ?_, ?_⟩
  · simp; omega
  · show p < (gapMark (gapMark s5.mark (d :: e)) w').col
    rw [← gapMark_append, show (d :: e) ++ w' = [d] ++ g' by rw [hw]; rfl]
    exact (Deep.append (deep_flat (by simp [hd10])) hg'.deep) _ hcol5
  · have hf := h5.fuel
    show (pass s5 (d :: e) false).src.rest.length < _
    rw [hrest]
    rw [hr5, hw] at hf
    simp at hf ⊢; omega
  · have : types s5 = _ := h5.toks
    simp only [types] at this ⊢
    simp [this]
  · intro x hx
    rcases List.mem_cons.1 hx with rfl | hx
    · exact hreq'
    · exact h2.req x (by simp [hx])
  · exact h5.fit.skip (by simp [hr5, hw])
  · exact Nat.le_trans h5.line (gapMark_le _ _)
  · intro hx
    show s5.flowMappingStarted = true
    rw [hfm5]
    exact hfm4 (hfm3 (.inl (hfm2.trans hx)))
  · rintro (hx | ⟨-, hx⟩)
    · cases hx
    · have : w' = [] := by
        rcases hw' with h | ⟨w'', h⟩
        · exact h
        · exact absurd (by rw [hw, h]; simp) hx
      refine ⟨?_, ?_⟩
      · show (pass s5 (d :: e) false).src.rest = q
        rw [hrest, this, List.nil_append]
      · show (if n + 1 > 0 then (gapMark s5.mark (d :: e)).pos else s5.adjacentValueAllowedAt) = (gapMark s5.mark (d :: e)).pos
        rw [if_pos (by omega)]

/-- a flow collection in a block collection or a document -/
theorem nestedG {c d tt tt' p g r toks col} (hb : Brackets c d tt tt') (hg : Block.Space p g) (hh : ∀ q, TokenHead (r ++ d :: q)) (hi : Inner d (c == 123) p r toks) :
    NodeG false none p col (c :: (g ++ (r ++ [d]))) (tt :: (toks ++ [tt'])) := by
  intro cfg s out I i i0 I0 w q c' al' I' i' kk hhere _ hx hbt _ hi0 hp he _ hf hu
  subst hp
  have e0 : (c :: (g ++ (r ++ [d]))) ++ (w ++ q) = c :: (g ++ (r ++ d :: (w ++ q))) := by simp
  rw [e0] at hhere hf ⊢
  have hstart : NotMarkL (c :: (g ++ (r ++ d :: (w ++ q)))) := by
    cases hb <;> exact ⟨by simp, by intro x y hx e; simp at e; omega⟩
  obtain ⟨s2, hpos, e2⟩ := fetch_hereL hhere (by simp) (fun _ => hstart)
  have hr2 := hpos.rest
  obtain ⟨k, hk, hkp⟩ := hpos.keys
  have hsv : ∃ k', savedKeys s2 = [k'] ∧ (k'.possible = true → k'.required = false ∧ k'.mark.line ≤ s2.mark.line) := by
    unfold savedKeys
    split
    · exact ⟨keyHere s2, by simp [hk], fun _ => ⟨BCtx.notRequired (by rw [hpos.indents, hpos.indent]; exact hx) hpos.col hi0, Nat.le_refl _⟩⟩
    · exact ⟨k, hk, fun hx => ⟨(hkp hx).1, (hkp hx).2.2⟩⟩
  obtain ⟨k', hk', hkp'⟩ := hsv
  obtain ⟨s3, e3, h3, hal3, hfm3⟩ := flowOpen_state (cfg := cfg) (n := 0) (L := s2.mark.line) hb hr2 (space_gap hg) (hh _)
    (by rw [hpos.indents, hpos.indent]; exact hx) (by rw [hr2]; exact hf) hpos.toks hk'
    (fun x hx hy => by
      simp at hx
      subst hx
      exact (hkp' hy).1)
    hpos.calm.level (by rw [hpos.calm.impl]; simp) hpos.calm.parsed hpos.calm.started hpos.calm.fit (Nat.le_refl _) (by rw [hpos.col]; exact hi0)
  obtain ⟨m, s4, k4, f4, hm4, h4, hfm4⟩ := hi h3 hbt hal3 (fun hx => hfm3 (.inr (by simpa using hx)))
  obtain ⟨s5, e5, h5, hr5, hcol5, -, hfm5, -, -⟩ := flb_fetch h4 (by simp) hb.head.1 hb.head.2
  obtain ⟨sp, e, w', hw, hlay, hw', he10, e6⟩ := flowClose_run (cfg := cfg) (n := 0) hb.close hr5 he.1 he.2.1 he.head h5.keys (h5.req k4 (by simp)) h5.level
    (by rw [h5.impl]; exact h5.poss)
  have hrest : (pass s5 (d :: e) false).src.rest = w' ++ q := pass_rest (a := d :: e) (by rw [hr5, hw]; simp)
  have hM : (if d = 93 then s5.implicitFlowMappingStates.tail else s5.implicitFlowMappingStates) = [] := by
    rw [h5.impl, hpos.calm.impl]
    cases hb <;> simp
  have hln : w'.length < cfg.fuel := by
    rw [hw] at hf
    simp at hf; omega
  generalize hS : ({ pass s5 (d :: e) false with
      tokens := s5.tokens ++ [⟨sp, tt'⟩], simpleKeys := [k'], flowLevel := 0, simpleKeyAllowed := false,
      implicitFlowMappingStates := if d = 93 then s5.implicitFlowMappingStates.tail else s5.implicitFlowMappingStates,
      adjacentValueAllowedAt := if 0 > 0 then (gapMark s5.mark (d :: e)).pos else s5.adjacentValueAllowedAt } : SSt) = s6 at e6
  have t1 : s6.src.rest = w' ++ q := by rw [← hS]; exact hrest
  have t2 : s6.mark = gapMark s5.mark (d :: e) := by rw [← hS]; rfl
  have t3 : Calm s6 := by
    rw [← hS]
    exact ⟨rfl, hM, h5.parsed, h5.started, h5.fit.skip (by simp [hr5, hw])⟩
  have t4 : types s6 = out ++ (tt :: (toks ++ [tt'])) := by
    have := h5.toks
    rw [← hS]
    simp only [types] at this ⊢
    simp [this]
  have t5 : s6.simpleKeys = [k'] := by rw [← hS]
  have t6 : BCtx s6.indents s6.indent i0 I0 := by rw [← hS]; exact h5.ctx
  have t7 : s6.simpleKeyAllowed = false := by rw [← hS]
  have hmk : gapMark s6.mark w' = gapMark (gapMark s5.mark [d]) w := by
    rw [t2, ← gapMark_append, hw, ← gapMark_append]; rfl
  have hnp : isProp tt' = false := by cases hb <;> rfl
  have := here_lay (cfg := cfg) (s := s6) (w := w') (q := q) (c := c') (k := k') hlay t1 he.head hln t3
    (fun hq => by rw [hmk]; exact (he.col hq _).1) ((t6.unroll he.low).trans hu) t5
    (fun hx => ⟨(hkp' hx).1, fun hq => .inl (by
      rw [hmk]
      refine Nat.lt_of_le_of_lt (hkp' hx).2 (Nat.lt_of_le_of_lt h5.line (Nat.lt_of_le_of_lt (gapMark_le s5.mark [d]) (he.col hq _).2.1)))⟩)
    (NP.last (t4.trans (show out ++ (tt :: (toks ++ [tt'])) = (out ++ (tt :: toks)) ++ [tt'] by simp)) hnp)
  rw [t4] at this
  refine ⟨1 + m + 1, s6, Fetches.step (e2.trans e3) (f4.trans (.step (e5.trans e6) .refl)), ?_, by simp; omega⟩
  by_cases hq : q = []
  · subst hq
    exact this.nil _
  · have hc10 := (he.col hq s2.mark).2.2
    have : (s6.simpleKeyAllowed || w'.contains 10) = true := by
      rw [hw] at hc10
      rw [t7]
      have h0 := contains_false.2 he10
      simp at hc10 h0 ⊢
      rcases hc10 with h | h
      · exact absurd h h0
      · exact h
    rename_i hres
    rw [this] at hres
    exact hres
/-! ## Scalars -/

theorem plain_node {p t v} (ht : PFlow (p + 1) t v) (hp : PFirst t) (h58 : t.head? ≠ some 58) (hfl : ∀ b ∈ t, isFlow b = false) (hda : NoDash t) :
    FNode .plain p t [.scalar .plain v] := by
  intro cfg s out k ks n M I0 L g q h hbt hg hq hst _ hcm
  have hs := pfirst_starts hp ht
  obtain ⟨s2, e2, h2, hr2, hcol2, hal2, hfm2, -, -⟩ := flb_fetch h (by simp [hs.1]) (hs.2 _ hcm).1 (hs.2 _ hcm).2
  obtain ⟨s3, e3, h3⟩ := flowPlain_run h2 hbt hr2 hcol2 ht hp h58 hfl hda hg (hst rfl)
  obtain ⟨⟨k', h4, h5⟩, h6, h7⟩ := h3
  have hl : 0 < t.length := List.length_pos_iff.2 hs.1
  exact ⟨1, s3, .step (e2.trans e3) .refl, hl, ⟨k', h4, fun hx => h5.1 (hal2.trans hx), fun hx => by rw [h.keys, ← h2.keys]; exact h5.2 (hal2.trans hx)⟩, fun hx => h6 (hfm2.trans hx), by simp⟩

theorem quoted_node {p single m v} {qt : Byte} (hqt : qt = if single then 39 else 34) (hm : QFlow single (p + 1) m v) :
    FNode .quoted p (qt :: (m ++ [qt])) [.scalar (if single then .singleQuote else .doubleQuote) v] := by
  intro cfg s out k ks n M I0 L g q h hbt hg hq hst _ hcm
  have hs : FStarts (qt :: (m ++ [qt])) := fstarts_cons (by rw [hqt]; cases single <;> simp)
  obtain ⟨s2, e2, h2, hr2, hcol2, hal2, hfm2, -, -⟩ := flb_fetch h (by simp) (hs.2 _ hcm).1 (hs.2 _ hcm).2
  obtain ⟨s3, e3, h3⟩ := flowQuoted_run h2 hr2 hcol2 hqt hm hg hq
  obtain ⟨⟨k', h4, h5⟩, h6, h7⟩ := h3
  exact ⟨1, s3, .step (e2.trans e3) .refl, by simp, ⟨k', h4, fun hx => h5.1 (hal2.trans hx), fun hx => by rw [h.keys, ← h2.keys]; exact h5.2 (hal2.trans hx)⟩, fun hx => h6 (hfm2.trans hx), fun _ => h7 trivial⟩

/-! ## Labels -/

theorem mark_starts {t tok u} (h : Mark t tok) : FStarts (t ++ u) := by
  obtain ⟨c, r, rfl, hc⟩ := h.head
  exact fstarts_cons (by omega)

theorem marks_starts {l toks u} (h : Marks l toks) : FStarts (l ++ u) := by
  cases h with
  | one h => exact mark_starts h
  | two h1 h2 => rw [List.append_assoc]; exact mark_starts h1

theorem MEnd.level {r n} (h : MEnd 1 r) : MEnd (n + 1) r := by
  rcases h with h | ⟨c, r', h, h1 | h1 | h1⟩
  · exact .inl h
  · exact .inr ⟨c, r', h, .inl h1⟩
  · exact .inr ⟨c, r', h, .inr (.inl h1)⟩
  · exact .inr ⟨c, r', h, .inr (.inr ⟨by omega, h1.2⟩)⟩

theorem mark_step {cfg s out k ks n M i0 I0 L t tok g q} (h : FlB cfg s out k ks n M i0 I0 L (t ++ (g ++ q))) (hm : Mark t tok) (hg : GapF i0 g q) (he : MEnd 1 (g ++ q))
    (hcm : Calmly (g ++ q)) :
    ∃ s' k', fetchNextToken cfg s = (.ok (), s') ∧ FlB cfg s' (out ++ [tok]) k' ks n M i0 I0 L q ∧ s'.simpleKeyAllowed = false ∧
      (s.simpleKeyAllowed = true → k'.possible = true ∧ k'.tokenNumber = out.length) ∧ (s.simpleKeyAllowed = false → s.simpleKeys = k' :: ks) ∧
      s'.flowMappingStarted = s.flowMappingStarted := by
  have hs := mark_starts (u := []) hm
  rw [List.append_nil] at hs
  obtain ⟨s2, e2, h2, hr2, hcol2, hal2, hfm2, -, -⟩ := flb_fetch h (by simp [hm.ne]) (hs.2 _ hcm).1 (hs.2 _ hcm).2
  obtain ⟨k', hk', hreq', hkal⟩ := flb_keys h2
  have hfu := h2.fuel
  rw [hr2] at hfu
  have e3 := hm.run (cfg := cfg) (s := s2) hr2 (by rw [h2.level]; exact he.level) (by simp at hfu; omega)
  have hrest : (on (keyed s2) t.length).src.rest = g ++ q := on_rest (s := keyed s2) (w := t) hr2 rfl
  have hmk : (on (keyed s2) t.length).mark = gapMark s2.mark t := by rw [gapMark_flat _ _ hm.flat]; rfl
  refine ⟨_, k', e2.trans e3, ⟨⟨g, hg.lay, hrest, ?_⟩, ?_, h2.ctx, ?_, hk', ?_, h2.level, h2.impl, h2.poss, h2.parsed, h2.started, ?_, ?_⟩, rfl,
    fun hx => hkal.1 (hal2.trans hx), fun hx => by rw [h.keys, ← h2.keys]; exact hkal.2 (hal2.trans hx), hfm2⟩
  · show i0 < (gapMark (on (keyed s2) t.length).mark g).col
    rw [hmk]
    exact hg.deep _ (deep_flat hm.flat _ hcol2)
  · show (on (keyed s2) t.length).src.rest.length < _
    rw [hrest]; simp at hfu ⊢; omega
  · rw [← h2.toks]; simp [types]
  · intro x hx
    rcases List.mem_cons.1 hx with rfl | hx
    · exact hreq'
    · exact h2.req x (by simp [hx])
  · exact h2.fit.skip (by simp [hr2])
  · show L ≤ (on (keyed s2) t.length).mark.line
    rw [hmk]
    exact Nat.le_trans h2.line (gapMark_le _ _)

theorem marks_step {cfg s out k ks n M i0 I0 L l toks g q} (h : FlB cfg s out k ks n M i0 I0 L (l ++ (g ++ q))) (hm : Marks l toks) (hg : GapF i0 g q) (he : MEnd 1 (g ++ q))
    (hcm : Calmly (g ++ q)) :
    ∃ m s' k', Fetches cfg m s s' ∧ m ≤ l.length ∧ FlB cfg s' (out ++ toks) k' ks n M i0 I0 L q ∧ s'.simpleKeyAllowed = false ∧
      (s.simpleKeyAllowed = true → k'.possible = true ∧ k'.tokenNumber = out.length) ∧ (s.simpleKeyAllowed = false → s.simpleKeys = k' :: ks) ∧
      s'.flowMappingStarted = s.flowMappingStarted := by
  cases hm with
  | one hm =>
    obtain ⟨s', k', e, h'⟩ := mark_step h hm hg he hcm
    exact ⟨1, s', k', .step e .refl, List.length_pos_iff.2 hm.ne, h'⟩
  | @two t1 tok1 t2 tok2 m h1 h2 =>
    have e : (t1 ++ (Block.spaces (m + 1) ++ t2)) ++ (g ++ q) = t1 ++ (Block.spaces (m + 1) ++ (t2 ++ (g ++ q))) := by simp
    rw [e] at h
    obtain ⟨s1, k1, e1, hfl1, hal1, ha1, hb1, hfm1⟩ := mark_step h h1 (space_gap (.inl ⟨_, rfl⟩)) (.inr ⟨32, _, rfl, .inl rfl⟩) (calmly_cons (by decide))
    obtain ⟨s2, k2, e2, hfl2, hal2, ha2, hb2, hfm2⟩ := mark_step hfl1 h2 hg he hcm
    have hk : k2 = k1 := by
      have := hb2 hal1
      rw [hfl1.keys] at this
      simp at this
      exact this.symm
    subst hk
    have p1 := List.length_pos_iff.2 h1.ne
    have p2 := List.length_pos_iff.2 h2.ne
    exact ⟨2, s2, k2, .step e1 (.step e2 .refl), by simp; omega, by simpa using hfl2, hal2, ha1, hb1, hfm2.trans hfm1⟩

theorem gap_mend {i0 g q} (hg : GapF i0 g q) (hq : EndsF q) (h : g = [] → q.head? ≠ some 58) : MEnd 1 (g ++ q) := by
  have hl := hg.lay
  have hf := hg.first
  cases hl with
  | nil =>
    obtain ⟨c, r, rfl, hc⟩ := hq
    have := h rfl
    simp at this
    exact .inr ⟨c, r, rfl, .inr (.inr ⟨by omega, by omega⟩)⟩
  | space _ => exact .inr ⟨_, _, rfl, .inl rfl⟩
  | newline _ => exact .inr ⟨_, _, rfl, .inr (.inl rfl)⟩
  | comment _ _ => exact absurd rfl hf
  | last _ => exact absurd rfl hf

/-- an alias, or nothing but a label -/
theorem marks_node {p l toks} (hm : Marks l toks) : FNode .mark p l toks := by
  intro cfg s out k ks n M I0 L g q h hbt hg hq _ h58 hcm
  obtain ⟨m, s', k', f, hml, hfl, hal, ha, hb, hfm⟩ := marks_step h hm hg (gap_mend hg hq (h58 rfl)) hcm
  exact ⟨m, s', f, hml, ⟨k', hfl, ha, hb⟩, fun hx => hfm.trans hx, by simp⟩

/-- a node with a label -/
theorem labelled_node {kind p l toks g0 t toks'} (hm : Marks l toks) (hg0 : Block.Space p g0) (hne : g0 ≠ []) (h' : FNode kind p t toks') (hs : FStarts t) :
    FNode kind p (l ++ (g0 ++ t)) (toks ++ toks') := by
  intro cfg s out k ks n M I0 L g q h hbt hg hq hst h58 hcm
  have e : (l ++ (g0 ++ t)) ++ (g ++ q) = l ++ (g0 ++ (t ++ (g ++ q))) := by simp
  rw [e] at h
  have h0 : ∃ c r, g0 = c :: r ∧ (c = 32 ∨ c = 10) := (space_first hg0).resolve_left hne
  have hend : MEnd 1 (g0 ++ (t ++ (g ++ q))) := by
    obtain ⟨c, r, rfl, hc⟩ := h0
    exact .inr ⟨c, _, rfl, by omega⟩
  have hcm0 : Calmly (g0 ++ (t ++ (g ++ q))) := by
    obtain ⟨c, r, rfl, hc⟩ := h0
    exact calmly_cons (by omega)
  obtain ⟨m, s1, k1, f1, hm1, hfl1, hal1, ha1, hb1, hfm1⟩ := marks_step h hm (space_gap hg0) hend hcm0
  obtain ⟨m2, s2, f2, hm2, ⟨k2, hfl2, ha2, hb2⟩, hfm2, hnear⟩ := h' hfl1 hbt hg hq hst h58 hcm
  have hk : k2 = k1 := by
    have := hb2 hal1
    rw [hfl1.keys] at this
    simp at this
    exact this.symm
  subst hk
  exact ⟨m2 + m, s2, f1.trans f2, by simp; omega, ⟨k2, by simpa using hfl2, ha1, hb1⟩, fun hx => hfm2 (hfm1.trans hx), hnear⟩

/-! ## Goals -/

/-- a node in a flow collection, without its label -/
def FBody [Block.Handles] (fo : FloatOps F) (kind : Block.Kind) (p : Nat) (E : Block.Names F) (tg : Option Tag) (t : List Byte) (x : Yaml F) (E' : Block.Names F) : Prop :=
  ∃ toks, FStarts t ∧ FNode kind p t toks ∧ (kind = .nested → ∀ c, NodeG false none p c t toks) ∧ ∀ pl, CSem fo pl tg E toks x E'

/-- a node in a flow collection -/
def FGoal [Block.Handles] (fo : FloatOps F) (kind : Block.Kind) (p : Nat) (E : Block.Names F) (t : List Byte) (x : Yaml F) (E' : Block.Names F) : Prop :=
  ∃ toks, FStarts t ∧ FNode kind p t toks ∧ Sem (.node .flow) (T1 fo x) E toks E'

/-- what stands between `[` and `]` -/
def FItems [Block.Handles] (fo : FloatOps F) (p : Nat) (E : Block.Names F) (r : List Byte) (xs : List (Yaml F)) (E' : Block.Names F) : Prop :=
  ∃ toks, (r = [] ∨ ∃ t u, r = t ++ u ∧ FStarts t) ∧ Inner 93 false p r toks ∧ Sem .flowItems (Ts fo xs) E toks E'

/-- an entry of a flow mapping is read as `toks` -/
def FEntryRun (p : Nat) (t : List Byte) (toks : List TokenType) : Prop :=
  ∀ {cfg s out k ks n M I0 L g q}, FlB cfg s out k ks n M p I0 L (t ++ (g ++ q)) → BlockTop I0 → Block.Space p g → (∃ c r, q = c :: r ∧ (c = 44 ∨ c = 125)) →
    s.simpleKeyAllowed = true → s.flowMappingStarted = true →
    ∃ m s' k', Fetches cfg m s s' ∧ m ≤ t.length ∧ FlB cfg s' (out ++ toks) k' ks n M p I0 L q ∧ s'.flowMappingStarted = true

def FEntry [Block.Handles] (fo : FloatOps F) (p : Nat) (E : Block.Names F) (t : List Byte) (e : Yaml F × Yaml F) (E' : Block.Names F) : Prop :=
  ∃ toks, (∃ t' u, t = t' ++ u ∧ FStarts t') ∧ FEntryRun p t toks ∧
    ∀ {sep c es E₂}, Sem .flowEntries (Ps fo es) E' c E₂ → (sep = [TokenType.flowEntry] ∨ sep = [] ∧ c = []) → Sem .flowEntries (Ps fo (e :: es)) E (toks ++ (sep ++ c)) E₂

/-- what stands between `{` and `}` -/
def FEntries [Block.Handles] (fo : FloatOps F) (p : Nat) (E : Block.Names F) (r : List Byte) (es : List (Yaml F × Yaml F)) (E' : Block.Names F) : Prop :=
  ∃ toks, (r = [] ∨ ∃ t u, r = t ++ u ∧ FStarts t) ∧ Inner 125 true p r toks ∧ Sem .flowEntries (Ps fo es) E toks E'

theorem inner_head {r d q} (hd : d = 93 ∨ d = 125) (h : r = [] ∨ ∃ t u, r = t ++ u ∧ FStarts t) : TokenHead (r ++ d :: q) := by
  rcases h with rfl | ⟨t, u, rfl, ht⟩
  · intro c hc; simp at hc; omega
  · intro c hc
    refine (ht.2 [] (by intro c r e; cases e)).1 c ?_
    obtain ⟨x, t, rfl⟩ := List.exists_cons_of_ne_nil ht.1
    simpa using hc

theorem stop_flow {c r} (h : c = 44 ∨ c = 93 ∨ c = 125) : StopF (c :: r) := .inl ⟨c, r, rfl, by rw [isFlow_true]; omega⟩

theorem calmly_end {p g c r} (hg : Block.Space p g) (h : c = 44 ∨ c = 93 ∨ c = 125 ∨ c = 58) : Calmly (g ++ c :: r) := calmly_gap hg (calmly_cons (by omega))

/-! ## Entries of flow mappings -/

section
variable {p : Nat} {kind kind' : Block.Kind} {t g g' r t' : List Byte} {toks toks' : List TokenType}

theorem entryRun_last (h2 : FEntryRun p t toks) (hg : Block.Space p g) : Inner 125 true p (t ++ g) toks := by
  intro cfg s out k ks n M I0 L q h hbt hal hfm
  rw [List.append_assoc] at h
  obtain ⟨m, s', k', f, hm, hfl, hfm'⟩ := h2 h hbt hg ⟨_, _, rfl, by simp⟩ hal (hfm rfl)
  exact ⟨m, s', k', f, by simp; omega, hfl, fun _ => hfm'⟩

theorem entryRun_more (h2 : FEntryRun p t toks) (hg : Block.Space p g) (hg' : Block.Space p g') (h1' : r = [] ∨ ∃ t u, r = t ++ u ∧ FStarts t) (h2' : Inner 125 true p r toks') :
    Inner 125 true p (t ++ (g ++ 44 :: (g' ++ r))) (toks ++ ([.flowEntry] ++ toks')) := by
  intro cfg s out k ks n M I0 L q h hbt hal hfm
  have e : (t ++ (g ++ 44 :: (g' ++ r))) ++ 125 :: q = t ++ (g ++ 44 :: (g' ++ (r ++ 125 :: q))) := by simp
  rw [e] at h
  obtain ⟨m, s1, k1, f1, hm, hfl1, hfm1⟩ := h2 h hbt hg ⟨_, _, rfl, by simp⟩ hal (hfm rfl)
  obtain ⟨s2, k2, e2, hfl2, hal2, hfm2⟩ := comma_step hfl1 (space_gap hg') (inner_head (.inr rfl) h1')
  obtain ⟨m3, s3, k3, f3, hm3, hfl3, hfm3⟩ := h2' hfl2 hbt hal2 (fun _ => hfm2.trans hfm1)
  exact ⟨_, s3, k3, f1.trans (.step e2 f3), by simp; omega, by simpa using hfl3, fun _ => hfm3 (hfm2.trans hfm1)⟩

theorem alone_run (h2 : FNode kind p t toks) : FEntryRun p t toks := by
  intro cfg s out k ks n M I0 L g q h hbt hg hq hal hfm
  obtain ⟨c, r, rfl, hc⟩ := hq
  obtain ⟨m, s', f, hm, ⟨k', hfl, -⟩, hfm', -⟩ := h2 h hbt (space_gap hg) ⟨_, _, rfl, by omega⟩ (fun _ => stop_flow (by omega)) (fun _ _ => by simp; omega) (calmly_end hg (by omega))
  exact ⟨m, s', k', f, hm, hfl, hfm' hfm⟩

theorem keyOnly_run (h2 : FNode kind p t toks) (hg : Block.Space p g) (hgm : kind = .mark → g ≠ []) : FEntryRun p (t ++ (g ++ [58])) (.key :: (toks ++ [.value])) := by
  intro cfg s out k ks n M I0 L g2 q h hbt hg2 hq hal hfm
  obtain ⟨c, r, rfl, hc⟩ := hq
  have e : (t ++ (g ++ [58])) ++ (g2 ++ c :: r) = t ++ (g ++ 58 :: (g2 ++ c :: r)) := by simp
  rw [e] at h
  have hnext : ∃ c' r', g2 ++ c :: r = c' :: r' ∧ (c' = 32 ∨ c' = 10 ∨ c' = 44 ∨ c' = 125 ∨ c' = 93) := by
    rcases space_first hg2 with rfl | ⟨y, g2, rfl, hy⟩
    · exact ⟨c, r, rfl, by omega⟩
    · exact ⟨y, _, rfl, by omega⟩
  obtain ⟨m, s1, f1, hm, ⟨k1, hfl1, hk1, -⟩, hfm1, -⟩ := h2 h hbt (space_gap hg) ⟨_, _, rfl, by simp⟩
    (fun _ => by
      obtain ⟨y, r', e, hy⟩ := hnext
      rw [e]
      exact .inr ⟨y, r', rfl, by rw [isFlow_true]; omega⟩)
    (fun hk h0 => absurd h0 (hgm hk))
    (calmly_end hg (by simp))
  obtain ⟨s2, k2, e2, hfl2, hfm2⟩ := colon_step hfl1 (space_gap hg2) (by intro d hd; simp at hd; omega) (hk1 hal) (hfm1 hfm) (.inl hnext)
  exact ⟨_, s2, k2, f1.trans (.step e2 .refl), by simp; omega, hfl2, hfm2⟩

theorem keyValue_run (h2 : FNode kind p t toks) (hg : Block.Space p g) (hgm : kind = .mark → g ≠ []) (hg' : Block.Space p g')
    (hn : g' = [] → (kind = .quoted ∨ kind = .nested) ∧ (kind = .nested → 10 ∉ g)) (h1' : FStarts t') (h2' : FNode kind' p t' toks') :
    FEntryRun p (t ++ (g ++ 58 :: (g' ++ t'))) (.key :: (toks ++ (.value :: toks'))) := by
  intro cfg s out k ks n M I0 L g2 q h hbt hg2 hq hal hfm
  obtain ⟨c, r, rfl, hc⟩ := hq
  have e : (t ++ (g ++ 58 :: (g' ++ t'))) ++ (g2 ++ c :: r) = t ++ (g ++ 58 :: (g' ++ (t' ++ (g2 ++ c :: r)))) := by simp
  rw [e] at h
  have hcm : Calmly (g2 ++ c :: r) := calmly_end hg2 (by omega)
  obtain ⟨m, s1, f1, hm, ⟨k1, hfl1, hk1, -⟩, hfm1, hnear⟩ := h2 h hbt (space_gap hg) ⟨_, _, rfl, by simp⟩
    (fun hx => by
      rcases space_first hg' with h0 | ⟨y, r', e, hy⟩
      · rcases (hn h0).1 with h | h <;> rw [hx] at h <;> cases h
      · rw [e]
        exact .inr ⟨y, _, rfl, by omega⟩)
    (fun hk h0 => absurd h0 (hgm hk))
    (calmly_end hg (by simp))
  obtain ⟨s2, k2, e2, hfl2, hfm2⟩ := colon_step hfl1 (space_gap hg') (h1'.2 _ hcm).1 (hk1 hal) (hfm1 hfm) (by
    rcases space_first hg' with h0 | ⟨y, r', e, hy⟩
    · refine .inr ⟨h0, hnear ?_⟩
      obtain ⟨h6, h7⟩ := hn h0
      rcases h6 with h6 | h6
      · exact .inl h6
      · exact .inr ⟨h6, h7 h6⟩
    · rw [e]
      exact .inl ⟨y, _, rfl, by omega⟩)
  obtain ⟨m3, s3, f3, hm3, ⟨k3, hfl3, -⟩, hfm3, -⟩ := h2' hfl2 hbt (space_gap hg2) ⟨_, _, rfl, by omega⟩ (fun _ => stop_flow (by omega)) (fun _ _ => by simp; omega) hcm
  exact ⟨_, s3, k3, f1.trans (.step e2 f3), by simp; omega, by simpa using hfl3, hfm3 hfm2⟩

end

variable [Block.Handles] {fo : FloatOps F} {p : Nat} {E E' E₁ : Block.Names F} {tg : Option Tag} {kind kind' : Block.Kind} {t g r : List Byte} {x y : Yaml F} {xs : List (Yaml F)}
  {es : List (Yaml F × Yaml F)}

theorem plain_fbody {v} (h1 : Block.Begins t) (h2 : Block.PlainLines false p t v) (h3 : ∀ b ∈ t, b ∉ bs!",[]{}")
    (h4 : t.head? ≠ some 58 ∧ ¬ Block.Dashed t) (h5 : Block.Reads false fo tg v x) : FBody fo .plain p E tg t x E := by
  have ht := lines_flow h2
  have hp := plain_first h1
  refine ⟨_, pfirst_starts hp ht, plain_node ht hp h4.1 (fun b hb => isFlow_mem.2 (h3 b hb)) ⟨?_, fun r => ⟨fun e => h4.2 ⟨r, .inl e⟩, fun e => h4.2 ⟨r, .inr e⟩⟩⟩, by simp,
    fun _ => csem_scalar (reads_value h5)⟩
  rintro rfl
  obtain ⟨⟨c, r, e, -, h⟩, -⟩ := h1
  simp at e
  obtain ⟨rfl, rfl⟩ := e
  obtain ⟨d, r', h, -⟩ := h (by simp)
  cases h

theorem quoted_fbody {single m v} {qt : Byte} (hqt : qt = if single then 39 else 34) (hm : QFlow single (p + 1) m v) (h : Block.Quoted false fo tg v x) :
    FBody fo .quoted p E tg (qt :: (m ++ [qt])) x E :=
  ⟨_, fstarts_cons (by rw [hqt]; cases single <;> simp), quoted_node hqt hm, by simp, fun _ => csem_scalar (quoted_value _ (by cases single <;> simp) h)⟩

theorem seq_fbody (hg : Block.Space p g) (h : FItems fo p E r xs E') (hw : Block.Wrap tg (.seq xs) y) : FBody fo .nested p E tg (91 :: (g ++ (r ++ [93]))) y E' := by
  obtain ⟨toks, h1, h2, h3⟩ := h
  exact ⟨_, fstarts_cons (by simp), nested_node .seq hg (fun _ => inner_head (.inl rfl) h1) h2, fun _ _ => nestedG .seq hg (fun _ => inner_head (.inl rfl) h1) h2,
    fun _ => csem_flowSeq h3 hw⟩

theorem map_fbody (hg : Block.Space p g) (h : FEntries fo p E r es E') (hw : Block.Wrap tg (.map es) y) : FBody fo .nested p E tg (123 :: (g ++ (r ++ [125]))) y E' := by
  obtain ⟨toks, h1, h2, h3⟩ := h
  exact ⟨_, fstarts_cons (by simp), nested_node .map hg (fun _ => inner_head (.inr rfl) h1) h2, fun _ _ => nestedG .map hg (fun _ => inner_head (.inr rfl) h1) h2,
    fun _ => csem_flowMap h3 hw⟩

theorem FBody.bare (h : FBody fo kind p E none t x E') : FGoal fo kind p E t x E' := by
  obtain ⟨toks, h1, h2, -, h3⟩ := h
  exact ⟨toks, h1, h2, (h3 _).bare⟩

theorem alias_fgoal {a} (hn : Block.Name a) (h : Block.Known E a x) : FGoal fo .mark p E (42 :: a) x E :=
  ⟨_, mark_starts (u := []) (anchor_mark true hn) |> (by simpa using ·), marks_node (.one (anchor_mark true hn)), sem_alias h⟩

theorem missing_fgoal {l an} (hl : Block.Label false l an tg) (hm : Block.Missing emptyStr tg y) (hc : Block.Closed E an y (Block.opened E an) E') :
    FGoal fo .mark p E l y E' := by
  obtain ⟨toks, h1, h2⟩ := label_marks hl
  exact ⟨toks, by simpa using marks_starts (u := []) h1, marks_node h1, sem_missing h2 (missing_value hm) hc⟩

theorem labelled_fgoal {l an} (hl : Block.Label false l an tg) (hg : Block.Space p g) (hne : g ≠ []) (h : FBody fo kind p (Block.opened E an) tg t y E₁)
    (hc : Block.Closed E an y E₁ E') : FGoal fo kind p E (l ++ (g ++ t)) y E' := by
  obtain ⟨toks, h1, h2⟩ := label_marks hl
  obtain ⟨toks', h3, h4, -, h5⟩ := h
  exact ⟨_, marks_starts h1, labelled_node h1 hg hne h4 h3, (h5 _).labelled h2 hc⟩

theorem inner_nil {d fm} : Inner d fm p [] [] := by
  intro cfg s out k ks n M I0 L q h _ _ _
  exact ⟨0, s, k, .refl, by simp, by simpa using h, fun hx => hx⟩

theorem noItems_fgoal : FItems fo p E [] [] E := ⟨_, .inl rfl, inner_nil, sem_noFlowItems⟩

theorem noEntries_fgoal : FEntries fo p E [] [] E := ⟨_, .inl rfl, inner_nil, sem_noFlowEntries⟩

theorem lastItem_fgoal (h : FGoal fo kind p E t x E') (hg : Block.Space p g) : FItems fo p E (t ++ g) [x] E' := by
  obtain ⟨toks, h1, h2, h3⟩ := h
  refine ⟨toks, .inr ⟨t, g, rfl, h1⟩, ?_, by simpa using sem_flowItem (sep := []) h3 sem_noFlowItems (.inr ⟨rfl, rfl⟩)⟩
  intro cfg s out k ks n M I0 L q h hbt hal _
  rw [List.append_assoc] at h
  obtain ⟨m, s', f, hm, ⟨k', hfl, -⟩, hfm, -⟩ := h2 h hbt (space_gap hg) ⟨_, _, rfl, by simp⟩ (fun _ => stop_flow (by simp)) (by simp) (calmly_end hg (by simp))
  exact ⟨m, s', k', f, by simp; omega, hfl, hfm⟩

theorem moreItems_fgoal {g'} (h : FGoal fo kind p E t x E₁) (hg : Block.Space p g) (hg' : Block.Space p g') (h' : FItems fo p E₁ r xs E') :
    FItems fo p E (t ++ (g ++ 44 :: (g' ++ r))) (x :: xs) E' := by
  obtain ⟨toks, h1, h2, h3⟩ := h
  obtain ⟨toks', h1', h2', h3'⟩ := h'
  refine ⟨toks ++ ([.flowEntry] ++ toks'), .inr ⟨t, _, rfl, h1⟩, ?_, sem_flowItem h3 h3' (.inl rfl)⟩
  intro cfg s out k ks n M I0 L q h hbt hal _
  have e : (t ++ (g ++ 44 :: (g' ++ r))) ++ 93 :: q = t ++ (g ++ 44 :: (g' ++ (r ++ 93 :: q))) := by simp
  rw [e] at h
  obtain ⟨m, s1, f1, hm, ⟨k1, hfl1, -⟩, hfm1, -⟩ := h2 h hbt (space_gap hg) ⟨_, _, rfl, by simp⟩ (fun _ => stop_flow (by simp)) (by simp) (calmly_end hg (by simp))
  obtain ⟨s2, k2, e2, hfl2, hal2, hfm2⟩ := comma_step hfl1 (space_gap hg') (inner_head (.inl rfl) h1')
  obtain ⟨m3, s3, k3, f3, hm3, hfl3, hfm3⟩ := h2' hfl2 hbt hal2 (by simp)
  exact ⟨_, s3, k3, f1.trans (.step e2 f3), by simp; omega, by simpa using hfl3, fun hx => hfm3 (hfm2.trans (hfm1 hx))⟩

theorem lastEntry_fgoal {e} (h : FEntry fo p E t e E') (hg : Block.Space p g) : FEntries fo p E (t ++ g) [e] E' := by
  obtain ⟨toks, ⟨t', u, h0, h1⟩, h2, h3⟩ := h
  exact ⟨toks, .inr ⟨t', u ++ g, by rw [h0]; simp, h1⟩, entryRun_last h2 hg, by simpa using h3 (sep := []) sem_noFlowEntries (.inr ⟨rfl, rfl⟩)⟩

theorem moreEntries_fgoal {e g'} (h : FEntry fo p E t e E₁) (hg : Block.Space p g) (hg' : Block.Space p g') (h' : FEntries fo p E₁ r es E') :
    FEntries fo p E (t ++ (g ++ 44 :: (g' ++ r))) (e :: es) E' := by
  obtain ⟨toks, ⟨t', u, h0, h1⟩, h2, h3⟩ := h
  obtain ⟨toks', h1', h2', h3'⟩ := h'
  exact ⟨toks ++ ([.flowEntry] ++ toks'), .inr ⟨t', _, by rw [h0, List.append_assoc], h1⟩, entryRun_more h2 hg hg' h1' h2', h3 h3' (.inl rfl)⟩

theorem alone_fgoal (h : FGoal fo kind p E t x E') (hx : UntaggedKey x) : FEntry fo p E t (x, emptyStr) E' := by
  obtain ⟨toks, h1, h2, h3⟩ := h
  exact ⟨toks, ⟨t, [], by simp, h1⟩, alone_run h2, fun hc hs => sem_flowSingle h3 hx hc hs⟩

theorem keyOnly_fgoal (h : FGoal fo kind p E t x E') (hx : UntaggedKey x) (hg : Block.Space p g) (hgm : kind = .mark → g ≠ []) :
    FEntry fo p E (t ++ (g ++ [58])) (x, emptyStr) E' := by
  obtain ⟨toks, h1, h2, h3⟩ := h
  refine ⟨.key :: (toks ++ [.value]), ⟨t, _, rfl, h1⟩, keyOnly_run h2 hg hgm, fun {sep c es E₂} hc hs => ?_⟩
  have := sem_flowEntry (v := []) h3.present hx sem_absent hc hs
  simpa using this

theorem keyValue_fgoal {g' t'} (h : FGoal fo kind p E t x E₁) (hx : UntaggedKey x) (hg : Block.Space p g) (hgm : kind = .mark → g ≠ []) (hg' : Block.Space p g')
    (hn : g' = [] → (kind = .quoted ∨ kind = .nested) ∧ (kind = .nested → 10 ∉ g)) (h' : FGoal fo kind' p E₁ t' y E') :
    FEntry fo p E (t ++ (g ++ 58 :: (g' ++ t'))) (x, y) E' := by
  obtain ⟨toks, h1, h2, h3⟩ := h
  obtain ⟨toks', h1', h2', h3'⟩ := h'
  refine ⟨.key :: (toks ++ (.value :: toks')), ⟨t, _, rfl, h1⟩, keyValue_run h2 hg hgm hg' hn h1' h2', fun {sep c es E₂} hc hs => ?_⟩
  have := sem_flowEntry h3.present hx h3'.present hc hs
  simpa using this

theorem keyOk_untagged (h : Block.KeyOk false x) : UntaggedKey x := h rfl

mutual
  theorem flow_fbody {fo : FloatOps F} {p E tg k t x E'} : Block.FlowBody false fo emptyStr p E tg k t x E' → FBody fo k p E tg t x E'
    | .plain h1 h2 h3 h4 h5 => plain_fbody h1 h2 h3 (h4 rfl) h5
    | .double h h' => quoted_fbody (single := false) rfl (double_flow h) h'
    | .single h h' => quoted_fbody (single := true) rfl (single_flow h) h'
    | .seq g h w => seq_fbody g (items_fgoal h) w
    | .map g h w => map_fbody g (entries_fgoal h) w
  theorem flow_fgoal {fo : FloatOps F} {p E k t x E'} : Block.Flow false fo emptyStr p E k t x E' → FGoal fo k p E t x E'
    | .body h => (flow_fbody h).bare
    | .alias h1 h2 => alias_fgoal h1 h2
    | .missing h1 h2 h3 => missing_fgoal h1 h2 h3
    | .labelled h1 h2 h3 h4 h5 => labelled_fgoal h1 h2 h3 (flow_fbody h4) h5
  theorem items_fgoal {fo : FloatOps F} {p E r xs E'} : Block.FlowItems false fo emptyStr p E r xs E' → FItems fo p E r xs E'
    | .nil => noItems_fgoal
    | .last (.node h) g => lastItem_fgoal (flow_fgoal h) g
    | .more (.node h) g g' h' => moreItems_fgoal (flow_fgoal h) g g' (items_fgoal h')
  theorem entries_fgoal {fo : FloatOps F} {p E r es E'} : Block.FlowEntries false fo emptyStr p E r es E' → FEntries fo p E r es E'
    | .nil => noEntries_fgoal
    | .last h g => lastEntry_fgoal (entry_fgoal h) g
    | .more h g g' h' => moreEntries_fgoal (entry_fgoal h) g g' (entries_fgoal h')
  theorem entry_fgoal {fo : FloatOps F} {p E t e E'} : Block.FlowEntry false fo emptyStr p E t e E' → FEntry fo p E t e E'
    | .alone h hk => alone_fgoal (flow_fgoal h) (keyOk_untagged hk)
    | .pair (.absent h hk g hm) => keyOnly_fgoal (flow_fgoal h) (keyOk_untagged hk) g hm
    | .pair (.value h hk g hm g' hn h') => keyValue_fgoal (flow_fgoal h) (keyOk_untagged hk) g hm g' (fun hx => ⟨(hn hx).1, (hn hx).2 rfl⟩) (flow_fgoal h')
end

end Verif.Scanner
