import Verif.Lemmas.ScanFetch
import Verif.Lemmas.Utf8Text
import Verif.Spec.ScannerRuns
/-!
# Whole runs of the scanner
-/
namespace Verif.Scanner
open Verif Verif.CharUtils Verif.Source

/-- What holds of any list of tokens handed out from the start. -/
structure Whole (x : Ctx) (l : List Token) : Prop where
  sorted : l.Pairwise fun t u => t.span.start.pos ≤ u.span.start.pos
  toks : ∀ t ∈ l, TkOk x t x.input.length x.input.length
  depth : ∃ d, Spec.blockDepth 0 l = some d
  first : ∀ t r, l = t :: r → t.tt = .streamStart ∧ ∀ u ∈ r, u.tt ≠ .streamStart
  last : ∀ a t b, l = a ++ t :: b → t.tt = .streamEnd →
    b = [] ∧ t.span = Span.empty (Spec.streamEndMark x.input) ∧ (Spec.flowDepth a = 0 → Spec.blockDepth 0 a = some 0)
  size : l.length ≤ 6 * x.input.length + 2

theorem Whole.pre {x a b} (h : Whole x (a ++ b)) : Whole x a := by
  obtain ⟨h1, h2, ⟨d, h3⟩, h4, h5, h6⟩ := h
  refine ⟨(List.pairwise_append.1 h1).1, fun t ht => h2 t (by simp [ht]), ?_, ?_, ?_, by simp at h6; omega⟩
  · rw [blockDepth_append] at h3
    cases hd : Spec.blockDepth 0 a with
    | none => simp [hd] at h3
    | some d' => exact ⟨d', rfl⟩
  · intro t r e
    obtain ⟨g1, g2⟩ := h4 t (r ++ b) (by simp [e])
    exact ⟨g1, fun u hu => g2 u (by simp [hu])⟩
  · intro a' t b' e ht
    obtain ⟨g1, g2⟩ := h5 a' t (b' ++ b) (by simp [e]) ht
    exact ⟨(List.append_eq_nil_iff.1 g1).1, g2⟩

/-- a scanner that has not started -/
structure Fresh (x : Ctx) (s : SSt) : Prop where
  pt : Pt x s
  started : s.streamStartProduced = false
  over : s.over = (false, false, none)
  tokens : s.tokens = []
  parsed : s.tokensParsed = 0
  keys : s.simpleKeys = []
  level : s.flowLevel = 0
  indents : s.indents = []
  start : s.src.rest = x.input

/-- in the middle of the stream -/
def Good (x : Ctx) (hist : List Token) (s : SSt) : Prop :=
  ∃ n lp g, St x hist g n lp s.src.rest.length g s ∧ n + 6 * s.src.rest.length ≤ 6 * x.input.length + 1

/-- `StreamEnd` is in the queue -/
structure Fin (x : Ctx) (hist : List Token) (s : SSt) : Prop where
  started : s.streamStartProduced = true
  over : s.over = (false, false, none)
  whole : Whole x (hist ++ s.tokens)
  last : ∃ pre t, s.tokens = pre ++ [t] ∧ t.tt = .streamEnd
  keys : ∀ k ∈ s.simpleKeys, k.possible = false
  fuel : s.src.rest.length + 4 ≤ x.cfg.fuel
  mark : s.mark = Spec.streamEndMark x.input

theorem Inv.whole {x hist fl n lp s} (h : Inv x hist fl n lp s) (hn : n ≤ 6 * x.input.length + 1) : Whole x (hist ++ s.tokens) := by
  refine ⟨h.sorted, ?_, ⟨_, h.depth⟩, ?_, ?_, by have := h.size; omega⟩
  · intro t ht
    have := h.toks t ht
    exact { this with start := this.at1.le, stop := this.at2.le }
  · intro t r e
    obtain ⟨t', r', e', h1, h2⟩ := h.first
    rw [e] at e'; injection e' with e1 e2; subst e1; subst e2
    exact ⟨h1, fun u hu => (h2 u hu).1⟩
  · intro a t b e ht
    obtain ⟨t', r', e', h1, h2⟩ := h.first
    rw [e] at e'
    exfalso
    cases a with
    | nil => injection e' with e1 e2; subst e1; rw [h1] at ht; simp at ht
    | cons a0 a =>
      injection e' with e1 e2
      exact (h2 t (by rw [← e2]; simp)).2 ht

theorem Good.whole {x hist s} (h : Good x hist s) : Whole x (hist ++ s.tokens) := by
  obtain ⟨n, lp, g, h1, h2⟩ := h
  exact h1.inv.whole (by omega)

theorem wp_fetchStreamStart {x s} (h : Fresh x s) : wp x fetchStreamStart (fun _ s' => Good x [] s' ∧ s'.src = s.src) s := by
  apply wp_upd
  refine ⟨?_, rfl⟩
  refine ⟨1, s.mark.pos, 0, ⟨h.pt.still ⟨rfl, rfl⟩, ?_, Nat.le_refl _, h.level⟩, ?_⟩
  · have hx := h.pt.at
    refine ⟨h.pt.ok.err, hx, rfl, h.over, h.parsed, by simp [h.keys, h.level], ?_, Nat.le_refl _, ?_, ?_, ?_, ?_, ?_, ?_, ?_, ?_⟩
    · simp only [h.indents]; exact .inl .nil
    · simp [h.tokens]
    · intro t ht
      simp [h.tokens] at ht
      subst ht
      exact ⟨Nat.le_refl _, Nat.le_refl _, Nat.le_refl _, by simp [TextOk, texts], hx, hx⟩
    · intro k hk hp
      simp [h.keys] at hk
      subst hk; simp [SimpleKey.new] at hp
    · simp [h.keys]
    · exact ⟨_, [], by simp [h.tokens]; rfl, rfl, by simp⟩
    · simp [h.tokens, h.indents, Spec.blockDepth, blocks]
    · simp [h.tokens, Spec.flowDepth, Spec.flowStep]
    · simp [h.tokens, h.indents]
  · simp only [h.start]; omega

theorem flow_at_end {x i l} (h : Chain x i l) (hi : i ≤ 0) : blocks l = 0 := by
  rcases h with h | ⟨j, r, e1, e2, _⟩
  · cases h with
    | nil => rfl
    | cons h1 _ _ => omega
  · omega

theorem wp_fetchStreamEnd {x hist g n lp L s} (h : St x hist g n lp L g s) (he : s.src.rest = []) (hn : n ≤ 6 * x.input.length + 1) :
    wp x fetchStreamEnd (fun _ s' => Fin x hist s') s := by
  have hmark : s.mark = Spec.locate x.input := by
    obtain ⟨pre, h1, h2, h3⟩ := h.pt.ok.loc
    rw [he] at h1; simp at h1; rw [h1]; exact h3
  have hcol : s.mark.col ≠ 0 := by rw [hmark]; simp [Spec.locate]
  have hend : (⟨s.mark.pos, 1, s.mark.line + 1⟩ : Marker) = Spec.streamEndMark x.input := by
    rw [hmark]; simp [Spec.locate, Spec.streamEndMark]
  unfold fetchStreamEnd getMark
  apply wp_bind
  apply wp_upd
  rw [if_pos hcol, hend]
  have i1 : Inv x hist g n lp { s with mark := Spec.streamEndMark x.input } :=
    h.inv.congr (.inr rfl) (by rw [← hend]; exact Nat.le_refl _) rfl rfl rfl rfl rfl rfl rfl rfl
  sg
  sg
  apply wp_bind
  refine wp_failIf (i1.err _ _ (.inr rfl)) (fun _ => ?_)
  apply wp_bind
  apply wp_upd
  dsimp only
  have i2 : Inv x hist g n lp { s with mark := Spec.streamEndMark x.input
                                       simpleKeys := s.simpleKeys.map fun k => { k with possible := false } } := by
    refine i1.rekey rfl rfl rfl rfl rfl rfl rfl (by simpa using i1.keysLen) ?_ ?_
    · intro k hk hp
      obtain ⟨k0, _, rfl⟩ := List.mem_map.1 hk
      simp at hp
    · refine List.Pairwise.map _ ?_ i1.keysSorted
      intro a b _ hp; simp at hp
  have hl2 := h.level
  have hlen := i2.keysLen
  revert i2 hlen
  dsimp only
  generalize hs2 : ({ s with mark := Spec.streamEndMark x.input
                             simpleKeys := s.simpleKeys.map fun k => { k with possible := false } } : SSt) = s2
  have hm2 : s2.mark = Spec.streamEndMark x.input := by rw [← hs2]
  have hk2 : ∀ k ∈ s2.simpleKeys, k.possible = false := by
    rw [← hs2]; intro k hk
    obtain ⟨k0, _, rfl⟩ := List.mem_map.1 hk
    rfl
  have hf2 : s2.flowLevel = g := by rw [← hs2]; exact hl2
  intro i2 hlen
  apply wp_bind
  refine wp_inv_unroll i2 ?_
  intro s3 i3 e3 f3 k3 d3
  apply wp_bind
  -- `removeSimpleKey` on impossible keys
  apply wp_of
  unfold removeSimpleKey
  cases hk : s3.simpleKeys with
  | nil => have := i3.keysLen; rw [hk] at this; simp at this
  | cons k0 ks =>
    have hk0 : k0.possible = false := hk2 k0 (by rw [← k3, hk]; simp)
    simp only [hk0]
    simp only [Bool.false_eq_true]
    apply wp_bind
    apply wp_upd
    apply wp_upd
    dsimp only
    have hd := i3.depth
    have hfl := i3.flow
    refine ⟨i3.started, i3.notEnded, ?_, ⟨s3.tokens, _, rfl, rfl⟩, ?_, ?_, e3.mark.trans hm2⟩
    · have w := i3.whole hn
      obtain ⟨w1, w2, w3, w4, w5, w6⟩ := w
      have hat : At x (Spec.streamEndMark x.input) := .inr rfl
      have hassoc : ∀ t : Token, hist ++ (s3.tokens ++ [t]) = (hist ++ s3.tokens) ++ [t] := by simp
      rw [hassoc]
      refine ⟨?_, ?_, ?_, ?_, ?_, ?_⟩
      · rw [List.pairwise_append]
        refine ⟨w1, by simp, ?_⟩
        intro t ht u hu
        simp only [List.mem_singleton] at hu
        subst hu
        have := (i3.toks t ht).start
        rw [hm2] at this
        exact this
      · intro t ht
        rcases List.mem_append.1 ht with ht | ht
        · exact w2 t ht
        · simp only [List.mem_singleton] at ht
          subst ht
          exact ⟨hat.le, Nat.le_refl _, hat.le, by simp [TextOk, texts], hat, hat⟩
      · rw [blockDepth_append, hd]
        exact ⟨_, rfl⟩
      · intro t r e
        obtain ⟨t', r', e', h1, h2⟩ := i3.first
        rw [e'] at e; injection e with e1 e2; subst e1; subst e2
        refine ⟨h1, ?_⟩
        intro u hu
        rcases List.mem_append.1 hu with hu | hu
        · exact (h2 u hu).1
        · simp only [List.mem_singleton] at hu; subst hu; simp
      · intro a t b e ht
        have hb : b = [] := by
          rcases List.eq_nil_or_concat b with hb | ⟨b', u, hb⟩
          · exact hb
          · subst hb
            have e' : hist ++ s3.tokens ++ [⟨Span.empty (Spec.streamEndMark x.input), .streamEnd⟩] = (a ++ t :: b') ++ [u] := by rw [e]; simp
            have e2 := List.append_inj_left' e' rfl
            have := w5 a t b' e2 ht
            obtain ⟨t', r', e', h1, h2⟩ := i3.first
            rw [e2] at e'
            exfalso
            cases a with
            | nil => injection e' with e1 e3; subst e1; rw [h1] at ht; simp at ht
            | cons a0 a => injection e' with e1 e3; exact (h2 t (by rw [← e3]; simp)).2 ht
        subst hb
        obtain ⟨e1, e2⟩ := List.append_inj' e rfl
        injection e2 with e2 _
        subst e1; subst e2
        refine ⟨rfl, rfl, ?_⟩
        intro hz
        rw [hfl] at hz
        rw [hd, flow_at_end i3.chain (d3 (by rw [hf2]; exact hz))]
      · have := i3.size
        simp only [List.length_append, List.length_cons, List.length_nil] at this ⊢
        omega
    · intro k hkk
      rcases List.mem_cons.1 hkk with rfl | hm
      · rfl
      · exact hk2 k (by rw [← k3, hk]; simp [hm])
    · show s3.src.rest.length + 4 ≤ _
      rw [e3.src, ← hs2]; exact h.pt.ok.fuel

/-- between two calls -/
inductive Phase (x : Ctx) (hist : List Token) (s : SSt) : Prop
  | fresh : hist = [] → Fresh x s → Phase x hist s
  | good : Good x hist s → Phase x hist s
  | fin : Fin x hist s → Phase x hist s

theorem Phase.fuel {x hist s} (h : Phase x hist s) : s.src.rest.length + 4 ≤ x.cfg.fuel := by
  cases h with
  | fresh _ h => exact h.pt.ok.fuel
  | good h => obtain ⟨n, lp, g, h, _⟩ := h; exact h.pt.ok.fuel
  | fin h => exact h.fuel

/-- fetching a token when none is known to be the last -/
theorem wp_fetchNextToken_fresh {x s} (h : Fresh x s) : wp x (fetchNextToken x.cfg) (fun _ s' => Good x [] s' ∧ s'.src = s.src) s := by
  unfold fetchNextToken
  sg
  rw [h.started]
  exact wp_fetchStreamStart h

theorem wp_fetchNextToken_good {x hist s} (h : Good x hist s) :
    wp x (fetchNextToken x.cfg) (fun _ s' => (Good x hist s' ∧ s'.src.rest.length < s.src.rest.length) ∨ Fin x hist s') s := by
  obtain ⟨n, lp, g, h, hn⟩ := h
  unfold fetchNextToken
  sg
  rw [h.inv.started, if_pos rfl]
  apply wp_bind
  refine wp_skipToNextToken h.pt.ok ?_
  intro s1 a1 v1
  have h1 := h.adv ⟨a1, v1 h.pt.v⟩
  apply wp_bind
  refine wp_st_stale h1 ?_
  intro s2 h2 e2 _ _
  unfold getMark atEof
  sg
  apply wp_bind
  refine wp_st_unroll h2 ?_
  intro s3 h3 e3 _
  sg
  have hle : s3.src.rest.length ≤ s.src.rest.length := by rw [e3.src, e2.src]; exact a1.len_le
  refine wp_ite (fun he => ?_) (fun he => ?_)
  · have he' : s3.src.rest = [] := by simpa [Src.bufIsEmpty] using he
    exact wp_mono (wp_fetchStreamEnd h3 he' (by omega)) (fun _ _ h => .inr h)
  · have hpos : 0 < s3.src.rest.length := by
      rw [List.length_pos_iff]
      intro h0; apply he; simp [Src.bufIsEmpty, h0]
    have h4 : St x hist g n s2.mark.pos s3.src.rest.length g s3 := { h3 with len := Nat.le_refl _ }
    refine wp_mono (wp_fetchAtToken h4) ?_
    rintro _ s5 ⟨g', lp', h5⟩
    have := h5.len
    exact .inl ⟨⟨_, lp', g', { h5 with len := Nat.le_refl _ }, by omega⟩, by omega⟩

/-- the queue is ready: its first token can be handed out -/
def Ready (x : Ctx) (hist : List Token) (s : SSt) : Prop :=
  s.tokens ≠ [] ∧ ((Good x hist s ∧ ∀ k ∈ s.simpleKeys, k.possible = true → k.tokenNumber ≠ s.tokensParsed) ∨ Fin x hist s)

theorem Good.still {x hist s s'} (h : Good x hist s) (e : Still s s') (hi : ∀ fl n lp, Inv x hist fl n lp s → Inv x hist fl n lp s')
    (hl : s'.flowLevel = s.flowLevel) : Good x hist s' := by
  obtain ⟨n, lp, g, h, hn⟩ := h
  exact ⟨n, lp, g, ⟨h.pt.still e, hi _ _ _ h.inv, by rw [e.src]; exact Nat.le_refl _, hl.trans h.level⟩, by rw [e.src]; exact hn⟩

/-- the measure for fetching -/
def fuelFor (s : SSt) : Nat :=
  if s.streamStartProduced = false then s.src.rest.length + 2
  else if s.tokens.any fun t => t.tt == .streamEnd then 0 else s.src.rest.length + 1

theorem Good.noEnd {x hist s} (h : Good x hist s) : (s.tokens.any fun t => t.tt == .streamEnd) = false := by
  obtain ⟨n, lp, g, h, hn⟩ := h
  obtain ⟨t, r, e, h1, h2⟩ := h.inv.first
  rw [List.any_eq_false]
  intro u hu
  have : u ∈ t :: r := by rw [← e]; simp [hu]
  rcases List.mem_cons.1 this with rfl | hm
  · simp [h1]
  · simpa using (h2 u hm).2

theorem Good.started {x hist s} (h : Good x hist s) : s.streamStartProduced = true := by
  obtain ⟨n, lp, g, h, hn⟩ := h
  exact h.inv.started

theorem Fin.hasEnd {x hist s} (h : Fin x hist s) : (s.tokens.any fun t => t.tt == .streamEnd) = true := by
  obtain ⟨pre, t, e, ht⟩ := h.last
  rw [e]; simp [ht]

/-- fetching makes progress -/
theorem wp_fetchStep {α x hist s m} {Q : α → SSt → Prop} (h : Phase x hist s) (hm : fuelFor s ≤ m)
    (hne : s.tokens = [] ∨ ∃ k ∈ s.simpleKeys, k.possible = true) :
    wp x (do fetchNextToken x.cfg; pure (Loop.next ())) (LoopPost x (fun _ s' => Phase x hist s') (fun _ s' => fuelFor s') Q m) s := by
  apply wp_bind
  cases h with
  | fresh he hfr =>
    subst he
    refine wp_mono (wp_fetchNextToken_fresh hfr) ?_
    intro _ s2 ⟨h2, e2⟩
    sdone
    refine ⟨.good h2, .inl ?_⟩
    simp only [fuelFor, hfr.started, h2.started, h2.noEnd, e2] at hm ⊢
    simp at hm ⊢; omega
  | good hg =>
    refine wp_mono (wp_fetchNextToken_good hg) ?_
    intro _ s2 h2
    sdone
    rcases h2 with ⟨h2, hlt⟩ | h2
    · refine ⟨.good h2, .inl ?_⟩
      simp only [fuelFor, hg.started, h2.started, hg.noEnd, h2.noEnd] at hm ⊢
      simp at hm ⊢; omega
    · refine ⟨.fin h2, .inl ?_⟩
      simp only [fuelFor, hg.started, h2.started, hg.noEnd, h2.hasEnd] at hm ⊢
      simp at hm ⊢; omega
  | fin hfin =>
    exfalso
    rcases hne with h0 | ⟨k, hk, hp⟩
    · obtain ⟨pre, t, e, _⟩ := hfin.last; rw [h0] at e; simp at e
    · rw [hfin.keys k hk] at hp; simp at hp

theorem wp_stale_good {x hist s} {Q : Unit → SSt → Prop} (h : Good x hist s)
    (k : ∀ s', Good x hist s' → s'.tokens = s.tokens → s'.src = s.src → Q () s') : wp x staleSimpleKeys Q s := by
  obtain ⟨n, lp, g, h, hn⟩ := h
  refine wp_st_stale h ?_
  intro s1 h1 e1 _ e2
  exact k s1 ⟨n, lp, g, { h1 with len := Nat.le_refl _ }, by rw [e1.src]; exact hn⟩ e2 e1.src

theorem wp_stale_fin {x hist s} {Q : Unit → SSt → Prop} (h : Fin x hist s)
    (k : ∀ s', Fin x hist s' → s'.tokens = s.tokens → Q () s') : wp x staleSimpleKeys Q s := by
  apply wp_of
  unfold staleSimpleKeys
  have hst : ∀ k ∈ s.simpleKeys, isStale s k = false := by
    intro k hk; simp [isStale, h.keys k hk]
  rw [if_neg]
  · refine k _ ⟨h.started, h.over, h.whole, h.last, ?_, h.fuel, h.mark⟩ rfl
    intro k' hk'
    obtain ⟨k0, hk0, rfl⟩ := List.mem_map.1 hk'
    rw [hst k0 hk0]
    exact h.keys k0 hk0
  · rw [List.any_eq_true]
    rintro ⟨k0, hk0, hh⟩
    rw [hst k0 hk0] at hh; simp at hh

theorem Ready.avail {x hist s} (h : Ready x hist s) : Ready x hist { s with tokensAvailable := true } := by
  obtain ⟨h1, ⟨h2, h3⟩ | h2⟩ := h
  · exact ⟨h1, .inl ⟨h2.still ⟨rfl, rfl⟩ (fun _ _ _ hi => hi.flags rfl rfl rfl rfl rfl rfl rfl rfl rfl) rfl, h3⟩⟩
  · exact ⟨h1, .inr ⟨h2.started, h2.over, h2.whole, h2.last, h2.keys, h2.fuel, h2.mark⟩⟩

theorem wp_fetchMoreTokens {x hist s} (h : Phase x hist s) :
    wp x (fetchMoreTokens x.cfg) (fun _ s' => Ready x hist s') s := by
  have hf := h.fuel
  unfold fetchMoreTokens
  apply wp_bind
  refine wp_loopM (fun _ s' => Phase x hist s') (fun _ s' => fuelFor s') h ?_ (.inl ?_)
  · intro _ s1 h1
    unfold fetchMoreBody
    sg
    refine wp_ite (fun he => wp_fetchStep h1 (Nat.le_refl _) (.inl (by simpa using he))) (fun he => ?_)
    have hne : s1.tokens ≠ [] := by simpa using he
    apply wp_bind
    have fin : ∀ s2, Phase x hist s2 → fuelFor s2 ≤ fuelFor s1 → s2.tokens ≠ [] → 
        wp x (do
          let more ← gets fun s => s.simpleKeys.any fun k => k.possible && k.tokenNumber == s.tokensParsed
          if more then do
            fetchNextToken x.cfg
            pure (.next ())
          else pure (.done ())) (LoopPost x (fun _ s' => Phase x hist s') (fun _ s' => fuelFor s')
            (fun _ s' => wp x (upd fun s => { s with tokensAvailable := true }) (fun _ s' => Ready x hist s') s') (fuelFor s1)) s2 := by
      intro s2 h2 hm hne2
      sg
      refine wp_ite (fun hk => ?_) (fun hk => ?_)
      · rw [List.any_eq_true] at hk
        obtain ⟨k, hk1, hk2⟩ := hk
        exact wp_fetchStep h2 hm (.inr ⟨k, hk1, by simp at hk2; exact hk2.1⟩)
      · sdone
        apply wp_upd
        refine Ready.avail ⟨hne2, ?_⟩
        cases h2 with
        | fresh he hfr => exact absurd hfr.tokens hne2
        | fin hfin => exact .inr hfin
        | good hg =>
          refine .inl ⟨hg, ?_⟩
          intro k hk1 hp ht
          apply hk
          rw [List.any_eq_true]
          exact ⟨k, hk1, by simp [hp, ht]⟩
    cases h1 with
    | fresh he hfr => exact absurd hfr.tokens hne
    | good hg =>
      refine wp_stale_good hg ?_
      intro s2 h2 e2 e3
      refine fin s2 (.good h2) ?_ (by rw [e2]; exact hne)
      simp only [fuelFor, hg.started, h2.started, e2, e3]; exact Nat.le_refl _
    | fin hfin =>
      refine wp_stale_fin hfin ?_
      intro s2 h2 e2
      refine fin s2 (.fin h2) ?_ (by rw [e2]; exact hne)
      simp only [fuelFor, h2.started, h2.hasEnd]; simp
  · simp only [fuelFor]
    split
    · omega
    · split <;> omega

/-- between two calls, including after the end -/
inductive Live (x : Ctx) (hist : List Token) (s : SSt) : Prop
  | phase : Phase x hist s → s.tokensAvailable = false → Live x hist s
  | done (pre : List Token) (t : Token) : Whole x hist → hist = pre ++ [t] → t.tt = .streamEnd → s.streamEndReached = true → s.error = none →
      s.mark = Spec.streamEndMark x.input → Live x hist s

theorem Phase.over {x hist s} (h : Phase x hist s) : s.over = (false, false, none) := by
  cases h with
  | fresh _ h => exact h.over
  | good h => obtain ⟨n, lp, g, h, _⟩ := h; exact h.inv.notEnded
  | fin h => exact h.over

theorem Phase.whole {x hist s} (h : Phase x hist s) : Whole x hist := by
  cases h with
  | fresh e _ => subst e; exact ⟨by simp, by simp, ⟨0, rfl⟩, by simp, by simp, by simp⟩
  | good h => exact h.whole.pre
  | fin h => exact h.whole.pre

theorem Live.whole {x hist s} (h : Live x hist s) : Whole x hist := by
  cases h with
  | phase h _ => exact h.whole
  | done _ _ h => exact h

theorem wp_popToken {x hist s} (h : Ready x hist s) :
    wp x popToken (fun t s' => Live x (hist ++ [t]) s') s := by
  obtain ⟨hne, h⟩ := h
  apply wp_of
  unfold popToken
  cases ht : s.tokens with
  | nil => exact absurd ht hne
  | cons t ts =>
    simp only
    rcases h with ⟨hg, hk⟩ | hfin
    · have hnoend := hg.noEnd
      rw [ht] at hnoend
      simp only [List.any_cons, Bool.or_eq_false_iff] at hnoend
      refine .phase (.good ?_) rfl
      obtain ⟨n, lp, g, h, hn⟩ := hg
      have e0 : hist ++ s.tokens = (hist ++ [t]) ++ ts := by rw [ht]; simp
      refine ⟨n, lp, g, ⟨h.pt.still ⟨rfl, rfl⟩, ?_, Nat.le_refl _, h.level⟩, hn⟩
      obtain ⟨a1, a2, a3, a4, a5, a6, a7, a8, a9, a10, a11, a12, a13, a14, a15, a16⟩ := h.inv
      rw [e0] at a9 a10 a11 a13 a14 a15 a16
      refine ⟨a1, a2, a3, ?_, by simp [a5], a6, a7, a8, a9, a10, ?_, a12, a13, a14, a15, a16⟩
      · simp only [SSt.over, Prod.mk.injEq] at a4 ⊢
        simp [a4, hnoend.1]
      · intro k hk1 hp
        have ok := a11 k hk1 hp
        refine { ok with lo := ?_ }
        have := ok.lo; have := hk k hk1 hp; simp; omega
    · obtain ⟨pre, u, e, hu⟩ := hfin.last
      have e0 : hist ++ s.tokens = (hist ++ [t]) ++ ts := by rw [ht]; simp
      have hw := hfin.whole
      rw [e0] at hw
      have ho := hfin.over
      simp only [SSt.over, Prod.mk.injEq] at ho
      cases ts with
      | nil =>
        rw [ht] at e
        have : pre = [] ∧ t = u := by
          cases pre with
          | nil => simpa using e
          | cons _ _ => simp at e
        rw [List.append_nil] at hw
        refine .done hist t hw rfl (this.2 ▸ hu) ?_ ho.2.2 hfin.mark
        simp [this.2, hu]
      | cons t2 ts2 =>
        have hnot : t.tt ≠ .streamEnd := by
          intro hh
          have := (hw.last hist t (t2 :: ts2) (by simp) hh).1
          simp at this
        refine .phase (.fin ⟨hfin.started, ?_, hw, ?_, hfin.keys, hfin.fuel, hfin.mark⟩) rfl
        · simp [SSt.over, ho, hnot]
        · cases pre with
          | nil => rw [ht] at e; simp at e
          | cons p pre =>
            rw [ht] at e
            injection e with e1 e2
            exact ⟨pre, u, e2, hu⟩

theorem wp_nextToken {x hist s} (h : Phase x hist s) (ha : s.tokensAvailable = false) :
    wp x (nextToken x.cfg) (fun t s' => Live x (hist ++ [t]) s') s := by
  have ho := h.over
  simp only [SSt.over, Prod.mk.injEq] at ho
  unfold nextToken
  sg
  rw [ho.1]
  simp only [Bool.false_eq_true, if_false]
  sg
  rw [ha]
  apply wp_bind
  refine wp_when (fun _ => ?_) (fun hh => by simp at hh)
  exact wp_mono (wp_fetchMoreTokens h) (fun _ s' hr => wp_popToken hr)

/-- What a run started at `s` after the tokens `hist` can end with. -/
def StopOk (x : Ctx) (k : Nat) (all ts : List Token) : Spec.ScanStop → Prop
  | .more => ts.length = k
  | .ended => ∃ pre t, all = pre ++ [t] ∧ t.tt = .streamEnd
  | .failed e => x.E e
  | .panicked => x.pn
  | .hung => x.hg

theorem scan_live {x} (k : Nat) {hist s} (h : Live x hist s) :
    Whole x (hist ++ (Spec.scan x.cfg k s).1) ∧
      StopOk x k (hist ++ (Spec.scan x.cfg k s).1) (Spec.scan x.cfg k s).1 (Spec.scan x.cfg k s).2 := by
  induction k generalizing hist s with
  | zero => simpa [Spec.scan, StopOk] using h.whole
  | succ k ih =>
    cases h with
    | done pre t hw e ht hr he _ =>
      have hn : next x.cfg s = (.ok none, s) := by simp [next, hr]
      simp only [Spec.scan, hn, he, List.append_nil]
      exact ⟨hw, pre, t, e, ht⟩
    | phase hp ha =>
      have ho := hp.over
      simp only [SSt.over, Prod.mk.injEq] at ho
      have hw := hp.whole
      have hr := wp_run (wp_nextToken hp ha)
      have hn : next x.cfg s = match nextToken x.cfg s with
        | (.ok t, s') => (.ok (some t), s')
        | (.err e, s') => (.ok none, { s' with error := some e })
        | (.panic, s') => (.panic, s')
        | (.hang, s') => (.hang, s') := by
        simp only [next, ho]
        rfl
      simp only [Spec.scan, hn]
      revert hr
      cases nextToken x.cfg s with
      | mk r s' =>
        cases r with
        | ok t =>
          intro hl
          obtain ⟨i1, i2⟩ := ih hl
          simp only
          rw [List.append_assoc, List.singleton_append] at i1 i2
          refine ⟨i1, ?_⟩
          revert i2
          cases (Spec.scan x.cfg k s').2 <;> simp [StopOk]
        | err e => intro he; simpa [StopOk] using ⟨hw, he⟩
        | panic => intro he; simpa [StopOk] using ⟨hw, he⟩
        | hang => intro he; simpa [StopOk] using ⟨hw, he⟩

theorem Phase.noEnd {x hist s} (h : Phase x hist s) : ∀ t ∈ hist, t.tt ≠ .streamEnd := by
  intro t ht hh
  cases h with
  | fresh e _ => subst e; simp at ht
  | good h =>
    obtain ⟨n, lp, g, h, _⟩ := h
    obtain ⟨t', r', e', h1, h2⟩ := h.inv.first
    have hm : t ∈ hist ++ s.tokens := by simp [ht]
    rw [e'] at hm
    rcases List.mem_cons.1 hm with hm | hm
    · subst hm; rw [h1] at hh; simp at hh
    · exact (h2 t hm).2 hh
  | fin h =>
    obtain ⟨pre, u, e, hu⟩ := h.last
    obtain ⟨a, b, rfl⟩ := List.append_of_mem ht
    have := (h.whole.last a t (b ++ s.tokens) (by simp) hh).1
    rw [e] at this
    simp at this

/-- where the scanner stands when nothing more comes out -/
theorem scan_mark {x} (k : Nat) {hist s} (h : Live x hist s) (he : (Spec.scan x.cfg k s).2 = .ended) :
    (Spec.afterNext x.cfg k s).mark = Spec.streamEndMark x.input := by
  induction k generalizing hist s with
  | zero => simp [Spec.scan] at he
  | succ k ih =>
    cases h with
    | done pre t hw e ht hr her hm =>
      have hn : next x.cfg s = (.ok none, s) := by simp [next, hr]
      have : ∀ k, Spec.afterNext x.cfg k s = s := by
        intro k
        induction k with
        | zero => rfl
        | succ k ih => rw [Spec.afterNext, hn]; exact ih
      rw [this]
      exact hm
    | phase hp ha =>
      have ho := hp.over
      simp only [SSt.over, Prod.mk.injEq] at ho
      have hr := wp_run (wp_nextToken hp ha)
      have hn : next x.cfg s = match nextToken x.cfg s with
        | (.ok t, s') => (.ok (some t), s')
        | (.err e, s') => (.ok none, { s' with error := some e })
        | (.panic, s') => (.panic, s')
        | (.hang, s') => (.hang, s') := by
        simp only [next, ho]
        rfl
      simp only [Spec.scan, Spec.afterNext, hn] at he ⊢
      revert hr he
      cases nextToken x.cfg s with
      | mk r s' =>
        cases r with
        | ok t => exact fun hl he => ih hl he
        | err e => exact fun _ he => by simp at he
        | panic => exact fun _ he => by simp at he
        | hang => exact fun _ he => by simp at he

/-- once `StreamEnd` has come out nothing else does -/
theorem scan_end {x} (k m : Nat) {hist s} (h : Live x hist s) (he : ∃ t ∈ (Spec.scan x.cfg k s).1, t.tt = .streamEnd) :
    Spec.scan x.cfg (k + m + 1) s = ((Spec.scan x.cfg k s).1, .ended) := by
  induction k generalizing hist s with
  | zero => simp [Spec.scan] at he
  | succ k ih =>
    cases h with
    | done pre t hw e ht hr her _ =>
      have hn : next x.cfg s = (.ok none, s) := by simp [next, hr]
      simp [Spec.scan, hn] at he
    | phase hp ha =>
      have ho := hp.over
      simp only [SSt.over, Prod.mk.injEq] at ho
      have hr := wp_run (wp_nextToken hp ha)
      have hn : next x.cfg s = match nextToken x.cfg s with
        | (.ok t, s') => (.ok (some t), s')
        | (.err e, s') => (.ok none, { s' with error := some e })
        | (.panic, s') => (.panic, s')
        | (.hang, s') => (.hang, s') := by
        simp only [next, ho]
        rfl
      rw [show k + 1 + m + 1 = (k + m + 1) + 1 by omega]
      simp only [Spec.scan, hn] at he ⊢
      revert hr he
      cases nextToken x.cfg s with
      | mk r s' =>
        cases r with
        | ok t =>
          intro hl he
          simp only at he ⊢
          by_cases ht : t.tt = .streamEnd
          · cases hl with
            | phase hp' _ => exact absurd ht (hp'.noEnd t (by simp))
            | done pre t' hw e ht' hr her _ =>
              have hn : next x.cfg s' = (.ok none, s') := by simp [next, hr]
              have hz : ∀ j, (Spec.scan x.cfg j s').1 = [] := by
                intro j
                cases j with
                | zero => rfl
                | succ j => simp [Spec.scan, hn]
              simp [hn, hz, her]
          · have := ih hl (by
              obtain ⟨u, hu, hu2⟩ := he
              rcases List.mem_cons.1 hu with hu | hu
              · subst hu; exact absurd hu2 ht
              · exact ⟨u, hu, hu2⟩)
            simp only [Spec.scan] at this
            simp only [this]
        | err e => intro _ he; simp at he
        | panic => intro _ he; simp at he
        | hang => intro _ he; simp at he

/-- the context of a run on `input` -/
def ctxOf (cfg : Cfg) (input : List Byte) : Ctx where
  cfg := cfg
  pn := Spec.LateIndicator input ∨ (cfg.debug = true ∧ Spec.LongVersion input)
  hg := Spec.LoneCR input ∨ Spec.QuotedNul input ∨ (Spec.LongLine input ∧ Spec.HasBlockIndicator input)
  input := input
  E e := ∃ m msg, e = .scanner m msg ∧ (Spec.Located input m ∨ m = Spec.streamEndMark input)
  U := Spec.Utf8Text input
  lg := Spec.LongLine input

theorem live_new (cfg : Cfg) (input : List Byte) (hf : input.length + 4 ≤ cfg.fuel) : Live (ctxOf cfg input) [] (Scanner.new input) := by
  refine .phase (.fresh rfl ⟨⟨?_, ?_⟩, rfl, rfl, rfl, rfl, rfl, rfl, rfl, rfl⟩) rfl
  · refine ⟨hf, .inl, fun h => .inr (.inl h), .inl, fun h1 h2 => .inr ⟨h1, h2⟩, fun m msg h => ⟨m, msg, rfl, h⟩, rfl, id,
      fun h1 h2 => .inr (.inr ⟨h1, h2⟩), [], rfl, rfl, rfl⟩
  · intro h; exact (Utf8.run_iff_text input).2 h

end Verif.Scanner
