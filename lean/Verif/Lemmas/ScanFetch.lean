import Verif.Lemmas.ScanOps
/-!
# Fetching a token keeps the invariant and makes progress
-/
namespace Verif.Scanner
open Verif Verif.CharUtils Verif.Source

/-- What fetching a token, with at most `L` bytes left before it, guarantees. -/
def Fetched (x : Ctx) (hist : List Token) (n L : Nat) (s' : SSt) : Prop :=
  ∃ g lp, St x hist g (n + 6) lp (L - 1) g s'

theorem Prog.pos_lt {x s s'} (h : Prog x s s') : s.mark.pos < s'.mark.pos := by
  obtain ⟨w, h1, _, _, h4, _⟩ := h.adv.mv.split
  have h5 := h.less
  rw [h1] at h5
  simp only [List.length_append] at h5
  omega

theorem TokOk.upto {x a s s' t} (h : TokOk x a s t) (hp : s.mark.pos ≤ s'.mark.pos) : TokOk x a s' t :=
  ⟨h.start, h.order, Nat.le_trans h.stop hp, h.text, h.kind, h.at1, h.at2⟩

section
variable {x : Ctx} {hist : List Token} {fl n lp L g : Nat} {s s' : SSt}

theorem St.fetched (h : St x hist g n lp (L - 1) g s) {n0} (hn : n ≤ n0 + 6) : Fetched x hist n0 L s :=
  ⟨g, lp, h.mono hn (Nat.le_refl _)⟩

theorem Still.refl (s : SSt) : Still s s := ⟨rfl, rfl⟩
theorem Still.trans {a b c : SSt} (h : Still a b) (k : Still b c) : Still a c := ⟨k.src.trans h.src, k.mark.trans h.mark⟩

theorem wp_st_skip {c} {Q : Unit → SSt → Prop} (h : St x hist fl n lp L g s) (e : s.src.peekz 0 = c) (h0 : c ≠ 0) (hc : c ≠ 10)
    (ha : c < 128) (k : ∀ s', St x hist fl n lp (L - 1) g s' → Prog x s s' → Q () s') : wp x skipNonBlank Q s :=
  wp_eat h.pt e h0 hc ha (fun s' p _ => k s' (h.prog p) p)

theorem wp_st_ws {t w} {Q : Bool × Bool → SSt → Prop} (h : St x hist fl n lp L g s)
    (k : ∀ r s', St x hist fl n lp L g s' → Fwd x s s' → Q r s') : wp x (skipWsToEol t w) Q s :=
  wp_ws h.pt (fun r s' f => k r s' (h.adv f) f)

theorem St.flags (h : St x hist fl n lp L g s) (e : Still s s')
    (h2 : s'.streamStartProduced = s.streamStartProduced) (h3 : s'.over = s.over)
    (h4 : s'.tokensParsed = s.tokensParsed) (h5 : s'.simpleKeys = s.simpleKeys) (h6 : s'.flowLevel = s.flowLevel)
    (h7 : s'.indent = s.indent) (h8 : s'.indents = s.indents) (h9 : s'.tokens = s.tokens) : St x hist fl n lp L g s' :=
  h.upd e (·.flags e.mark h2 h3 h4 h5 h6 h7 h8 h9) h6

theorem wp_fetchFlowStart {tt} (h : St x hist fl n lp L fl s) (hc : s.src.peekz 0 = 91 ∨ s.src.peekz 0 = 123)
    (ht : tt = .flowSequenceStart ∨ tt = .flowMappingStart) :
    wp x (fetchFlowStart tt) (fun _ => Fetched x hist n L) s := by
  unfold fetchFlowStart getMark
  apply wp_bind
  refine wp_st_save h ?_
  intro s1 h1 e1
  apply wp_bind
  refine wp_st_rollOne h1 ?_
  intro s2 h2 e2 _
  apply wp_bind
  refine wp_st_inc h2 ?_
  intro s3 h3 e3
  apply wp_bind
  refine wp_st_allowed h3 ?_
  intro s4 h4 e4 _
  have e := ((e1.trans e2).trans e3).trans e4
  sg
  apply wp_bind
  refine wp_st_skip h4 rfl ?_ ?_ ?_ ?_
  iterate 3 · rw [e.src]; omega
  intro s5 h5 p5
  apply wp_bind
  have key : ∀ s6, St x hist fl (n + 1) s.mark.pos (L - 1) (fl + 1) s6 → Still s5 s6 →
      wp x (do let _ ← skipWsToEol true false; let m ← gets (·.mark); push ⟨s4.mark, m⟩ tt) (fun _ => Fetched x hist n L) s6 := by
    intro s6 h6 e6
    apply wp_bind
    refine wp_st_ws h6 ?_
    intro r s7 h7 f7
    sg
    have hlt : s4.mark.pos < s7.mark.pos := by
      have := p5.pos_lt
      have := f7.adv.pos_le; rw [e6.mark] at this; omega
    refine wp_st_push h7 (by rw [e.mark]; exact Nat.le_refl _) (by dsimp only; omega) (Nat.le_refl _) ?_ h4.inv.here h7.inv.here ?_ ?_ ?_
    · rcases ht with rfl | rfl <;> simp [TextOk, texts]
    · rcases ht with rfl | rfl <;> simp
    · rcases ht with rfl | rfl <;> rfl
    · intro s8 h8 e8
      have hs : Spec.flowStep fl ⟨⟨s4.mark, s7.mark⟩, tt⟩ = fl + 1 := by
        rcases ht with rfl | rfl <;> (simp only [Spec.flowStep]; rw [if_neg (by omega)])
      rw [hs] at h8
      exact h8.fetched (by omega)
  unfold noteFlowStart
  refine wp_ite (fun _ => wp_upd (key _ ?_ ⟨rfl, rfl⟩)) (fun _ => wp_upd (key _ ?_ ⟨rfl, rfl⟩))
  · exact h5.flags ⟨rfl, rfl⟩ rfl rfl rfl rfl rfl rfl rfl rfl
  · exact h5.flags ⟨rfl, rfl⟩ rfl rfl rfl rfl rfl rfl rfl rfl

theorem wp_fetchFlowEnd {tt} (h : St x hist fl n lp L fl s) (hc : s.src.peekz 0 = 93 ∨ s.src.peekz 0 = 125)
    (ht : tt = .flowSequenceEnd ∨ tt = .flowMappingEnd) :
    wp x (fetchFlowEnd tt) (fun _ => Fetched x hist n L) s := by
  unfold fetchFlowEnd getMark
  apply wp_bind
  refine wp_st_remove h.now ?_
  intro s1 h1 e1
  apply wp_bind
  refine wp_st_dec h1 ?_
  intro s2 h2 e2
  apply wp_bind
  refine wp_st_allowed h2 ?_
  intro s3 h3 e3 _
  have e := (e1.trans e2).trans e3
  sg
  apply wp_bind
  have key : ∀ s4, St x hist fl (n + 1) s.mark.pos L (fl - 1) s4 → Still s s4 →
      wp x (do skipNonBlank; let _ ← skipWsToEol true false
               upd fun s => if s.flowLevel > 0 then { s with adjacentValueAllowedAt := s.mark.pos } else s
               let m ← gets (·.mark); push ⟨s3.mark, m⟩ tt) (fun _ => Fetched x hist n L) s4 := by
    intro s4 h4 e4
    apply wp_bind
    refine wp_st_skip h4 rfl ?_ ?_ ?_ ?_
    iterate 3 · rw [e4.src]; omega
    intro s5 h5 p5
    apply wp_bind
    refine wp_st_ws h5 ?_
    intro r s6 h6 f6
    apply wp_bind
    apply wp_upd
    have h7 : St x hist fl (n + 1) s.mark.pos (L - 1) (fl - 1) (if s6.flowLevel > 0 then { s6 with adjacentValueAllowedAt := s6.mark.pos } else s6)
      ∧ Still s6 (if s6.flowLevel > 0 then { s6 with adjacentValueAllowedAt := s6.mark.pos } else s6) := by
      split
      · exact ⟨h6.flags ⟨rfl, rfl⟩ rfl rfl rfl rfl rfl rfl rfl rfl, ⟨rfl, rfl⟩⟩
      · exact ⟨h6, .refl _⟩
    revert h7
    generalize (if s6.flowLevel > 0 then { s6 with adjacentValueAllowedAt := s6.mark.pos } else s6) = s7
    intro ⟨h7, e7⟩
    sg
    have hlt : s3.mark.pos < s7.mark.pos := by
      have := p5.pos_lt
      have := f6.adv.pos_le; rw [e7.mark]; rw [e.mark, ← e4.mark]; omega
    refine wp_st_push h7 (by rw [e.mark]; exact Nat.le_refl _) (by dsimp only; omega) (Nat.le_refl _) ?_ h3.inv.here h7.inv.here ?_ ?_ ?_
    · rcases ht with rfl | rfl <;> simp [TextOk, texts]
    · rcases ht with rfl | rfl <;> simp
    · rcases ht with rfl | rfl <;> rfl
    · intro s8 h8 e8
      have hs : Spec.flowStep fl ⟨⟨s3.mark, s7.mark⟩, tt⟩ = fl - 1 := by
        rcases ht with rfl | rfl <;> (simp only [Spec.flowStep]; rw [if_neg (by omega)])
      rw [hs] at h8
      exact h8.fetched (by omega)
  refine wp_when (fun _ => ?_) (fun _ => key _ (h3.mono (by omega) (Nat.le_refl _)) e)
  apply wp_bind
  refine wp_st_endImplicit h3 rfl ?_
  intro s4 h4 e4
  rw [e.mark] at h4
  apply wp_upd
  exact key _ (h4.flags ⟨rfl, rfl⟩ rfl rfl rfl rfl rfl rfl rfl rfl) ⟨e4.src.trans e.src, e4.mark.trans e.mark⟩

theorem wp_fetchFlowEntry (h : St x hist fl n lp L fl s) (hc : s.src.peekz 0 = 44) :
    wp x fetchFlowEntry (fun _ => Fetched x hist n L) s := by
  unfold fetchFlowEntry getMark
  apply wp_bind
  refine wp_st_remove h.now ?_
  intro s1 h1 e1
  apply wp_bind
  refine wp_st_allowed h1 ?_
  intro s2 h2 e2 _
  sg
  apply wp_bind
  refine wp_st_endImplicit h2 rfl ?_
  intro s3 h3 e3
  have e := (e1.trans e2).trans e3
  apply wp_bind
  refine wp_st_skip (c := 44) h3 (by rw [e.src]; exact hc) (by decide) (by decide) (by decide) ?_
  intro s5 h5 p5
  apply wp_bind
  refine wp_st_ws h5 ?_
  intro r s6 h6 f6
  sg
  refine wp_st_push h6 (Nat.le_refl _) ?_ (Nat.le_refl _) (by simp [TextOk, texts]) h2.inv.here h6.inv.here (by simp) rfl ?_
  · have := p5.adv.pos_le; have := f6.adv.pos_le; rw [e3.mark] at *; dsimp only; omega
  · intro s7 h7 e7
    have hs : Spec.flowStep fl ⟨⟨s2.mark, s6.mark⟩, .flowEntry⟩ = fl := by simp only [Spec.flowStep]; split <;> rfl
    rw [hs] at h7
    exact h7.fetched (by omega)

theorem leaf_facts {tt} (h : leaf tt = true) : (tt ≠ .streamStart ∧ tt ≠ .streamEnd) ∧ isBlockTok tt = false ∧
    ∀ fl sp, Spec.flowStep fl ⟨sp, tt⟩ = fl := by
  cases tt <;> simp_all [leaf, isBlockTok, Spec.flowStep]

/-- pushing a token with content -/
theorem wp_st_pushTok {t s0} (h : St x hist fl n lp (L - 1) fl s) (hlp : lp ≤ s0.mark.pos) (ht : TokOk x s0 s t) {n0} (hn : n ≤ n0 + 5) :
    wp x (pushTok t) (fun _ => Fetched x hist n0 L) s := by
  obtain ⟨f1, f2, f3⟩ := leaf_facts ht.kind
  refine wp_st_push h (Nat.le_trans hlp ht.start) ht.order ht.stop ht.text ht.at1 ht.at2 f1 f2 ?_
  intro s1 h1 e1
  have hs : Spec.flowStep fl ⟨t.span, t.tt⟩ = fl := f3 _ _
  rw [hs] at h1
  exact h1.fetched (by omega)

theorem wp_fetchPlainScalar (h : St x hist fl n lp L fl s) :
    wp x (fetchPlainScalar x.cfg) (fun _ => Fetched x hist n L) s := by
  unfold fetchPlainScalar
  apply wp_bind
  refine wp_st_save h ?_
  intro s1 h1 e1
  apply wp_bind
  refine wp_st_allowed h1 ?_
  intro s2 h2 e2 _
  have e := e1.trans e2
  apply wp_bind
  refine wp_scanPlainScalar h2.pt ?_
  intro t s3 p3 ok
  refine wp_st_pushTok (h2.nb.prog p3) ?_ ok (by omega)
  show s.mark.pos ≤ s2.mark.pos
  rw [e.mark]; exact Nat.le_refl _

theorem wp_fetchAnchor {al} (h : St x hist fl n lp L fl s) (hc : s.src.peekz 0 = 42 ∨ s.src.peekz 0 = 38) :
    wp x (fetchAnchor x.cfg al) (fun _ => Fetched x hist n L) s := by
  unfold fetchAnchor
  apply wp_bind
  refine wp_st_save h ?_
  intro s1 h1 e1
  apply wp_bind
  refine wp_st_allowed h1 ?_
  intro s2 h2 e2 _
  have e := e1.trans e2
  apply wp_bind
  refine wp_scanAnchor h2.pt (by rw [e.src]; exact hc) ?_
  intro t s3 p3 ok
  refine wp_st_pushTok (h2.prog p3) ?_ ok (by omega)
  rw [e.mark]; exact Nat.le_refl _

theorem wp_fetchTag (h : St x hist fl n lp L fl s) (hc : s.src.peekz 0 = 33) :
    wp x (fetchTag x.cfg) (fun _ => Fetched x hist n L) s := by
  unfold fetchTag
  apply wp_bind
  refine wp_st_save h ?_
  intro s1 h1 e1
  apply wp_bind
  refine wp_st_allowed h1 ?_
  intro s2 h2 e2 _
  have e := e1.trans e2
  apply wp_bind
  refine wp_scanTag h2.pt (by rw [e.src]; exact hc) ?_
  intro t s3 p3 ok
  refine wp_st_pushTok (h2.prog p3) ?_ ok (by omega)
  rw [e.mark]; exact Nat.le_refl _

theorem Blocks.le {x i l} (h : Blocks x i l) : i ≤ 110 ∨ x.lg := by
  cases h with
  | nil => left; omega
  | cons h1 h2 h3 => exact h2

theorem Chain.le {x i l} (h : Chain x i l) : i ≤ 111 ∨ x.lg := by
  rcases h with h | ⟨j, r, e1, e2, e3, h⟩
  · rcases h.le with h | h
    · left; omega
    · exact .inr h
  · rcases h.le with h | h
    · left; omega
    · exact .inr h

theorem wp_fetchBlockScalar {lit} (h : St x hist fl n lp L fl s) (hc : s.src.peekz 0 = 124 ∨ s.src.peekz 0 = 62) :
    wp x (fetchBlockScalar x.cfg lit) (fun _ => Fetched x hist n L) s := by
  unfold fetchBlockScalar
  apply wp_bind
  refine wp_st_save h ?_
  intro s1 h1 e1
  apply wp_bind
  refine wp_st_allowed h1 ?_
  intro s2 h2 e2 _
  have e := e1.trans e2
  refine wp_scanBlockScalar h2.pt (by rw [e.src]; exact hc) h2.nb.inv.chain.le ?_
  rintro s3 ⟨s4, t, p4, ok, rfl⟩
  have := wp_run (wp_st_pushTok (n0 := n) (t := t) (h2.nb.prog p4) (by show s.mark.pos ≤ s2.mark.pos; rw [e.mark]; exact Nat.le_refl _) ok (by omega))
  exact this

theorem wp_fetchFlowScalar {si} (h : St x hist fl n lp L fl s) (hc : s.src.peekz 0 = 39 ∨ s.src.peekz 0 = 34) :
    wp x (fetchFlowScalar x.cfg si) (fun _ => Fetched x hist n L) s := by
  unfold fetchFlowScalar
  apply wp_bind
  refine wp_st_save h ?_
  intro s1 h1 e1
  apply wp_bind
  refine wp_st_allowed h1 ?_
  intro s2 h2 e2 _
  have e := e1.trans e2
  apply wp_bind
  refine wp_scanFlowScalar h2.pt (by rw [e.src]; exact hc) ?_
  intro t s3 p3 ok
  have h3 := h2.prog p3
  apply wp_bind
  refine wp_skipToNextToken h3.pt.ok ?_
  intro s4 a4 v4
  have f4 : Fwd x s3 s4 := ⟨a4, v4 h3.pt.v⟩
  apply wp_bind
  apply wp_upd
  have h5 : St x hist fl n s.mark.pos (L - 1) fl { s4 with adjacentValueAllowedAt := s4.mark.pos } :=
    (h3.adv f4).flags ⟨rfl, rfl⟩ rfl rfl rfl rfl rfl rfl rfl rfl
  refine wp_st_pushTok (s0 := s2) (n0 := n) h5 ?_ (ok.upto (by exact a4.pos_le)) (by omega)
  rw [e.mark]; exact Nat.le_refl _

theorem wp_fetchDirective (h : St x hist fl n lp L fl s) (hc : s.src.peekz 0 = 37) :
    wp x (fetchDirective x.cfg) (fun _ => Fetched x hist n L) s := by
  unfold fetchDirective
  apply wp_bind
  refine wp_st_unroll h ?_
  intro s1 h1 e1 _
  apply wp_bind
  refine wp_st_remove h1 ?_
  intro s2 h2 e2
  apply wp_bind
  refine wp_st_allowed h2 ?_
  intro s3 h3 e3 _
  have e := (e1.trans e2).trans e3
  apply wp_bind
  refine wp_scanDirective h3.pt (by rw [e.src]; exact hc) ?_
  intro t s4 p4 ok
  refine wp_st_pushTok (h3.prog p4) ?_ ok (by omega)
  rw [e.mark]; exact Nat.le_refl _

theorem wp_fetchBlockEntry (h : St x hist fl n lp L fl s) (hc : s.src.peekz 0 = 45) :
    wp x fetchBlockEntry (fun _ => Fetched x hist n L) s := by
  have he := fun msg => h.inv.err s.mark msg h.inv.here
  unfold fetchBlockEntry getMark
  sg
  sg
  apply wp_bind
  refine wp_failIf (he _) (fun _ => ?_)
  sg
  apply wp_bind
  refine wp_failIf (he _) (fun _ => ?_)
  sg
  apply wp_bind
  refine wp_failIf (he _) (fun _ => ?_)
  apply wp_bind
  refine wp_st_skip (c := 45) h.now hc (by decide) (by decide) (by decide) ?_
  intro s1 h1 p1
  apply wp_bind
  refine wp_st_roll h1 h.pt.ok.col (.inr rfl) (Nat.le_refl _) (Nat.le_of_lt p1.pos_lt) h.inv.here ?_
  intro s2 h2 e2 _
  apply wp_bind
  refine wp_st_ws h2 ?_
  intro r s3 h3 f3
  sg
  sg
  apply wp_bind
  refine wp_failIf (h3.inv.err _ _ h3.inv.here) (fun _ => ?_)
  apply wp_bind
  refine wp_st_ws h3 ?_
  intro r s4 h4 f4
  sg
  apply wp_bind
  have hpos : s.mark.pos ≤ s4.mark.pos := by
    have := p1.pos_lt; have := f3.adv.pos_le; have := f4.adv.pos_le; rw [e2.mark] at *; omega
  have key : ∀ s5, St x hist fl (n + 3) s.mark.pos (L - 1) fl s5 → Still s4 s5 →
      wp x (do removeSimpleKey; setAllowed true; let m ← gets (·.mark); push ⟨s.mark, m⟩ .blockEntry)
        (fun _ => Fetched x hist n L) s5 := by
    intro s5 h5 e5
    apply wp_bind
    refine wp_st_remove h5 ?_
    intro s6 h6 e6
    apply wp_bind
    refine wp_st_allowed h6 ?_
    intro s7 h7 e7 _
    sg
    have e := (e5.trans e6).trans e7
    refine wp_st_push h7 (Nat.le_refl _) (by dsimp only; rw [e.mark]; exact hpos) (Nat.le_refl _) (by simp [TextOk, texts])
      h.inv.here h7.inv.here (by simp) rfl ?_
    intro s8 h8 _
    have hs : Spec.flowStep fl ⟨⟨s.mark, s7.mark⟩, .blockEntry⟩ = fl := by simp only [Spec.flowStep]; split <;> rfl
    rw [hs] at h8
    exact h8.fetched (by omega)
  refine wp_when (fun _ => ?_) (fun _ => key _ (h4.mono (by omega) (Nat.le_refl _)) (.refl _))
  refine wp_st_rollOne h4 ?_
  intro s5 h5 e5 _
  exact key s5 h5 e5

theorem wp_fetchKey (h : St x hist fl n lp L fl s) (hc : s.src.peekz 0 = 63) :
    wp x (fetchKey x.cfg) (fun _ => Fetched x hist n L) s := by
  have he := fun msg => h.inv.err s.mark msg h.inv.here
  unfold fetchKey getMark
  sg
  apply wp_bind
  have key : ∀ s1, St x hist fl (n + 2) s.mark.pos L fl s1 → Still s s1 →
      wp x (do removeSimpleKey; upd (fun s => { s with simpleKeyAllowed := s.flowLevel == 0 }); skipNonBlank
               skipYamlWhitespace x.cfg; let c ← peekz 0; let m ← gets (·.mark)
               failIf (c == b%'\t') m "tabs disallowed in this context"; push ⟨s.mark, m⟩ .key)
        (fun _ => Fetched x hist n L) s1 := by
    intro s1 h1 e1
    apply wp_bind
    refine wp_st_remove h1 ?_
    intro s2 h2 e2
    have e := e1.trans e2
    apply wp_bind
    apply wp_upd
    have h3 : St x hist fl (n + 2) s.mark.pos L fl { s2 with simpleKeyAllowed := s2.flowLevel == 0 } :=
      h2.flags ⟨rfl, rfl⟩ rfl rfl rfl rfl rfl rfl rfl rfl
    apply wp_bind
    refine wp_st_skip (c := 63) h3 (by show s2.src.peekz 0 = _; rw [e.src]; exact hc) (by decide) (by decide) (by decide) ?_
    intro s4 h4 p4
    apply wp_bind
    refine wp_skipYamlWhitespace h4.pt.ok ?_
    intro s5 a5 v5
    have h5 := h4.adv ⟨a5, v5 h4.pt.v⟩
    unfold peekz
    sg
    sg
    apply wp_bind
    refine wp_failIf (h5.inv.err _ _ h5.inv.here) (fun _ => ?_)
    have hpos : s.mark.pos ≤ s5.mark.pos := by
      have q := p4.pos_lt; have := a5.pos_le; have : s2.mark = s.mark := e.mark; dsimp only at q; rw [this] at q; omega
    refine wp_st_push h5 (Nat.le_refl _) hpos (Nat.le_refl _) (by simp [TextOk, texts])
      h.inv.here h5.inv.here (by simp) rfl ?_
    intro s8 h8 _
    have hs : Spec.flowStep fl ⟨⟨s.mark, s5.mark⟩, .key⟩ = fl := by simp only [Spec.flowStep]; split <;> rfl
    rw [hs] at h8
    exact h8.fetched (by omega)
  unfold fetchKeyStart
  sg
  refine wp_ite (fun _ => ?_) (fun _ => ?_)
  · sg
    apply wp_bind
    refine wp_failIf (he _) (fun _ => ?_)
    refine wp_st_roll h.now h.pt.ok.col (.inl rfl) (Nat.le_refl _) (Nat.le_refl _) h.inv.here ?_
    intro s1 h1 e1 _
    exact key s1 h1 e1
  · apply wp_upd
    exact key _ ((h.now.mono (Nat.le_add_right n 2) (Nat.le_refl _)).flags ⟨rfl, rfl⟩ rfl rfl rfl rfl rfl rfl rfl rfl) ⟨rfl, rfl⟩

theorem wp_st_colon {Q : Unit → SSt → Prop} (h : St x hist fl n lp L g s) (hc : s.src.peekz 0 = 58)
    (k : ∀ s', St x hist fl n lp (L - 1) g s' → Prog x s s' → Q () s') : wp x skipColon Q s := by
  unfold skipColon getMark peekz
  apply wp_bind
  refine wp_st_skip (c := 58) h hc (by decide) (by decide) (by decide) ?_
  intro s1 h1 p1
  sg
  refine wp_ite (fun _ => ?_) (fun _ => wp_pure (k _ h1 p1))
  apply wp_bind
  refine wp_st_ws h1 ?_
  intro r s2 h2 f2
  sg
  sg
  exact wp_failIf (h2.inv.err _ _ h2.inv.here) (fun _ => k _ h2 (p1.then f2))

theorem wp_valueAfterSimpleKey {sk ks m imp} {Q : Unit → SSt → Prop} (h : St x hist fl n lp L g s) (hk : s.simpleKeys = sk :: ks)
    (hp : sk.possible = true) (hm : At x m)
    (k : ∀ s', St x hist fl (n + 5) lp L g s' → Still s s' → Q () s') : wp x (valueAfterSimpleKey sk m imp) Q s := by
  unfold valueAfterSimpleKey
  apply wp_bind
  refine wp_st_insert h hk hp rfl (by simp) rfl ?_
  intro s1 h1 e1 k1
  apply wp_bind
  have key : ∀ s2, St x hist fl (n + 2) lp L g s2 → Still s s2 → s2.simpleKeys = s.simpleKeys →
      wp x (do rollIndent sk.mark.col (some sk.tokenNumber) .blockMappingStart sk.mark
               rollOneColIndent
               upd fun s =>
                { s with
                  simpleKeys := match s.simpleKeys with | k :: ks => { k with possible := false } :: ks | [] => []
                  simpleKeyAllowed := false }) Q s2 := by
    intro s2 h2 e2 k2
    apply wp_bind
    refine wp_st_rollAt h2 (k2.trans hk) hp (.inl rfl) ?_
    intro s3 h3 e3 k3
    apply wp_bind
    refine wp_st_rollOne h3 ?_
    intro s4 h4 e4 k4
    have kk : s4.simpleKeys = sk :: ks := by rw [k4, k3, k2, hk]
    have ee := (e2.trans e3).trans e4
    apply wp_upd
    refine k _ ?_ ⟨ee.src, ee.mark⟩
    refine h4.upd ⟨rfl, rfl⟩ ?_ rfl
    intro hi
    have hlen := hi.keysLen
    have hks := hi.keysSorted
    rw [kk] at hlen hks
    rw [List.pairwise_cons] at hks
    refine hi.rekey rfl rfl rfl rfl rfl rfl rfl (by simpa [kk] using hlen) ?_ ?_
    · intro k' hk' hp
      rw [kk] at hk'
      rcases List.mem_cons.1 hk' with rfl | hm
      · simp at hp
      · exact hi.keys k' (by simp [kk, hm]) hp
    · rw [kk, List.pairwise_cons]
      exact ⟨fun k' _ hp => by simp at hp, hks.2⟩
  refine wp_when (fun _ => ?_) (fun _ => key _ (h1.mono (by omega) (Nat.le_refl _)) e1 k1)
  apply wp_bind
  refine wp_failIf (h1.inv.err _ _ hm) (fun _ => ?_)
  refine wp_st_insert h1 (k1.trans hk) hp rfl (by simp) rfl ?_
  intro s2 h2 e2 k2
  exact key s2 h2 (e1.trans e2) (k2.trans k1)

theorem wp_valueAfterComplexKey {m imp} {Q : Unit → SSt → Prop} (h : St x hist fl n lp L g s)
    (hlp : lp ≤ m.pos) (hpos : m.pos ≤ s.mark.pos) (hm : At x m) (hcol : m.col ≤ 110 ∨ x.lg)
    (k : ∀ s', St x hist fl (n + 5) m.pos L g s' → Still s s' → Q () s') : wp x (valueAfterComplexKey m imp) Q s := by
  unfold valueAfterComplexKey
  apply wp_bind
  have key : ∀ s1, St x hist fl (n + 1) m.pos L g s1 → Still s s1 →
      wp x (do let fl ← gets (·.flowLevel)
               when (fl == 0) do
                 let allowed ← gets (·.simpleKeyAllowed)
                 failIf (!allowed) m "mapping values are not allowed in this context"
                 rollIndent m.col none .blockMappingStart m
               rollOneColIndent
               upd fun s => { s with simpleKeyAllowed := s.flowLevel == 0 }) Q s1 := by
    intro s1 h1 e1
    have key2 : ∀ s2, St x hist fl (n + 3) m.pos L g s2 → Still s1 s2 →
        wp x (do rollOneColIndent
                 upd fun s => { s with simpleKeyAllowed := s.flowLevel == 0 }) Q s2 := by
      intro s2 h2 e2
      apply wp_bind
      refine wp_st_rollOne h2 ?_
      intro s3 h3 e3 _
      apply wp_upd
      have ee := (e1.trans e2).trans e3
      exact k _ ((h3.mono (n' := n + 5) (by omega) (Nat.le_refl _)).flags ⟨rfl, rfl⟩ rfl rfl rfl rfl rfl rfl rfl rfl) ⟨ee.src, ee.mark⟩
    sg
    apply wp_bind
    refine wp_when (fun _ => ?_) (fun _ => key2 _ (h1.mono (by omega) (Nat.le_refl _)) (.refl _))
    sg
    apply wp_bind
    refine wp_failIf (h1.inv.err _ _ hm) (fun _ => ?_)
    refine wp_st_roll h1 hcol (.inl rfl) (Nat.le_refl _) (by rw [e1.mark]; exact hpos) hm ?_
    intro s2 h2 e2 _
    exact key2 s2 h2 e2
  have h0 : St x hist fl (n + 1) m.pos L g s := { h with inv := h.inv.mono (by omega) hlp hpos }
  refine wp_when (fun _ => ?_) (fun _ => key _ h0 (.refl _))
  refine wp_st_push h hlp (Nat.le_refl _) hpos (by simp [TextOk, texts]) hm hm (by simp) rfl ?_
  intro s1 h1 e1
  have hs : Spec.flowStep fl ⟨Span.empty m, .flowMappingStart⟩ = fl := by simp [Spec.flowStep, Span.empty]
  rw [hs] at h1
  exact key s1 h1 e1

theorem wp_fetchValue (h : St x hist fl n lp L fl s) (hc : s.src.peekz 0 = 58) :
    wp x fetchValue (fun _ => Fetched x hist n L) s := by
  unfold fetchValue getMark
  sg
  cases hk : s.simpleKeys with
  | nil => have := h.inv.keysLen; rw [hk] at this; simp at this
  | cons sk ks =>
    dsimp only
    sg
    sg
    apply wp_bind
    have key : ∀ imp s1, St x hist fl n s.mark.pos L fl s1 → Still s s1 → s1.simpleKeys = s.simpleKeys →
        wp x (do skipColon; valueAfterKey sk s.mark imp; push (Span.empty s.mark) .value) (fun _ => Fetched x hist n L) s1 := by
      intro imp s1 h1 e1 k1
      apply wp_bind
      refine wp_st_colon h1 (by rw [e1.src]; exact hc) ?_
      intro s2 h2 p2
      have k2 : s2.simpleKeys = sk :: ks := by rw [p2.adv.same.simpleKeys, k1, hk]
      have hpos : s.mark.pos ≤ s2.mark.pos := by have := p2.pos_lt; rw [e1.mark] at this; omega
      have key2 : ∀ s3, St x hist fl (n + 5) s.mark.pos (L - 1) fl s3 → Still s2 s3 →
          wp x (push (Span.empty s.mark) .value) (fun _ => Fetched x hist n L) s3 := by
        intro s3 h3 e3
        refine wp_st_push h3 (Nat.le_refl _) (Nat.le_refl _) (by rw [e3.mark]; exact hpos) (by simp [TextOk, texts])
          h.inv.here h.inv.here (by simp) rfl ?_
        intro s4 h4 _
        have hs : Spec.flowStep fl ⟨Span.empty s.mark, .value⟩ = fl := by simp [Spec.flowStep]
        rw [hs] at h4
        exact h4.fetched (by omega)
      apply wp_bind
      unfold valueAfterKey
      refine wp_ite (fun hp => ?_) (fun _ => ?_)
      · exact wp_valueAfterSimpleKey h2 k2 hp h.inv.here key2
      · exact wp_valueAfterComplexKey h2 (Nat.le_refl _) hpos h.inv.here h.pt.ok.col key2
    refine wp_when (fun _ => ?_) (fun _ => key _ _ h.now (.refl _) rfl)
    apply wp_upd
    exact key _ _ (h.now.flags ⟨rfl, rfl⟩ rfl rfl rfl rfl rfl rfl rfl rfl) ⟨rfl, rfl⟩ rfl

theorem wp_fetchFlowValue (h : St x hist fl n lp L fl s) (hc : s.src.peekz 0 = 58) :
    wp x fetchFlowValue (fun _ => Fetched x hist n L) s := by
  unfold fetchFlowValue getMark peekz
  sg
  sg
  sg
  apply wp_bind
  exact wp_failIf (h.inv.err _ _ h.inv.here) (fun _ => wp_fetchValue h hc)

theorem wp_fetchDocumentIndicator {tt c} {Q : Unit → SSt → Prop} (h : St x hist fl n lp L fl s) (h3 : s.src.nextIsThree c = true)
    (hc : c ≠ 10 ∧ c ≠ 0 ∧ c < 128) (ht : tt = .documentStart ∨ tt = .documentEnd) (k : ∀ s', Fetched x hist n L s' → Q () s') :
    wp x (fetchDocumentIndicator tt) Q s := by
  unfold fetchDocumentIndicator getMark
  apply wp_bind
  refine wp_st_unroll h ?_
  intro s1 h1 e1 _
  apply wp_bind
  refine wp_st_remove h1 ?_
  intro s2 h2 e2
  apply wp_bind
  refine wp_st_allowed h2 ?_
  intro s3 h4 e3 _
  have e := (e1.trans e2).trans e3
  sg
  obtain ⟨r, hr⟩ : ∃ r, s3.src.rest = [c, c, c] ++ r := by
    rw [e.src]
    simp only [Src.nextIsThree, Bool.and_eq_true, beq_iff_eq] at h3
    obtain ⟨⟨a1, a2⟩, a3⟩ := h3
    revert a1 a2 a3
    rcases s.src with ⟨rest, p, l⟩
    rcases rest with _ | ⟨d1, _ | ⟨d2, _ | ⟨d3, r⟩⟩⟩ <;> simp only [Src.peekz] <;> intro a1 a2 a3 <;> simp at a1 a2 a3
    all_goals first | (exfalso; omega) | skip
    subst a1 a2 a3
    exact ⟨r, rfl⟩
  apply wp_bind
  refine wp_skipN h4.pt.ok hr rfl (by simp; omega) ?_
  intro s4 a4 e4
  sg
  have p4 : Prog x s3 s4 := by
    refine ⟨a4, ?_, by rw [hr, e4]; simp; omega⟩
    exact h4.pt.v.skip (w := [c, c, c]) (by rw [hr, e4]) (by simp; omega)
  have h5 := h4.prog p4
  have hle := p4.pos_lt
  refine wp_st_push h5 ?_ (Nat.le_of_lt hle) (Nat.le_refl _) ?_ h4.inv.here h5.inv.here ?_ ?_ ?_
  · rw [e.mark]; exact Nat.le_refl _
  · rcases ht with rfl | rfl <;> simp [TextOk, texts]
  · rcases ht with rfl | rfl <;> simp
  · rcases ht with rfl | rfl <;> rfl
  · intro s6 h6 _
    have hs : Spec.flowStep fl ⟨⟨s3.mark, s4.mark⟩, tt⟩ = fl := by
      rcases ht with rfl | rfl <;> (simp only [Spec.flowStep]; split <;> rfl)
    rw [hs] at h6
    exact k _ (h6.fetched (by omega))

theorem wp_finishDocument (h : St x hist fl n lp L fl s) (h3 : s.src.nextIsThree 46 = true) :
    wp x finishDocument (fun _ => Fetched x hist n L) s := by
  unfold finishDocument getMark peekz
  apply wp_bind
  refine wp_fetchDocumentIndicator h h3 (by decide) (.inr rfl) ?_
  rintro s1 ⟨g1, lp1, h1⟩
  apply wp_bind
  refine wp_st_ws h1 ?_
  intro r s2 h2 f2
  sg
  sg
  exact wp_failIf (h2.inv.err _ _ h2.inv.here) (fun _ => ⟨g1, lp1, h2⟩)

theorem wp_unexpectedChar {Q : Unit → SSt → Prop} (h : St x hist fl n lp L fl s)
    (hc : s.src.peekz 0 = 37 ∨ s.src.peekz 0 = 64 ∨ s.src.peekz 0 = 96) : wp x unexpectedChar Q s := by
  unfold unexpectedChar getMark
  sg
  sg
  refine wp_ite (fun hs => ?_) (fun _ => wp_fail (h.inv.err _ _ h.inv.here))
  apply wp_panic
  obtain ⟨r, e⟩ := peek_cons (s := s.src) rfl (by omega)
  refine h.pt.ok.late ⟨[], _, r, e, hc, ?_⟩
  simp [e] at hs; omega

theorem wp_fetchMain (h : St x hist fl n lp L fl s) : wp x (fetchMain x.cfg) (fun _ => Fetched x hist n L) s := by
  unfold fetchMain peekz
  sg
  sg
  sg
  sg
  refine wp_ite (fun hc => wp_fetchFlowStart h (.inl hc) (.inl rfl)) (fun _ => ?_)
  refine wp_ite (fun hc => wp_fetchFlowStart h (.inr hc) (.inr rfl)) (fun _ => ?_)
  refine wp_ite (fun hc => wp_fetchFlowEnd h (.inl hc) (.inl rfl)) (fun _ => ?_)
  refine wp_ite (fun hc => wp_fetchFlowEnd h (.inr hc) (.inr rfl)) (fun _ => ?_)
  refine wp_ite (fun hc => wp_fetchFlowEntry h hc) (fun _ => ?_)
  refine wp_ite (fun hc => wp_fetchBlockEntry h hc.1) (fun _ => ?_)
  refine wp_ite (fun hc => wp_fetchKey h hc.1) (fun _ => ?_)
  refine wp_ite (fun hc => wp_fetchValue h hc.1) (fun _ => ?_)
  refine wp_ite (fun hc => wp_fetchFlowValue h hc.1) (fun _ => ?_)
  refine wp_ite (fun hc => wp_fetchAnchor h (.inl hc)) (fun _ => ?_)
  refine wp_ite (fun hc => wp_fetchAnchor h (.inr hc)) (fun _ => ?_)
  refine wp_ite (fun hc => wp_fetchTag h hc) (fun _ => ?_)
  refine wp_ite (fun hc => wp_fetchBlockScalar h (.inl hc.1)) (fun _ => ?_)
  refine wp_ite (fun hc => wp_fetchBlockScalar h (.inr hc.1)) (fun _ => ?_)
  refine wp_ite (fun hc => wp_fetchFlowScalar h (.inl hc)) (fun _ => ?_)
  refine wp_ite (fun hc => wp_fetchFlowScalar h (.inr hc)) (fun _ => ?_)
  refine wp_ite (fun hc => wp_fetchPlainScalar h) (fun _ => ?_)
  refine wp_ite (fun hc => wp_fetchPlainScalar h) (fun _ => ?_)
  refine wp_ite (fun hc => wp_unexpectedChar h hc) (fun _ => ?_)
  exact wp_fetchPlainScalar h

theorem wp_fetchAtToken (h : St x hist fl n lp L fl s) : wp x (fetchAtToken x.cfg) (fun _ => Fetched x hist n L) s := by
  unfold fetchAtToken getMark
  sg
  sg
  sg
  sg
  refine wp_ite (fun hc => ?_) (fun _ => ?_)
  · simp only [Bool.and_eq_true, beq_iff_eq] at hc
    exact wp_fetchDirective h hc.2
  refine wp_ite (fun hc => ?_) (fun _ => ?_)
  · simp only [Bool.and_eq_true, beq_iff_eq, nextIsDocumentStart] at hc
    exact wp_fetchDocumentIndicator h hc.2.1 (by decide) (.inl rfl) (fun _ h => h)
  refine wp_ite (fun hc => ?_) (fun _ => ?_)
  · simp only [Bool.and_eq_true, beq_iff_eq, nextIsDocumentEnd] at hc
    exact wp_finishDocument h hc.2.1
  sg
  apply wp_bind
  exact wp_failIf (h.inv.err _ _ h.inv.here) (fun _ => wp_fetchMain h)

end

end Verif.Scanner
