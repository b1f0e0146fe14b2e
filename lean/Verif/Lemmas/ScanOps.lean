import Verif.Lemmas.ScanQueue
/-!
# The operations on keys, indents and the queue keep the invariant
-/
namespace Verif.Scanner
open Verif Verif.CharUtils Verif.Source

/-- The invariant together with the reading position, at most `L` bytes before the end, and the flow level `g`. -/
structure St (x : Ctx) (hist : List Token) (fl n lp L g : Nat) (s : SSt) : Prop where
  pt : Pt x s
  inv : Inv x hist fl n lp s
  len : s.src.rest.length ≤ L
  level : s.flowLevel = g

/-- the position is the same -/
structure Still (s s' : SSt) : Prop where
  src : s'.src = s.src
  mark : s'.mark = s.mark

theorem Pt.still {x s s'} (h : Pt x s) (e : Still s s') : Pt x s' := by
  obtain ⟨⟨a1, a2, a3, a4, a5, a6, a7, a8, a8', a9⟩, v⟩ := h
  obtain ⟨e1, e2⟩ := e
  constructor
  · refine ⟨?_, ?_, a3, ?_, a5, a6, ?_, a8, a8', ?_⟩ <;> rw [e1]
    all_goals first | assumption | skip
    rw [e2]; assumption
  · exact v.eq e1

theorem Blocks.head {x i y ys} (h : Blocks x i (y :: ys)) : y.needsBlockEnd = true := by
  cases h; rfl

section
variable {x : Ctx} {hist : List Token} {fl n lp L g : Nat} {s s' : SSt}

theorem St.adv (h : St x hist fl n lp L g s) (f : Fwd x s s') : St x hist fl n lp L g s' :=
  ⟨h.pt.fwd f, h.inv.adv f.adv (h.pt.fwd f).at, Nat.le_trans f.adv.len_le h.len, f.adv.same.flowLevel.trans h.level⟩

theorem St.prog (h : St x hist fl n lp L g s) (f : Prog x s s') : St x hist fl n lp (L - 1) g s' :=
  ⟨h.pt.prog f, h.inv.adv f.adv (h.pt.prog f).at, by have := f.less; have := h.len; omega,
   f.adv.same.flowLevel.trans h.level⟩

theorem St.now (h : St x hist fl n lp L g s) : St x hist fl n s.mark.pos L g s := { h with inv := h.inv.now }

theorem St.mono (h : St x hist fl n lp L g s) {n' L'} (hn : n ≤ n') (hL : L ≤ L') : St x hist fl n' lp L' g s :=
  { h with inv := h.inv.mono hn (Nat.le_refl _) h.inv.lpLe, len := Nat.le_trans h.len hL }

theorem St.upd (h : St x hist fl n lp L g s) (e : Still s s') (hi : Inv x hist fl n lp s → Inv x hist fl n lp s')
    (hl : s'.flowLevel = s.flowLevel) : St x hist fl n lp L g s' :=
  ⟨h.pt.still e, hi h.inv, by rw [e.src]; exact h.len, hl.trans h.level⟩

theorem wp_st_allowed {b} {Q : Unit → SSt → Prop} (h : St x hist fl n lp L g s)
    (k : ∀ s', St x hist fl n lp L g s' → Still s s' → s'.simpleKeys = s.simpleKeys → Q () s') : wp x (setAllowed b) Q s := by
  apply wp_upd
  exact k _ (h.upd ⟨rfl, rfl⟩ (·.flags rfl rfl rfl rfl rfl rfl rfl rfl rfl) rfl) ⟨rfl, rfl⟩ rfl

theorem wp_st_save {Q : Unit → SSt → Prop} (h : St x hist fl n lp L g s)
    (k : ∀ s', St x hist fl n s.mark.pos L g s' → Still s s' → Q () s') : wp x saveSimpleKey Q s := by
  apply wp_upd
  split
  · refine k _ ?_ ⟨rfl, rfl⟩
    refine ⟨h.pt.still ⟨rfl, rfl⟩, ?_, h.len, h.level⟩
    have hi := h.inv.now
    have hne : s.simpleKeys ≠ [] := by
      intro hh; have := hi.keysLen; rw [hh] at this; simp at this
    obtain ⟨k0, ks, hks⟩ := List.exists_cons_of_ne_nil hne
    have hall : (keyHere s).tokenNumber = (hist ++ s.tokens).length := by simp [keyHere, hi.parsed]
    refine hi.rekey rfl rfl rfl rfl rfl rfl rfl ?_ ?_ ?_
    · have := hi.keysLen; rw [hks] at this; simpa [hks] using this
    · intro k hk hp
      simp only [List.mem_cons] at hk
      rcases hk with rfl | hk
      · refine ⟨?_, ?_, by rw [hall]; exact Nat.le_refl _, Nat.le_refl _, hi.here, h.pt.ok.col, ?_, ?_⟩
        · rw [hall]; simp
        · rw [hall]; obtain ⟨t, r, e, _⟩ := hi.first; rw [e]; simp
        · rw [hall, List.take_length]; exact fun t ht => (hi.toks t ht).start
        · rw [hall, List.drop_length]; simp
      · exact hi.keys k (List.mem_of_mem_tail hk) hp
    · simp only [List.pairwise_cons]
      refine ⟨?_, hi.keysSorted.sublist (List.tail_sublist _)⟩
      intro k' hk' _ hp'
      have ok := hi.keys k' (List.mem_of_mem_tail hk') hp'
      exact ⟨by rw [hall]; exact ok.hi, ok.pos⟩
  · exact k _ h.now ⟨rfl, rfl⟩

theorem wp_st_remove {Q : Unit → SSt → Prop} (h : St x hist fl n lp L g s)
    (k : ∀ s', St x hist fl n lp L g s' → Still s s' → Q () s') : wp x removeSimpleKey Q s := by
  apply wp_of
  unfold removeSimpleKey
  have hi := h.inv
  cases hk : s.simpleKeys with
  | nil => have := hi.keysLen; rw [hk] at this; simp at this
  | cons k0 ks =>
    simp only
    split
    · rename_i heq
      split at heq
      · simp at heq
      · injection heq with h1 h2; subst h2
        have hlen := hi.keysLen
        have hks := hi.keysSorted
        rw [hk] at hlen hks
        rw [List.pairwise_cons] at hks
        refine k _ ?_ ⟨rfl, rfl⟩
        refine h.upd ⟨rfl, rfl⟩ ?_ rfl
        intro hi
        refine hi.rekey rfl rfl rfl rfl rfl rfl rfl (by simpa using hlen) ?_ ?_
        · intro k' hk' hp
          rcases List.mem_cons.1 hk' with rfl | hm
          · simp at hp
          · exact hi.keys k' (by simp [hk, hm]) hp
        · rw [List.pairwise_cons]
          exact ⟨fun k' _ hp => by simp at hp, hks.2⟩
    · rename_i heq
      split at heq
      · injection heq with h1 h2; injection h1 with h1; subst h1; exact hi.err _ _ hi.here
      · simp at heq
    · rename_i heq; split at heq <;> simp at heq
    · rename_i heq; split at heq <;> simp at heq

theorem wp_st_stale {Q : Unit → SSt → Prop} (h : St x hist fl n lp L g s)
    (k : ∀ s', St x hist fl n lp L g s' → Still s s' → s'.simpleKeys.length = s.simpleKeys.length →
      s'.tokens = s.tokens → Q () s') : wp x staleSimpleKeys Q s := by
  apply wp_of
  unfold staleSimpleKeys
  have hi := h.inv
  by_cases hc : (s.simpleKeys.any fun k => isStale s k && k.required) = true
  · rw [if_pos hc]; exact hi.err _ _ hi.here
  · rw [if_neg hc]
    refine k _ ?_ ⟨rfl, rfl⟩ (by simp) rfl
    refine h.upd ⟨rfl, rfl⟩ ?_ rfl
    intro hi
    refine hi.rekey rfl rfl rfl rfl rfl rfl rfl (by simpa using hi.keysLen) ?_ ?_
    · intro k' hk' hp
      obtain ⟨k0, hk0, rfl⟩ := List.mem_map.1 hk'
      split at hp
      · simp at hp
      · rename_i hst; rw [if_neg hst]; exact hi.keys k0 hk0 hp
    · refine List.Pairwise.map _ ?_ hi.keysSorted
      intro a b hab
      unfold KeyLe at *
      split <;> split <;> simp_all

theorem wp_inv_unroll {col} {Q : Unit → SSt → Prop} (h : Inv x hist fl n lp s)
    (k : ∀ s', Inv x hist fl n s.mark.pos s' → Still s s' → s'.flowLevel = s.flowLevel → s'.simpleKeys = s.simpleKeys →
      (s.flowLevel = 0 → s'.indent ≤ col) → Q () s') :
    wp x (unrollIndent col) Q s := by
  apply wp_of
  unfold unrollIndent
  by_cases hf : s.flowLevel > 0
  · rw [if_pos hf]
    exact k _ h.now ⟨rfl, rfl⟩ rfl rfl (by omega)
  · rw [if_neg hf]
    have hi := h.now
    obtain ⟨l', i', m, e1, e2, e3, e4, e5⟩ := unroll_chain hi.chain col
    rw [e1]
    refine k _ ?_ ⟨rfl, rfl⟩ rfl rfl (fun _ => e4)
    refine hi.append (l := List.replicate m ⟨Span.empty s.mark, .blockEnd⟩) (by rfl) (by rfl) (by rfl) (by rfl) (by rfl) (by rfl)
      (by rfl) e2 (Nat.le_refl _) (Nat.le_refl _) ?_ ?_ ?_ ?_ ?_ ?_
    · rw [List.pairwise_replicate]; right; exact Nat.le_refl _
    · intro t ht
      rw [List.eq_of_mem_replicate ht]
      exact ⟨Nat.le_refl _, ⟨Nat.le_refl _, Nat.le_refl _, Nat.le_refl _, by simp [TextOk, texts], hi.here, hi.here⟩⟩
    · intro t ht; rw [List.eq_of_mem_replicate ht]; exact ⟨by simp, by simp⟩
    · rw [blockDepth_ends _ _ _ (by omega)]
      congr 1; simp only; omega
    · clear k e1 e3 e5
      induction m with
      | zero => rfl
      | succ m ih => rw [List.replicate_succ, List.foldl_cons]; simpa [Spec.flowStep] using ih
    · simp; omega

theorem wp_st_unroll {col} {Q : Unit → SSt → Prop} (h : St x hist fl n lp L g s)
    (k : ∀ s', St x hist fl n s.mark.pos L g s' → Still s s' → (g = 0 → s'.indent ≤ col) → Q () s') : wp x (unrollIndent col) Q s :=
  wp_inv_unroll h.inv (fun s' hi e hl _ hc =>
    k s' ⟨h.pt.still e, hi, by rw [e.src]; exact h.len, hl.trans h.level⟩ e (by rw [h.level] at hc; exact hc))

theorem wp_st_rollOne {Q : Unit → SSt → Prop} (h : St x hist fl n lp L g s)
    (k : ∀ s', St x hist fl (n + 1) lp L g s' → Still s s' → s'.simpleKeys = s.simpleKeys → Q () s') : wp x rollOneColIndent Q s := by
  apply wp_upd
  have hid : St x hist fl (n + 1) lp L g s := h.mono (by omega) (Nat.le_refl _)
  cases hI : s.indents with
  | nil => exact k _ hid ⟨rfl, rfl⟩ rfl
  | cons y ys =>
    dsimp only
    split
    · rename_i hc
      refine k _ ?_ ⟨rfl, rfl⟩ rfl
      refine ⟨h.pt.still ⟨rfl, rfl⟩, ?_, h.len, h.level⟩
      refine h.inv.reindent (by rfl) (by rfl) (by rfl) (by rfl) (by rfl) (by rfl) (by rfl) ?_ ?_ ?_
      · right
        refine ⟨s.indent, y :: ys, rfl, rfl, by simp, ?_⟩
        have hch := h.inv.chain
        rw [hI] at hch
        rcases hch with hb | ⟨j, r, e, _⟩
        · exact hb
        · injection e with e1 _; subst e1; simp at hc
      · simp [blocks, hI]
      · simp [hI]; omega
    · exact k _ hid ⟨rfl, rfl⟩ rfl

theorem St.dropNonBlock (h : St x hist fl n lp L g s) {col} {Q : Unit → SSt → Prop}
    (k : ∀ s', St x hist fl n lp L g s' → Still s s' → s'.simpleKeys = s.simpleKeys → s'.tokensParsed = s.tokensParsed →
      (s'.indent < col → Blocks x s'.indent s'.indents) → Q () s') : wp x (Scanner.dropNonBlock col) Q s := by
  apply wp_upd
  cases hI : s.indents with
  | nil =>
    refine k _ h ⟨rfl, rfl⟩ rfl rfl ?_
    intro _
    rcases h.inv.chain with hb | ⟨j, r, e, _⟩
    · exact hb
    · rw [hI] at e; simp at e
  | cons y ys =>
    dsimp only
    split
    · rename_i hc
      rcases h.inv.chain with hb | ⟨j, r, e, e2, hr, hb⟩
      · rw [hI] at hb; exact absurd hc.2 (by rw [hb.head]; simp)
      · rw [hI] at e; injection e with e1 e3; subst e1; subst e3
        refine k _ ?_ ⟨rfl, rfl⟩ rfl rfl (fun _ => hb)
        refine ⟨h.pt.still ⟨rfl, rfl⟩, ?_, h.len, h.level⟩
        refine h.inv.reindent (by rfl) (by rfl) (by rfl) (by rfl) (by rfl) (by rfl) (by rfl) (.inl hb) ?_ ?_
        · simp [blocks, hI]
        · simp [hI]
    · rename_i hc
      refine k _ h ⟨rfl, rfl⟩ rfl rfl ?_
      intro hlt
      rcases h.inv.chain with hb | ⟨j, r, e, _⟩
      · exact hb
      · rw [hI] at e; injection e with e1 e3; subst e1
        exact absurd ⟨by omega, rfl⟩ hc

theorem startTok {tt sp} (h : tt = .blockMappingStart ∨ tt = .blockSequenceStart) (m : Nat) :
    Spec.blockDepth m [⟨sp, tt⟩] = some (m + 1) := by
  rcases h with rfl | rfl <;> rfl

/-- `roll_indent` at the current place -/
theorem wp_st_roll {col tt m} {Q : Unit → SSt → Prop} (h : St x hist fl n lp L g s) (hcol : col ≤ 110 ∨ x.lg)
    (ht : tt = .blockMappingStart ∨ tt = .blockSequenceStart) (h1 : lp ≤ m.pos) (h2 : m.pos ≤ s.mark.pos) (h3 : At x m)
    (k : ∀ s', St x hist fl (n + 2) m.pos L g s' → Still s s' → s'.simpleKeys = s.simpleKeys → Q () s') :
    wp x (rollIndent col none tt m) Q s := by
  have hup : ∀ s', St x hist fl n lp L g s' → Still s s' → St x hist fl (n + 2) m.pos L g s' :=
    fun s' h e => { h with inv := h.inv.mono (by omega) h1 (by rw [e.mark]; exact h2) }
  unfold rollIndent
  sg
  refine wp_ite (fun _ => wp_pure (k _ (hup s h ⟨rfl, rfl⟩) ⟨rfl, rfl⟩ rfl)) (fun _ => ?_)
  apply wp_bind
  refine h.dropNonBlock ?_
  intro s1 st1 e1 k1 _ b1
  unfold pushBlock
  sg
  refine wp_ite (fun hlt => ?_) (fun _ => wp_pure (k _ (hup s1 st1 e1) e1 k1))
  apply wp_bind
  apply wp_upd
  dsimp only [push]
  apply wp_upd
  refine k _ ?_ ⟨e1.src, e1.mark⟩ k1
  refine ⟨st1.pt.still ⟨rfl, rfl⟩, ?_, st1.len, st1.level⟩
  refine st1.inv.append (l := [⟨Span.empty m, tt⟩]) (by rfl) (by rfl) (by rfl) (by rfl) (by rfl) (by rfl) (by rfl) (.inl (.cons hlt hcol (b1 hlt)))
    h1 (by rw [e1.mark]; exact h2) (by simp) ?_ ?_ ?_ ?_ ?_
  · intro t ht'
    simp only [List.mem_singleton] at ht'
    subst ht'
    refine ⟨h1, ⟨Nat.le_refl _, Nat.le_refl _, by rw [e1.mark]; exact h2, ?_, h3, h3⟩⟩
    rcases ht with rfl | rfl <;> simp [TextOk, texts]
  · intro t ht'
    simp only [List.mem_singleton] at ht'
    subst ht'
    rcases ht with rfl | rfl <;> simp
  · rw [startTok ht]; simp [blocks]
  · simp [Spec.flowStep, Span.empty]
  · simp; omega

/-- inserting a token in front of the last key -/
theorem wp_st_insert {sk ks tt} {Q : Unit → SSt → Prop} (h : St x hist fl n lp L g s) (hk : s.simpleKeys = sk :: ks)
    (hp : sk.possible = true) (ht : texts tt = []) (hkind : tt ≠ .streamStart ∧ tt ≠ .streamEnd)
    (hb : isBlockTok tt = false)
    (k : ∀ s', St x hist fl (n + 1) lp L g s' → Still s s' → s'.simpleKeys = s.simpleKeys → Q () s') :
    wp x (insertToken sk.tokenNumber (Span.empty sk.mark) tt) Q s := by
  have ok := h.inv.keys sk (by simp [hk]) hp
  apply wp_of
  unfold insertToken
  have hpar := h.inv.parsed
  have hlo := ok.lo
  have hhi := ok.hi
  rw [List.length_append] at hhi
  rw [if_neg (by omega)]
  refine k _ ?_ ⟨rfl, rfl⟩ rfl
  refine ⟨h.pt.still ⟨rfl, rfl⟩, ?_, h.len, h.level⟩
  exact h.inv.insert hk hp rfl ht (by rfl) (by rfl) (by rfl) (by rfl) (by rfl) (by rfl) (by rfl) (by exact h.inv.chain) (d := 0) (fun m => blockDepth_one hb m) (by rfl) hkind
    (by simp)

/-- `roll_indent` at the last key -/
theorem wp_st_rollAt {sk ks tt} {Q : Unit → SSt → Prop} (h : St x hist fl n lp L g s) (hk : s.simpleKeys = sk :: ks)
    (hp : sk.possible = true) (ht : tt = .blockMappingStart ∨ tt = .blockSequenceStart)
    (k : ∀ s', St x hist fl (n + 2) lp L g s' → Still s s' → s'.simpleKeys = s.simpleKeys → Q () s') :
    wp x (rollIndent sk.mark.col (some sk.tokenNumber) tt sk.mark) Q s := by
  have hup : ∀ s', St x hist fl n lp L g s' → Still s s' → St x hist fl (n + 2) lp L g s' :=
    fun s' h e => h.mono (by omega) (Nat.le_refl _)
  have ok := h.inv.keys sk (by simp [hk]) hp
  unfold rollIndent
  sg
  refine wp_ite (fun _ => wp_pure (k _ (hup s h ⟨rfl, rfl⟩) ⟨rfl, rfl⟩ rfl)) (fun _ => ?_)
  apply wp_bind
  refine h.dropNonBlock ?_
  intro s1 st1 e1 k1 _ b1
  unfold pushBlock
  sg
  refine wp_ite (fun hlt => ?_) (fun _ => wp_pure (k _ (hup s1 st1 e1) e1 k1))
  apply wp_bind
  apply wp_upd
  apply wp_of
  unfold insertToken
  simp only
  have ok1 := st1.inv.keys sk (by simp [k1, hk]) hp
  have hpar := st1.inv.parsed
  have hlo := ok1.lo
  have hhi := ok1.hi
  rw [List.length_append] at hhi
  rw [if_neg (by omega)]
  refine k _ ?_ ⟨e1.src, e1.mark⟩ k1
  refine ⟨st1.pt.still ⟨rfl, rfl⟩, ?_, st1.len, st1.level⟩
  refine st1.inv.insert (k1.trans hk) hp rfl ?_ (by rfl) (by rfl) (by rfl) (by rfl) (by rfl) (by rfl) (by rfl) (.inl (.cons hlt ok.col (b1 hlt))) (d := 1)
    (startTok ht) ?_ ?_ ?_
  · rcases ht with rfl | rfl <;> rfl
  · simp [blocks]
  · rcases ht with rfl | rfl <;> simp
  · simp; omega

theorem wp_st_inc {Q : Unit → SSt → Prop} (h : St x hist fl n lp L g s)
    (k : ∀ s', St x hist fl n lp L (g + 1) s' → Still s s' → Q () s') : wp x increaseFlowLevel Q s := by
  apply wp_upd
  refine k _ ?_ ⟨rfl, rfl⟩
  refine ⟨h.pt.still ⟨rfl, rfl⟩, ?_, h.len, by simpa using h.level⟩
  have hi := h.inv
  refine hi.rekey rfl rfl rfl rfl rfl rfl rfl (by simpa using hi.keysLen) ?_ ?_
  · intro k' hk' hp
    rcases List.mem_cons.1 hk' with rfl | hm
    · simp [SimpleKey.new] at hp
    · exact hi.keys k' hm hp
  · rw [List.pairwise_cons]
    exact ⟨fun k' _ hp => by simp [SimpleKey.new] at hp, hi.keysSorted⟩

theorem wp_st_dec {Q : Unit → SSt → Prop} (h : St x hist fl n lp L g s)
    (k : ∀ s', St x hist fl n lp L (g - 1) s' → Still s s' → Q () s') : wp x decreaseFlowLevel Q s := by
  apply wp_of
  unfold decreaseFlowLevel
  have hl := h.level
  by_cases hf : s.flowLevel > 0
  · rw [if_pos hf]
    have hi := h.inv
    cases hk : s.simpleKeys with
    | nil => have := hi.keysLen; rw [hk] at this; simp at this
    | cons k0 ks =>
      have hlen := hi.keysLen
      have hks := hi.keysSorted
      rw [hk] at hlen hks
      rw [List.pairwise_cons] at hks
      refine k _ ?_ ⟨rfl, rfl⟩
      refine ⟨h.pt.still ⟨rfl, rfl⟩, ?_, h.len, by simp; omega⟩
      refine hi.rekey rfl rfl rfl rfl rfl rfl rfl (by simp at hlen ⊢; omega) ?_ hks.2
      intro k' hk' hp
      exact hi.keys k' (by simp [hk, hk']) hp
  · rw [if_neg hf]
    have hg : g - 1 = g := by omega
    refine k _ (by rw [hg]; exact h) ⟨rfl, rfl⟩

/-- pushing a token -/
theorem wp_st_push {sp tt} {Q : Unit → SSt → Prop} (h : St x hist fl n lp L g s) (h1 : lp ≤ sp.start.pos)
    (h2 : sp.start.pos ≤ sp.stop.pos) (h3 : sp.stop.pos ≤ s.mark.pos) (h4 : TextOk x tt)
    (h5 : At x sp.start) (h6 : At x sp.stop)
    (hk : tt ≠ .streamStart ∧ tt ≠ .streamEnd) (hb : isBlockTok tt = false)
    (k : ∀ s', St x hist (Spec.flowStep fl ⟨sp, tt⟩) (n + 1) sp.start.pos L g s' → Still s s' → Q () s') :
    wp x (push sp tt) Q s := by
  apply wp_upd
  refine k _ ?_ ⟨rfl, rfl⟩
  exact ⟨h.pt.still ⟨rfl, rfl⟩, h.inv.push h1 h2 h3 h4 h5 h6 hk hb, h.len, h.level⟩

/-- `end_implicit_mapping` -/
theorem wp_st_endImplicit {m} {Q : Unit → SSt → Prop} (h : St x hist fl n lp L g s) (hm : m = s.mark)
    (k : ∀ s', St x hist fl (n + 1) s.mark.pos L g s' → Still s s' → Q () s') : wp x (endImplicitMapping m) Q s := by
  apply wp_upd
  have hid : St x hist fl (n + 1) s.mark.pos L g s := h.now.mono (by omega) (Nat.le_refl _)
  split
  · refine k _ ?_ ⟨rfl, rfl⟩
    subst hm
    have hi := h.inv.now.push (t := ⟨⟨s.mark, s.mark⟩, .flowMappingEnd⟩) (Nat.le_refl _) (Nat.le_refl _) (Nat.le_refl _)
      (by simp [TextOk, texts]) h.inv.here h.inv.here (by simp) rfl
    have hs : Spec.flowStep fl ⟨⟨s.mark, s.mark⟩, .flowMappingEnd⟩ = fl := by simp [Spec.flowStep]
    rw [hs] at hi
    exact ⟨h.pt.still ⟨rfl, rfl⟩, hi.flags rfl rfl rfl rfl rfl rfl rfl rfl rfl, h.len, h.level⟩
  · exact k _ hid ⟨rfl, rfl⟩

theorem St.nb (h : St x hist fl n lp L g s) : St x hist fl n lp L g (nb s) := by
  obtain ⟨c1, c2, c3, c4⟩ := nb_chain h.inv.chain
  refine ⟨h.pt.nb, h.inv.reindent (by rfl) (by rfl) (by rfl) (by rfl) (by rfl) (by rfl) (by rfl) c1 c2 ?_, h.len, h.level⟩
  simp only [Scanner.nb]; omega

end

end Verif.Scanner
