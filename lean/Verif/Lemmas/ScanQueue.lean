import Verif.Lemmas.ScanBlock
import Verif.Spec.TokenStream
/-!
# The token queue, the simple keys and the indentation stack
-/
namespace Verif.Scanner
open Verif Verif.CharUtils Verif.Source

/-! ## Depths -/

theorem blockDepth_append (n a b) : Spec.blockDepth n (a ++ b) = (Spec.blockDepth n a).bind fun m => Spec.blockDepth m b := by
  induction a generalizing n with
  | nil => rfl
  | cons t a ih =>
    simp only [List.cons_append, Spec.blockDepth]
    split <;> first | exact ih _ | skip
    split
    · rfl
    · exact ih _

theorem blockDepth_lift {n a m} (h : Spec.blockDepth n a = some m) (k : Nat) : Spec.blockDepth (n + k) a = some (m + k) := by
  induction a generalizing n with
  | nil => simp only [Spec.blockDepth, Option.some.injEq] at h ⊢; omega
  | cons t a ih =>
    simp only [Spec.blockDepth] at h ⊢
    split <;> rename_i ht <;> simp only [ht] at h
    · have := ih h; rwa [show n + 1 + k = n + k + 1 by omega] at this
    · have := ih h; rwa [show n + 1 + k = n + k + 1 by omega] at this
    · split at h
      · simp at h
      · rw [if_neg (by omega)]
        have := ih h
        rwa [show n - 1 + k = n + k - 1 by omega] at this
    · exact ih h

/-- tokens that open or close a block collection -/
def isBlockTok : TokenType → Bool
  | .blockSequenceStart | .blockMappingStart | .blockEnd => true
  | _ => false

theorem blockDepth_one {t : Token} (h : isBlockTok t.tt = false) (n) : Spec.blockDepth n [t] = some n := by
  simp only [Spec.blockDepth]
  split <;> simp_all [isBlockTok]

theorem blockDepth_ends (n k : Nat) (sp) (h : k ≤ n) :
    Spec.blockDepth n (List.replicate k ⟨sp, .blockEnd⟩) = some (n - k) := by
  induction k generalizing n with
  | zero => simp [Spec.blockDepth]
  | succ k ih =>
    simp only [List.replicate_succ, Spec.blockDepth]
    rw [if_neg (by omega), ih _ (by omega)]
    congr 1; omega

/-- inserting a token in the middle -/
theorem blockDepth_insert {a b n t} (h : Spec.blockDepth 0 (a ++ b) = some n) (k : Nat)
    (ht : ∀ m, Spec.blockDepth m [t] = some (m + k)) : Spec.blockDepth 0 (a ++ t :: b) = some (n + k) := by
  rw [blockDepth_append] at h ⊢
  cases ha : Spec.blockDepth 0 a with
  | none => simp [ha] at h
  | some m =>
    simp only [ha, Option.bind] at h ⊢
    rw [show t :: b = [t] ++ b from rfl, blockDepth_append, ht]
    exact blockDepth_lift h k

theorem flowDepth_append (a t) : Spec.flowDepth (a ++ [t]) = Spec.flowStep (Spec.flowDepth a) t := by
  simp [Spec.flowDepth]

theorem flowDepth_insert (a b t) (h : ∀ n, Spec.flowStep n t = n) : Spec.flowDepth (a ++ t :: b) = Spec.flowDepth (a ++ b) := by
  simp [Spec.flowDepth, h]

theorem flowDepth_ends (a k sp) : Spec.flowDepth (a ++ List.replicate k ⟨sp, .blockEnd⟩) = Spec.flowDepth a := by
  induction k with
  | zero => simp
  | succ k ih =>
    rw [List.replicate_succ', ← List.append_assoc, flowDepth_append, ih]
    simp [Spec.flowStep]

/-! ## The stack of indents -/

/-- block collections only, each deeper than the one below -/
inductive Blocks (x : Ctx) : Nat → List Indent → Prop
  | nil : Blocks x 0 []
  | cons {i j r} : j < i → (i ≤ 110 ∨ x.lg) → Blocks x j r → Blocks x i (⟨j, true⟩ :: r)

/-- block collections, and possibly a pseudo indent of one column on top -/
def Chain (x : Ctx) (i : Nat) (l : List Indent) : Prop :=
  Blocks x i l ∨ ∃ j r, l = ⟨j, false⟩ :: r ∧ i = j + 1 ∧ r ≠ [] ∧ Blocks x j r

/-- number of open block collections -/
def blocks (l : List Indent) : Nat := l.countP (·.needsBlockEnd)

theorem Blocks.pos {x i l} (h : Blocks x i l) (hl : l ≠ []) : 0 < i := by
  cases h with
  | nil => exact absurd rfl hl
  | cons h1 _ _ => omega

theorem Blocks.bound {x i l} (h : Blocks x i l) : i ≤ 110 ∨ x.lg := by
  cases h with
  | nil => left; omega
  | cons _ h2 _ => exact h2

theorem Chain.bound {x i l} (h : Chain x i l) : i ≤ 111 ∨ x.lg := by
  rcases h with h | ⟨j, r, rfl, rfl, _, h⟩
  · exact h.bound.imp (by omega) id
  · exact h.bound.imp (by omega) id

theorem unroll_blocks {x i l} (h : Blocks x i l) (col : Nat) :
    ∃ l' i' n, unroll col i l = some (l', i', n) ∧ Blocks x i' l' ∧ n + blocks l' = blocks l ∧ i' ≤ col ∧
      n + l'.length ≤ l.length := by
  induction h with
  | nil => exact ⟨[], 0, 0, by simp [unroll], .nil, rfl, by omega, by simp⟩
  | @cons i j r h1 h2 h3 ih =>
    obtain ⟨l', i', n, e1, e2, e3, e4, e5⟩ := ih
    simp only [unroll]
    by_cases hc : i > col
    · rw [if_pos hc, e1]
      exact ⟨l', i', n + 1, by simp, e2, by simp [blocks] at e3 ⊢; omega, e4, by simp; omega⟩
    · rw [if_neg hc]
      exact ⟨_, i, 0, rfl, .cons h1 h2 h3, by simp, by omega, by simp⟩

theorem unroll_chain {x i l} (h : Chain x i l) (col : Nat) :
    ∃ l' i' n, unroll col i l = some (l', i', n) ∧ Chain x i' l' ∧ n + blocks l' = blocks l ∧ i' ≤ col ∧
      n + l'.length ≤ l.length := by
  rcases h with h | ⟨j, r, rfl, rfl, hr, h⟩
  · obtain ⟨l', i', n, e1, e2, e3⟩ := unroll_blocks h col
    exact ⟨l', i', n, e1, .inl e2, e3⟩
  · simp only [unroll]
    by_cases hc : j + 1 > col
    · rw [if_pos hc]
      obtain ⟨l', i', n, e1, e2, e3, e4, e5⟩ := unroll_blocks h col
      rw [e1]
      exact ⟨l', i', n, by simp, .inl e2, by simpa [blocks] using e3, e4, by simp; omega⟩
    · rw [if_neg hc]
      exact ⟨_, j + 1, 0, rfl, .inr ⟨j, r, rfl, rfl, hr, h⟩, by simp, by omega, by simp⟩

theorem unrollNonBlock_blocks {x i l} (h : Blocks x i l) : unrollNonBlock i l = (l, i) := by
  cases h <;> simp [unrollNonBlock]

theorem nb_chain {x i l} (h : Chain x i l) :
    Chain x (unrollNonBlock i l).2 (unrollNonBlock i l).1 ∧ blocks (unrollNonBlock i l).1 = blocks l ∧
      (unrollNonBlock i l).1.length ≤ l.length ∧ (unrollNonBlock i l).2 ≤ i := by
  rcases h with h | ⟨j, r, rfl, rfl, hr, h⟩
  · rw [unrollNonBlock_blocks h]; exact ⟨.inl h, rfl, Nat.le_refl _, Nat.le_refl _⟩
  · simp only [unrollNonBlock, Bool.false_eq_true, if_false]
    rw [unrollNonBlock_blocks h]
    exact ⟨.inl h, by simp [blocks], by simp, by simp⟩

/-! ## The queue -/

/-- A token of the stream: its texts are valid and its span is right. -/
structure TkOk (x : Ctx) (t : Token) (lp pos : Nat) : Prop where
  start : t.span.start.pos ≤ lp
  order : t.span.start.pos ≤ t.span.stop.pos
  stop : t.span.stop.pos ≤ pos
  text : TextOk x t.tt
  at1 : At x t.span.start
  at2 : At x t.span.stop

/-- A simple key that may still be needed: the place for the `Key` token is in the queue and separates the tokens before the key
from those after it. -/
structure KeyOk (x : Ctx) (all : List Token) (lo lp : Nat) (k : SimpleKey) : Prop where
  lo : lo ≤ k.tokenNumber
  one : 1 ≤ k.tokenNumber
  hi : k.tokenNumber ≤ all.length
  pos : k.mark.pos ≤ lp
  mark : At x k.mark
  col : k.mark.col ≤ 110 ∨ x.lg
  before : ∀ t ∈ all.take k.tokenNumber, t.span.start.pos ≤ k.mark.pos
  after : ∀ t ∈ all.drop k.tokenNumber, k.mark.pos ≤ t.span.start.pos

/-- a key lower on the stack is an earlier one -/
def KeyLe (k k' : SimpleKey) : Prop :=
  k.possible = true → k'.possible = true → k'.tokenNumber ≤ k.tokenNumber ∧ k'.mark.pos ≤ k.mark.pos

/-- whether the stream is over -/
def SSt.over (s : SSt) : Bool × Bool × Option YErr := (s.streamEndProduced, s.streamEndReached, s.error)

theorem Adv.over {s s'} (h : Adv s s') : s'.over = s.over := by
  simp only [SSt.over, h.same.ended, h.same.reached, h.same.error]

/-- The invariant of the scanner between two steps, once the stream has started: `hist` are the tokens handed out, `fl` the number of
open flow collections of the token stream, `n` bounds the number of tokens and indents, and `lp` is a position no later than the
current one and no earlier than the start of any token or key. -/
structure Inv (x : Ctx) (hist : List Token) (fl n lp : Nat) (s : SSt) : Prop where
  err : ∀ m msg, At x m → x.E (.scanner m msg)
  here : At x s.mark
  started : s.streamStartProduced = true
  notEnded : s.over = (false, false, none)
  parsed : s.tokensParsed = hist.length
  keysLen : s.simpleKeys.length = s.flowLevel + 1
  chain : Chain x s.indent s.indents
  lpLe : lp ≤ s.mark.pos
  sorted : (hist ++ s.tokens).Pairwise fun t u => t.span.start.pos ≤ u.span.start.pos
  toks : ∀ t ∈ hist ++ s.tokens, TkOk x t lp s.mark.pos
  keys : ∀ k ∈ s.simpleKeys, k.possible = true → KeyOk x (hist ++ s.tokens) hist.length lp k
  keysSorted : s.simpleKeys.Pairwise KeyLe
  first : ∃ t r, hist ++ s.tokens = t :: r ∧ t.tt = .streamStart ∧ ∀ u ∈ r, u.tt ≠ .streamStart ∧ u.tt ≠ .streamEnd
  depth : Spec.blockDepth 0 (hist ++ s.tokens) = some (blocks s.indents)
  flow : Spec.flowDepth (hist ++ s.tokens) = fl
  size : (hist ++ s.tokens).length + s.indents.length ≤ n

theorem Inv.mono {x hist fl n lp s n' lp'} (h : Inv x hist fl n lp s) (hn : n ≤ n') (h1 : lp ≤ lp') (h2 : lp' ≤ s.mark.pos) :
    Inv x hist fl n' lp' s :=
  { h with
    lpLe := h2
    toks := fun t ht => { h.toks t ht with start := Nat.le_trans (h.toks t ht).start h1 }
    keys := fun k hk hp => { h.keys k hk hp with pos := Nat.le_trans (h.keys k hk hp).pos h1 }
    size := Nat.le_trans h.size hn }

/-- raising the position bound to the current position -/
theorem Inv.now {x hist fl n lp s} (h : Inv x hist fl n lp s) : Inv x hist fl n s.mark.pos s :=
  h.mono (Nat.le_refl _) h.lpLe (Nat.le_refl _)

/-- The invariant only depends on some fields, and lets the position move forward. -/
theorem Inv.congr {x hist fl n lp s s'} (h : Inv x hist fl n lp s) (h0 : At x s'.mark) (h1 : s.mark.pos ≤ s'.mark.pos)
    (h2 : s'.streamStartProduced = s.streamStartProduced) (h3 : s'.over = s.over)
    (h4 : s'.tokensParsed = s.tokensParsed) (h5 : s'.simpleKeys = s.simpleKeys) (h6 : s'.flowLevel = s.flowLevel)
    (h7 : s'.indent = s.indent) (h8 : s'.indents = s.indents) (h9 : s'.tokens = s.tokens) : Inv x hist fl n lp s' := by
  obtain ⟨a1, a2, a3, a4, a5, a6, a7, a8, a9, a10, a11, a12, a13, a14, a15, a16⟩ := h
  refine ⟨a1, h0, ?_, ?_, ?_, ?_, ?_, by omega, ?_, ?_, ?_, ?_, ?_, ?_, ?_, ?_⟩
  all_goals simp only [h2, h3, h4, h5, h6, h7, h8, h9]
  all_goals try assumption
  exact fun t ht => { a10 t ht with stop := Nat.le_trans (a10 t ht).stop h1 }

theorem Inv.adv {x hist fl n lp s s'} (h : Inv x hist fl n lp s) (a : Adv s s') (h0 : At x s'.mark) : Inv x hist fl n lp s' :=
  h.congr h0 a.pos_le a.same.started a.over a.same.parsed a.same.simpleKeys a.same.flowLevel a.same.indent a.same.indents
    a.same.tokens

/-- changing only fields that neither the invariant nor the position depend on -/
theorem Inv.flags {x hist fl n lp s s'} (h : Inv x hist fl n lp s)
    (h1 : s'.mark = s.mark)
    (h2 : s'.streamStartProduced = s.streamStartProduced) (h3 : s'.over = s.over)
    (h4 : s'.tokensParsed = s.tokensParsed) (h5 : s'.simpleKeys = s.simpleKeys) (h6 : s'.flowLevel = s.flowLevel)
    (h7 : s'.indent = s.indent) (h8 : s'.indents = s.indents) (h9 : s'.tokens = s.tokens) : Inv x hist fl n lp s' :=
  h.congr (h1 ▸ h.here) (by rw [h1]; exact Nat.le_refl _) h2 h3 h4 h5 h6 h7 h8 h9

/-- adding tokens at the end of the queue and changing the indents -/
theorem Inv.append {x hist fl n lp s s' l} (h : Inv x hist fl n lp s) (h1 : s'.mark = s.mark)
    (h2 : s'.streamStartProduced = s.streamStartProduced) (h3 : s'.over = s.over)
    (h4 : s'.tokensParsed = s.tokensParsed) (h5 : s'.simpleKeys = s.simpleKeys) (h6 : s'.flowLevel = s.flowLevel)
    (h9 : s'.tokens = s.tokens ++ l) {fl' n' lp' : Nat}
    (hchain : Chain x s'.indent s'.indents) (hlp : lp ≤ lp') (hlp' : lp' ≤ s.mark.pos)
    (hs : l.Pairwise fun t u => t.span.start.pos ≤ u.span.start.pos) (ht : ∀ t ∈ l, lp ≤ t.span.start.pos ∧ TkOk x t lp' s.mark.pos)
    (hk : ∀ t ∈ l, t.tt ≠ .streamStart ∧ t.tt ≠ .streamEnd)
    (hd : Spec.blockDepth (blocks s.indents) l = some (blocks s'.indents))
    (hf : l.foldl Spec.flowStep fl = fl') (hn : n + l.length + s'.indents.length ≤ n' + s.indents.length) :
    Inv x hist fl' n' lp' s' := by
  have e : hist ++ s'.tokens = (hist ++ s.tokens) ++ l := by rw [h9]; simp
  constructor
  · exact h.err
  · rw [h1]; exact h.here
  · rw [h2]; exact h.started
  · rw [h3]; exact h.notEnded
  · rw [h4]; exact h.parsed
  · rw [h5, h6]; exact h.keysLen
  · exact hchain
  · rw [h1]; exact hlp'
  · rw [e, List.pairwise_append]
    refine ⟨h.sorted, hs, ?_⟩
    intro t ht' u hu
    have := (h.toks t ht').start
    have := (ht u hu).1
    omega
  · rw [e, h1]
    intro t ht'
    rcases List.mem_append.1 ht' with hm | hm
    · exact { h.toks t hm with start := Nat.le_trans (h.toks t hm).start hlp }
    · exact (ht t hm).2
  · rw [e, h5]
    intro k hk' hp
    have ok := h.keys k hk' hp
    refine ⟨ok.lo, ok.one, ?_, Nat.le_trans ok.pos hlp, ok.mark, ok.col, ?_, ?_⟩
    · have := ok.hi; simp at this ⊢; omega
    · rw [List.take_append_of_le_length ok.hi]; exact ok.before
    · rw [List.drop_append_of_le_length ok.hi]
      intro t ht'
      rcases List.mem_append.1 ht' with hm | hm
      · exact ok.after t hm
      · have := (ht t hm).1; have := ok.pos; omega
  · rw [h5]; exact h.keysSorted
  · obtain ⟨t, r, e1, e2, e3⟩ := h.first
    refine ⟨t, r ++ l, by rw [e, e1]; rfl, e2, ?_⟩
    intro u hu
    rcases List.mem_append.1 hu with hm | hm
    · exact e3 u hm
    · exact hk u hm
  · rw [e, blockDepth_append, h.depth]; exact hd
  · rw [e, Spec.flowDepth, List.foldl_append]
    have := h.flow
    rw [Spec.flowDepth] at this
    rw [this]; exact hf
  · rw [e, List.length_append]; have := h.size; omega

/-- pushing one token that is not a block delimiter -/
theorem Inv.push {x hist fl n lp s t} (h : Inv x hist fl n lp s) (h1 : lp ≤ t.span.start.pos)
    (h2 : t.span.start.pos ≤ t.span.stop.pos) (h3 : t.span.stop.pos ≤ s.mark.pos) (h4 : TextOk x t.tt)
    (h5 : At x t.span.start) (h6 : At x t.span.stop)
    (hk : t.tt ≠ .streamStart ∧ t.tt ≠ .streamEnd) (hb : isBlockTok t.tt = false) :
    Inv x hist (Spec.flowStep fl t) (n + 1) t.span.start.pos { s with tokens := s.tokens ++ [t] } := by
  refine h.append (s' := { s with tokens := s.tokens ++ [t] }) (l := [t]) rfl rfl rfl rfl rfl rfl rfl h.chain h1 (by omega) (by simp) ?_ ?_ ?_ rfl ?_
  · intro u hu; simp at hu; subst hu; exact ⟨h1, ⟨Nat.le_refl _, h2, h3, h4, h5, h6⟩⟩
  · intro u hu; simp at hu; subst hu; exact hk
  · exact blockDepth_one hb _
  · simp

/-- inserting a token in front of the last simple key -/
theorem Inv.insert {x hist fl n lp s s' k ks sp tt} (h : Inv x hist fl n lp s) (hk : s.simpleKeys = k :: ks)
    (hp : k.possible = true) (hsp : sp = Span.empty k.mark) (ht : texts tt = []) (h1 : s'.mark = s.mark)
    (h2 : s'.streamStartProduced = s.streamStartProduced) (h3 : s'.over = s.over)
    (h4 : s'.tokensParsed = s.tokensParsed) (h5 : s'.simpleKeys = s.simpleKeys) (h6 : s'.flowLevel = s.flowLevel)
    (h9 : s'.tokens = s.tokens.take (k.tokenNumber - s.tokensParsed) ++ ⟨sp, tt⟩ :: s.tokens.drop (k.tokenNumber - s.tokensParsed))
    (hchain : Chain x s'.indent s'.indents) {n' d : Nat}
    (hd : ∀ m, Spec.blockDepth m [⟨sp, tt⟩] = some (m + d)) (hd' : blocks s'.indents = blocks s.indents + d)
    (hkind : tt ≠ .streamStart ∧ tt ≠ .streamEnd) (hn : n + 1 + s'.indents.length ≤ n' + s.indents.length) :
    Inv x hist fl n' lp s' := by
  have ok := h.keys k (by simp [hk]) hp
  have hlo := ok.lo
  have hhi := ok.hi
  have e0 : hist ++ s'.tokens = (hist ++ s.tokens).take k.tokenNumber ++ ⟨sp, tt⟩ :: (hist ++ s.tokens).drop k.tokenNumber := by
    rw [h9, h.parsed, List.take_append, List.drop_append, List.take_of_length_le hlo, List.drop_eq_nil_of_le hlo]
    simp
  have e1 := (List.take_append_drop k.tokenNumber (hist ++ s.tokens)).symm
  have hlen : (hist ++ s'.tokens).length = (hist ++ s.tokens).length + 1 := by
    rw [e0]; simp only [List.length_append, List.length_cons, List.length_take, List.length_drop]
    simp only [List.length_append] at hhi; omega
  have hat := ok.mark
  constructor
  · exact h.err
  · rw [h1]; exact h.here
  · rw [h2]; exact h.started
  · rw [h3]; exact h.notEnded
  · rw [h4]; exact h.parsed
  · rw [h5, h6]; exact h.keysLen
  · exact hchain
  · rw [h1]; exact h.lpLe
  · have hs := h.sorted
    rw [e1, List.pairwise_append] at hs
    rw [e0, List.pairwise_append, List.pairwise_cons]
    refine ⟨hs.1, ⟨?_, hs.2.1⟩, ?_⟩
    · intro u hu; rw [hsp]; exact ok.after u hu
    · intro t ht' u hu
      rcases List.mem_cons.1 hu with rfl | hu
      · rw [hsp]; exact ok.before t ht'
      · exact hs.2.2 t ht' u hu
  · rw [e0, h1]
    intro t ht'
    rcases List.mem_append.1 ht' with hm | hm
    · exact h.toks t (List.mem_of_mem_take hm)
    · rcases List.mem_cons.1 hm with rfl | hm
      · subst hsp
        exact ⟨ok.pos, Nat.le_refl _, Nat.le_trans ok.pos h.lpLe, by simp [TextOk, ht], hat, hat⟩
      · exact h.toks t (List.mem_of_mem_drop hm)
  · rw [h5]
    intro k' hk' hp'
    have ok' := h.keys k' hk' hp'
    have hle : k'.tokenNumber ≤ k.tokenNumber ∧ k'.mark.pos ≤ k.mark.pos := by
      have hs := h.keysSorted
      rw [hk, List.pairwise_cons] at hs
      rw [hk] at hk'
      rcases List.mem_cons.1 hk' with rfl | hm
      · exact ⟨Nat.le_refl _, Nat.le_refl _⟩
      · exact hs.1 k' hm hp hp'
    have hl1 : k'.tokenNumber ≤ ((hist ++ s.tokens).take k.tokenNumber).length := by
      rw [List.length_take]; omega
    refine ⟨ok'.lo, ok'.one, by rw [hlen]; have := ok'.hi; omega, ok'.pos, ok'.mark, ok'.col, ?_, ?_⟩
    · rw [e0, List.take_append_of_le_length hl1, List.take_take, Nat.min_eq_left hle.1]
      exact ok'.before
    · rw [e0, List.drop_append_of_le_length hl1]
      intro t ht'
      rcases List.mem_append.1 ht' with hm | hm
      · refine ok'.after t ?_
        rw [e1, List.drop_append_of_le_length hl1]
        exact List.mem_append_left _ hm
      · rcases List.mem_cons.1 hm with rfl | hm
        · rw [hsp]; exact hle.2
        · have := ok.after t hm; omega
  · rw [h5]; exact h.keysSorted
  · obtain ⟨t, r, f1, f2, f3⟩ := h.first
    have hone := ok.one
    obtain ⟨m, hm⟩ : ∃ m, k.tokenNumber = m + 1 := ⟨k.tokenNumber - 1, by omega⟩
    rw [e0, f1, hm]
    refine ⟨t, r.take m ++ ⟨sp, tt⟩ :: r.drop m, by simp, f2, ?_⟩
    intro u hu
    rcases List.mem_append.1 hu with hu | hu
    · exact f3 u (List.mem_of_mem_take hu)
    · rcases List.mem_cons.1 hu with rfl | hu
      · exact hkind
      · exact f3 u (List.mem_of_mem_drop hu)
  · have hd0 := h.depth
    rw [e1] at hd0
    rw [e0, hd']
    exact blockDepth_insert hd0 d hd
  · rw [e0, flowDepth_insert, ← e1]
    · exact h.flow
    · intro m; subst hsp; simp [Spec.flowStep, Span.empty]
  · rw [hlen]; have := h.size; omega

/-- forgetting some of the keys' possibility, dropping and replacing keys -/
theorem Inv.rekey {x hist fl n lp s s'} (h : Inv x hist fl n lp s) (h1 : s'.mark = s.mark)
    (h2 : s'.streamStartProduced = s.streamStartProduced) (h3 : s'.over = s.over)
    (h4 : s'.tokensParsed = s.tokensParsed) (h7 : s'.indent = s.indent) (h8 : s'.indents = s.indents)
    (h9 : s'.tokens = s.tokens) (hl : s'.simpleKeys.length = s'.flowLevel + 1)
    (hk : ∀ k ∈ s'.simpleKeys, k.possible = true → KeyOk x (hist ++ s.tokens) hist.length lp k)
    (hs : s'.simpleKeys.Pairwise KeyLe) : Inv x hist fl n lp s' := by
  obtain ⟨a1, a2, a3, a4, a5, a6, a7, a8, a9, a10, a11, a12, a13, a14, a15, a16⟩ := h
  refine ⟨a1, h1 ▸ a2, ?_, ?_, ?_, hl, ?_, by rw [h1]; exact a8, ?_, ?_, ?_, hs, ?_, ?_, ?_, ?_⟩
  all_goals simp only [h1, h2, h3, h4, h7, h8, h9]
  all_goals assumption

/-- changing the indents without tokens -/
theorem Inv.reindent {x hist fl n lp s s'} (h : Inv x hist fl n lp s) (h1 : s'.mark = s.mark)
    (h2 : s'.streamStartProduced = s.streamStartProduced) (h3 : s'.over = s.over)
    (h4 : s'.tokensParsed = s.tokensParsed) (h5 : s'.simpleKeys = s.simpleKeys) (h6 : s'.flowLevel = s.flowLevel)
    (h9 : s'.tokens = s.tokens) {n' : Nat} (hchain : Chain x s'.indent s'.indents) (hb : blocks s'.indents = blocks s.indents)
    (hn : n + s'.indents.length ≤ n' + s.indents.length) : Inv x hist fl n' lp s' := by
  refine h.append (l := []) h1 h2 h3 h4 h5 h6 (by simp [h9]) hchain (Nat.le_refl _) h.lpLe (by simp) (by simp) (by simp) ?_ rfl ?_
  · simp [Spec.blockDepth, hb]
  · simpa using hn

end Verif.Scanner
