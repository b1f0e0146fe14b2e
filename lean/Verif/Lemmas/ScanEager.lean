import Verif.Lemmas.ScanEval
import Verif.Spec.ScannerRuns
/-!
# When tokens are taken from the queue does not matter

`view p e` is the state `e` with the first `p` tokens taken. Everything the scanner does gives the same result on `view p e` as on
`e`, as long as no simple key that is still possible points before token `p`.
-/
namespace Verif.Scanner
open Verif Verif.CharUtils Verif.Source

/-- `e` after `p` tokens were taken -/
def view (p : Nat) (e : SSt) : SSt := { e with tokens := e.tokens.drop p, tokensParsed := p }

/-- what changes only when a token is taken -/
def flags (e : SSt) : Option YErr × Bool × Bool × Bool × Bool :=
  (e.error, e.streamEndReached, e.tokensAvailable, e.streamEndProduced, e.streamStartProduced)

/-- `p` tokens, `pre`, can have been taken from `e` -/
structure EOk (p : Nat) (pre : List Token) (e : SSt) : Prop where
  zero : e.tokensParsed = 0
  len : p ≤ e.tokens.length
  flag : flags e = (none, false, false, false, true)
  taken : e.tokens.take p = pre
  keys : ∀ k ∈ e.simpleKeys, k.possible = true → p ≤ k.tokenNumber

/-- the one error that depends on what is still in the queue: a `-` after an anchor or a tag in the first column -/
def Anch {α} (r : Res α × SSt) : Prop :=
  (∃ mk, r.1 = .err (.scanner mk "block sequence entries are not allowed in this context")) ∧ anchoredEntry r.2 = true

/-- `m` does not depend on how many tokens were taken -/
def Sim (p : Nat) (pre : List Token) {α} (m : SM α) : Prop :=
  ∀ e, EOk p pre e → (∀ a e', m e = (.ok a, e') → m (view p e) = (.ok a, view p e') ∧ EOk p pre e') ∧
    ∀ a v, m (view p e) = (.ok a, v) → (∃ e', m e = (.ok a, e')) ∨ Anch (m e)

variable {p : Nat} {pre : List Token}

theorem sim_of {α} {m : SM α} (h1 : ∀ e a e', EOk p pre e → m e = (.ok a, e') → m (view p e) = (.ok a, view p e') ∧ EOk p pre e')
    (h2 : ∀ e a v, EOk p pre e → m (view p e) = (.ok a, v) → (∃ e', m e = (.ok a, e')) ∨ Anch (m e)) : Sim p pre m :=
  fun e ho => ⟨fun a e' => h1 e a e' ho, fun a v => h2 e a v ho⟩

/-- `m` always succeeds -/
theorem sim_total {α} {m : SM α} (h : ∀ e, EOk p pre e → ∃ a e', m e = (.ok a, e') ∧ m (view p e) = (.ok a, view p e') ∧ EOk p pre e') : Sim p pre m := by
  refine sim_of (fun e a e' ho h1 => ?_) fun e a v ho h1 => ?_
  · obtain ⟨b, e1, h2, h3, h4⟩ := h e ho
    rw [h2] at h1
    simp only [Prod.mk.injEq, Res.ok.injEq] at h1
    obtain ⟨rfl, rfl⟩ := h1
    exact ⟨h3, h4⟩
  · obtain ⟨b, e1, h2, h3, h4⟩ := h e ho
    rw [h3] at h1
    simp only [Prod.mk.injEq, Res.ok.injEq] at h1
    obtain ⟨rfl, rfl⟩ := h1
    exact .inl ⟨_, h2⟩

theorem sim_pure {α} {a : α} : Sim p pre (pure a) := sim_total fun e ho => ⟨a, e, rfl, rfl, ho⟩

theorem sim_bind {α β} {m : SM α} {f : α → SM β} (hm : Sim p pre m) (hf : ∀ a, Sim p pre (f a)) : Sim p pre (m >>= f) := by
  refine sim_of (fun e b e' ho h => ?_) fun e b v ho h => ?_
  · simp only [Bind.bind] at h ⊢
    split at h
    · rename_i a e1 h1
      obtain ⟨h2, ho1⟩ := (hm _ ho).1 _ _ h1
      rw [h2]
      exact (hf a _ ho1).1 _ _ h
    all_goals simp at h
  · simp only [Bind.bind] at h ⊢
    split at h
    · rename_i a e1 h1
      rcases (hm _ ho).2 _ _ h1 with ⟨e2, h2⟩ | hx
      · obtain ⟨h3, ho1⟩ := (hm _ ho).1 _ _ h2
        rw [h1] at h3
        simp only [Prod.mk.injEq, true_and] at h3
        subst h3
        rw [h2]
        exact (hf a _ ho1).2 _ _ h
      · right
        obtain ⟨⟨mk, h2⟩, h3⟩ := hx
        rcases hr : m e with ⟨r, e2⟩
        rw [hr] at h2 h3
        dsimp only at h2 h3
        subst h2
        exact ⟨⟨mk, rfl⟩, h3⟩
    all_goals simp at h

theorem sim_fail {α m msg} : Sim p pre (fail m msg : SM α) := sim_of (by rintro e a e' - h; simp [fail] at h) (by rintro e a e' - h; simp [fail] at h)
theorem sim_panic {α} : Sim p pre (panic : SM α) := sim_of (by rintro e a e' - h; simp [panic] at h) (by rintro e a e' - h; simp [panic] at h)
theorem sim_hang {α} : Sim p pre (hang : SM α) := sim_of (by rintro e a e' - h; simp [hang] at h) (by rintro e a e' - h; simp [hang] at h)

theorem sim_gets {α} {f : SSt → α} (hf : ∀ e, f (view p e) = f e) : Sim p pre (gets f) :=
  sim_total fun e ho => ⟨f e, e, rfl, by simp only [gets, hf], ho⟩

theorem sim_upd {f : SSt → SSt} (hf : ∀ e, EOk p pre e → f (view p e) = view p (f e) ∧ EOk p pre (f e)) : Sim p pre (upd f) := by
  refine sim_of ?_ fun e a v ho h => .inl ⟨_, rfl⟩
  rintro e a e' ho h
  simp only [upd, Prod.mk.injEq] at h ⊢
  obtain ⟨-, rfl⟩ := h
  exact ⟨⟨trivial, (hf e ho).1⟩, (hf e ho).2⟩

theorem sim_ite {α} {c : Prop} [Decidable c] {m n : SM α} (hm : c → Sim p pre m) (hn : ¬c → Sim p pre n) : Sim p pre (if c then m else n) := by
  split
  · exact hm ‹_›
  · exact hn ‹_›

theorem sim_failIf {c m msg} : Sim p pre (failIf c m msg) := by
  unfold failIf; exact sim_ite (fun _ => sim_fail) (fun _ => sim_pure)

theorem sim_when {c m} (h : Sim p pre m) : Sim p pre (when c m) := by
  unfold when; exact sim_ite (fun _ => h) (fun _ => sim_pure)

theorem sim_loop {σ α} {body : σ → SM (Loop σ α)} (h : ∀ x, Sim p pre (body x)) : ∀ n x, Sim p pre (loopM body n x)
  | 0, _ => by rw [loopM]; exact sim_hang
  | n + 1, x => by
    rw [loopM]
    refine sim_bind (h x) fun r => ?_
    cases r with
    | next y => exact sim_loop h n y
    | done a => exact sim_pure

/-- an update that leaves queue and keys alone -/
theorem sim_upd_rfl {f : SSt → SSt} (h1 : ∀ e, f (view p e) = view p (f e))
    (h2 : ∀ e, (f e).tokens = e.tokens ∧ (f e).tokensParsed = e.tokensParsed ∧ (f e).simpleKeys = e.simpleKeys ∧
      flags (f e) = flags e) : Sim p pre (upd f) :=
  sim_upd fun e ho => ⟨h1 e, by rw [(h2 e).2.1]; exact ho.zero, by rw [(h2 e).1]; exact ho.len, by rw [(h2 e).2.2.2]; exact ho.flag, by rw [(h2 e).1]; exact ho.taken,
    by rw [(h2 e).2.2.1]; exact ho.keys⟩

theorem sim_peekz {n} : Sim p pre (peekz n) := sim_gets fun _ => rfl
theorem sim_atEof : Sim p pre atEof := sim_gets fun _ => rfl
theorem sim_getMark : Sim p pre getMark := sim_gets fun _ => rfl

theorem sim_push {sp tt} : Sim p pre (push sp tt) := by
  refine sim_upd fun e ho => ⟨?_, ho.zero, ?_, ho.flag, (List.take_append_of_le_length ho.len).trans ho.taken, ho.keys⟩
  · simp [view, List.drop_append_of_le_length ho.len]
  · have := ho.len; simp; omega

theorem sim_setAllowed {b} : Sim p pre (setAllowed b) := sim_upd_rfl (fun _ => rfl) fun _ => ⟨rfl, rfl, rfl, rfl⟩
theorem sim_skipN {n} : Sim p pre (skipN n) := sim_upd_rfl (fun _ => rfl) fun _ => ⟨rfl, rfl, rfl, rfl⟩
theorem sim_skipNonBlank : Sim p pre skipNonBlank := sim_upd_rfl (fun _ => rfl) fun _ => ⟨rfl, rfl, rfl, rfl⟩
theorem sim_skipBlank : Sim p pre skipBlank := sim_upd_rfl (fun _ => rfl) fun _ => ⟨rfl, rfl, rfl, rfl⟩
theorem sim_skipCounted {f} : Sim p pre (skipCounted f) := sim_upd_rfl (fun _ => rfl) fun _ => ⟨rfl, rfl, rfl, rfl⟩

theorem view_ite {c : Prop} [Decidable c] (a b : SSt) : view p (if c then a else b) = if c then view p a else view p b := by
  split <;> rfl

theorem sim_skipLinebreak : Sim p pre skipLinebreak := by
  refine sim_upd_rfl (fun e => ?_) fun e => ?_
  · rw [view_ite, view_ite]; rfl
  · split
    · exact ⟨rfl, rfl, rfl, rfl⟩
    · split <;> exact ⟨rfl, rfl, rfl, rfl⟩

theorem sim_skipWsToEol {a b} : Sim p pre (skipWsToEol a b) := by
  refine sim_of (fun e x e' ho h => ?_) fun e x v ho h => ?_
  rotate_left
  · left
    unfold skipWsToEol at h ⊢
    simp only [view] at h ⊢
    split at h
    · simp only [Prod.mk.injEq, Res.ok.injEq] at h
      obtain ⟨rfl, -⟩ := h
      exact ⟨_, rfl⟩
    · simp at h
  unfold skipWsToEol at h ⊢
  simp only [view] at h ⊢
  split at h
  · rename_i r hr
    simp only [Prod.mk.injEq, Res.ok.injEq] at h
    obtain ⟨rfl, rfl⟩ := h
    exact ⟨rfl, ho.zero, ho.len, ho.flag, ho.taken, ho.keys⟩
  · simp at h

theorem sim_fetchAlpha : Sim p pre fetchAlpha := by
  refine sim_of (fun e x e' ho h => ?_) fun e x v ho h => .inl ?_
  rotate_left
  · simp only [fetchAlpha, Prod.mk.injEq, Res.ok.injEq, view] at h
    obtain ⟨rfl, -⟩ := h
    exact ⟨_, rfl⟩
  simp only [fetchAlpha, Prod.mk.injEq, Res.ok.injEq] at h
  obtain ⟨rfl, rfl⟩ := h
  exact ⟨rfl, ho.zero, ho.len, ho.flag, ho.taken, ho.keys⟩

theorem sim_pushNonBreakz : Sim p pre pushNonBreakz := by
  refine sim_of (fun e x e' ho h => ?_) fun e x v ho h => .inl ?_
  rotate_left
  · unfold pushNonBreakz at h ⊢
    rw [show (view p e).src = e.src from rfl] at h
    split at h
    · simp at h
    · rename_i hx
      simp only [Prod.mk.injEq, Res.ok.injEq] at h
      obtain ⟨rfl, -⟩ := h
      exact ⟨_, if_neg hx⟩
  unfold pushNonBreakz at h
  split at h
  · simp at h
  · rename_i hx
    simp only [Prod.mk.injEq, Res.ok.injEq] at h
    obtain ⟨rfl, rfl⟩ := h
    exact ⟨if_neg hx, ho.zero, ho.len, ho.flag, ho.taken, ho.keys⟩

theorem sim_unrollIndent {c} : Sim p pre (unrollIndent c) := by
  refine sim_of (fun e x e' ho h => ?_) fun e x v ho h => .inl ?_
  rotate_left
  · unfold unrollIndent at h ⊢
    rw [show (view p e).flowLevel = e.flowLevel from rfl, show (view p e).indents = e.indents from rfl, show (view p e).indent = e.indent from rfl] at h
    split at h
    · rename_i hx
      exact ⟨_, if_pos hx⟩
    · rename_i hx
      rw [if_neg hx]
      split at h
      · simp at h
      · exact ⟨_, rfl⟩
  unfold unrollIndent at h
  split at h
  · rename_i hx
    simp only [Prod.mk.injEq] at h
    obtain ⟨-, rfl⟩ := h
    exact ⟨if_pos hx, ho⟩
  · rename_i hx
    split at h
    · simp at h
    · rename_i is i n hu
      simp only [Prod.mk.injEq] at h
      obtain ⟨-, rfl⟩ := h
      refine ⟨?_, ho.zero, ?_, ho.flag, (List.take_append_of_le_length ho.len).trans ho.taken, ho.keys⟩
      · refine (if_neg hx).trans ?_
        rw [show unroll c (view p e).indent (view p e).indents = _ from hu]
        simp [view, List.drop_append_of_le_length ho.len]
      · have := ho.len; simp; omega

theorem sim_insertToken {n sp tt} (hn : p ≤ n) : Sim p pre (insertToken n sp tt) := by
  refine sim_of (fun e x e' ho h => ?_) fun e x v ho h => .inl ?_
  rotate_left
  · have hz := ho.zero
    have hl := ho.len
    unfold insertToken at h ⊢
    split at h
    · simp at h
    · rename_i hx
      refine ⟨_, if_neg ?_⟩
      simp [view] at hx
      omega
  unfold insertToken at h
  have hz := ho.zero
  have hl := ho.len
  split at h
  · simp at h
  · rename_i hx
    simp only [Prod.mk.injEq] at h
    obtain ⟨-, rfl⟩ := h
    rw [hz] at hx
    refine ⟨?_, ho.zero, by simp; omega, ho.flag, ?_, ho.keys⟩
    unfold insertToken
    refine (if_neg ?_).trans ?_
    · simp [view]; omega
    have : (e.tokens.take n ++ (⟨sp, tt⟩ : Token) :: e.tokens.drop n).drop p =
        (e.tokens.drop p).take (n - p) ++ ⟨sp, tt⟩ :: (e.tokens.drop p).drop (n - p) := by
      rw [List.drop_append_of_le_length (by simp; omega), List.drop_drop, ← List.drop_take]
      simp [show p + (n - p) = n by omega]
    · simp [view, hz, this]
    · simp only [hz, Nat.sub_zero]
      rw [List.take_append_of_le_length (by simp; omega), List.take_take, Nat.min_eq_left hn]
      exact ho.taken

theorem sim_decreaseFlowLevel : Sim p pre decreaseFlowLevel := by
  refine sim_of (fun e x e' ho h => ?_) fun e x v ho h => .inl ?_
  rotate_left
  · unfold decreaseFlowLevel at h ⊢
    rw [show (view p e).flowLevel = e.flowLevel from rfl, show (view p e).simpleKeys = e.simpleKeys from rfl] at h
    split at h
    · rename_i hx
      rw [if_pos hx]
      split at h
      · simp at h
      · exact ⟨_, rfl⟩
    · rename_i hx
      exact ⟨_, if_neg hx⟩
  unfold decreaseFlowLevel at h
  split at h
  · rename_i hx
    split at h
    · simp at h
    · rename_i k ks hk
      simp only [Prod.mk.injEq] at h
      obtain ⟨-, rfl⟩ := h
      refine ⟨(if_pos hx).trans ?_, ho.zero, ho.len, ho.flag, ho.taken, fun k' hk' => ho.keys k' (by rw [hk]; exact List.mem_cons_of_mem _ hk')⟩
      rw [show (view p e).simpleKeys = _ from hk]
      rfl
  · rename_i hx
    simp only [Prod.mk.injEq] at h
    obtain ⟨-, rfl⟩ := h
    exact ⟨if_neg hx, ho⟩

theorem sim_staleSimpleKeys : Sim p pre staleSimpleKeys := by
  refine sim_of (fun e x e' ho h => ?_) fun e x v ho h => .inl ?_
  rotate_left
  · unfold staleSimpleKeys at h ⊢
    rw [show isStale (view p e) = isStale e from rfl, show (view p e).simpleKeys = e.simpleKeys from rfl] at h
    split at h
    · simp at h
    · rename_i hx
      exact ⟨_, if_neg hx⟩
  unfold staleSimpleKeys at h ⊢
  have hs : isStale (view p e) = isStale e := rfl
  rw [hs, show (view p e).simpleKeys = e.simpleKeys from rfl]
  split at h
  · simp at h
  · rename_i hx
    simp only [Prod.mk.injEq] at h
    obtain ⟨-, rfl⟩ := h
    refine ⟨by rw [if_neg hx]; rfl, ho.zero, ho.len, ho.flag, ho.taken, ?_⟩
    intro k hk hp
    simp only [List.mem_map] at hk
    obtain ⟨k0, hk0, rfl⟩ := hk
    split at hp
    · simp at hp
    · rename_i hy; rw [if_neg hy]; exact ho.keys k0 hk0 hp

theorem sim_removeSimpleKey : Sim p pre removeSimpleKey := by
  refine sim_of (fun e x e' ho h => ?_) fun e x v ho h => .inl ?_
  rotate_left
  · unfold removeSimpleKey at h ⊢
    rw [show (view p e).simpleKeys = e.simpleKeys from rfl] at h
    split at h
    · simp at h
    · split at h
      · simp at h
      · rename_i hx
        exact ⟨_, if_neg hx⟩
  unfold removeSimpleKey at h ⊢
  rw [show (view p e).simpleKeys = e.simpleKeys from rfl]
  split at h
  · simp at h
  · rename_i k ks hk
    split at h
    · simp at h
    · rename_i hx
      simp only [Prod.mk.injEq] at h
      obtain ⟨-, rfl⟩ := h
      refine ⟨if_neg hx, ho.zero, ho.len, ho.flag, ho.taken, fun k' hk' hp => ?_⟩
      simp only [List.mem_cons] at hk'
      rcases hk' with rfl | hk'
      · simp at hp
      · exact ho.keys k' (by rw [hk]; exact List.mem_cons_of_mem _ hk') hp

theorem sim_saveSimpleKey : Sim p pre saveSimpleKey := by
  refine sim_upd fun e ho => ?_
  have hl := ho.len
  have hk : keyHere (view p e) = keyHere e := by
    simp only [keyHere, view, ho.zero, List.length_drop, Nat.zero_add]
    rw [show p + (e.tokens.length - p) = e.tokens.length by omega]
  rw [hk]
  show (if e.simpleKeyAllowed then _ else _) = _ ∧ _
  split
  · refine ⟨rfl, ho.zero, ho.len, ho.flag, ho.taken, fun k hk hp => ?_⟩
    simp only [List.mem_cons] at hk
    rcases hk with rfl | hk
    · simp [keyHere, ho.zero, hl]
    · exact ho.keys k (List.mem_of_mem_tail hk) hp
  · exact ⟨rfl, ho⟩

/-- goals `Sim p pre m` by the form of `m` -/
macro "sim" "[" ls:term,* "]" : tactic => do
  let base ← `(tactic| first
    | with_reducible exact sim_pure
    | with_reducible exact sim_fail
    | with_reducible exact sim_panic
    | with_reducible exact sim_failIf
    | with_reducible exact sim_peekz
    | with_reducible exact sim_atEof
    | with_reducible exact sim_getMark
    | with_reducible exact sim_push
    | with_reducible exact sim_setAllowed
    | with_reducible exact sim_skipN
    | with_reducible exact sim_skipNonBlank
    | with_reducible exact sim_skipBlank
    | with_reducible exact sim_skipCounted
    | with_reducible exact sim_skipLinebreak
    | with_reducible exact sim_skipWsToEol
    | with_reducible exact sim_fetchAlpha
    | with_reducible exact sim_pushNonBreakz
    | with_reducible exact sim_unrollIndent
    | with_reducible exact sim_decreaseFlowLevel
    | with_reducible exact sim_staleSimpleKeys
    | with_reducible exact sim_removeSimpleKey
    | with_reducible exact sim_saveSimpleKey
    | with_reducible exact sim_gets fun _ => rfl
    | with_reducible refine sim_when ?_
    | with_reducible refine sim_ite (fun _ => ?_) (fun _ => ?_)
    | with_reducible refine sim_bind ?_ (fun _ => ?_)
    | with_reducible refine sim_upd_rfl (fun _ => rfl) (fun _ => ⟨rfl, rfl, rfl, rfl⟩)
    | with_reducible refine sim_loop (fun _ => ?_) _ _
    | dsimp only
    | split)
  let alts := ls.getElems
  let mut t := base
  for l in alts do
    t ← `(tactic| first | with_reducible exact $l | $t:tactic)
  `(tactic| repeat' $t:tactic)

theorem sim_skipToNextToken {cfg} : Sim p pre (skipToNextToken cfg) := by
  unfold skipToNextToken skipToNextTokenBody; sim []

theorem sim_skipYamlWhitespace {cfg} : Sim p pre (skipYamlWhitespace cfg) := by
  unfold skipYamlWhitespace skipYamlWhitespaceBody; sim []

theorem sim_readBreak {l} : Sim p pre (readBreak l) := by unfold readBreak; sim []

theorem sim_dropNonBlock {c} : Sim p pre (dropNonBlock c) := by
  refine sim_upd_rfl (fun e => ?_) fun e => ?_
  · rw [show (view p e).indents = e.indents from rfl]
    cases hi : e.indents with
    | nil => rfl
    | cons x xs => dsimp only; rw [view_ite]; rfl
  · split
    · split <;> exact ⟨rfl, rfl, rfl, rfl⟩
    · exact ⟨rfl, rfl, rfl, rfl⟩

theorem sim_pushBlock {c n tt m} (hn : ∀ x, n = some x → p ≤ x) : Sim p pre (pushBlock c n tt m) := by
  unfold pushBlock
  refine sim_bind (sim_gets fun _ => rfl) fun i => sim_ite (fun _ => sim_bind (sim_upd_rfl (fun _ => rfl) fun _ => ⟨rfl, rfl, rfl, rfl⟩) fun _ => ?_) fun _ => sim_pure
  cases n with
  | none => exact sim_push
  | some x => exact sim_insertToken (hn x rfl)

theorem sim_rollIndent {c n tt m} (hn : ∀ x, n = some x → p ≤ x) : Sim p pre (rollIndent c n tt m) := by
  unfold rollIndent; sim [sim_dropNonBlock, sim_pushBlock hn]

theorem sim_rollIndent_none {c tt m} : Sim p pre (rollIndent c none tt m) := sim_rollIndent (by simp)

theorem sim_rollOneColIndent : Sim p pre rollOneColIndent := by
  refine sim_upd_rfl (fun e => ?_) fun e => ?_
  · rw [show (view p e).indents = e.indents from rfl]
    cases hi : e.indents with
    | nil => rfl
    | cons x xs => dsimp only; rw [view_ite]; rfl
  · split
    · split <;> exact ⟨rfl, rfl, rfl, rfl⟩
    · exact ⟨rfl, rfl, rfl, rfl⟩

theorem sim_unrollNonBlockIndents : Sim p pre unrollNonBlockIndents := sim_upd_rfl (fun _ => rfl) fun _ => ⟨rfl, rfl, rfl, rfl⟩

theorem sim_increaseFlowLevel : Sim p pre increaseFlowLevel := by
  refine sim_upd fun e ho => ⟨rfl, ho.zero, ho.len, ho.flag, ho.taken, fun k hk hp => ?_⟩
  simp only [List.mem_cons] at hk
  rcases hk with rfl | hk
  · simp [SimpleKey.new] at hp
  · exact ho.keys k hk hp

theorem sim_plainRun {x} : Sim p pre (plainRunBody x) := by unfold plainRunBody; sim []
theorem sim_plainContent {cfg x} : Sim p pre (plainContent cfg x) := by unfold plainContent; sim [sim_plainRun]
theorem sim_plainBlank {a b x} : Sim p pre (plainBlankBody a b x) := by unfold plainBlankBody; sim []
theorem sim_plainAfter {cfg a b x} : Sim p pre (plainAfter cfg a b x) := by unfold plainAfter; sim [sim_plainBlank]
theorem sim_plainBody {cfg a b x} : Sim p pre (plainBody cfg a b x) := by unfold plainBody; sim [sim_plainContent, sim_plainAfter]
theorem sim_scanPlainScalar {cfg} : Sim p pre (scanPlainScalar cfg) := by
  unfold scanPlainScalar; sim [sim_plainBody, sim_unrollNonBlockIndents]

theorem sim_hexEscape {a b} : Sim p pre (hexEscape a b) := by unfold hexEscape; sim []
theorem sim_resolveEscape {a} : Sim p pre (resolveEscape a) := by unfold resolveEscape; sim [sim_hexEscape]
theorem sim_flowChars {a b x} : Sim p pre (flowCharsBody a b x) := by unfold flowCharsBody; sim [sim_resolveEscape]
theorem sim_flowBlank {x} : Sim p pre (flowBlankBody x) := by unfold flowBlankBody; sim [sim_readBreak]
theorem sim_flowBody {cfg a b x} : Sim p pre (flowBody cfg a b x) := by unfold flowBody; sim [sim_flowChars, sim_flowBlank]
theorem sim_scanFlowScalar {cfg a} : Sim p pre (scanFlowScalar cfg a) := by unfold scanFlowScalar; sim [sim_flowBody]

theorem sim_blockChomp : Sim p pre blockChomp := by unfold blockChomp; sim []
theorem sim_blockIncrement {m} : Sim p pre (blockIncrement m) := by unfold blockIncrement; sim []
theorem sim_blockHeader {m} : Sim p pre (blockHeader m) := by unfold blockHeader; sim [sim_blockChomp, sim_blockIncrement]
theorem sim_spaces {x} : Sim p pre (spacesBody x) := by unfold spacesBody; sim []
theorem sim_firstLine {cfg x} : Sim p pre (firstLineBody cfg x) := by unfold firstLineBody; sim [sim_spaces, sim_readBreak]
theorem sim_skipFirstLine {cfg x} : Sim p pre (skipFirstLineIndent cfg x) := by unfold skipFirstLineIndent; sim [sim_firstLine]
theorem sim_indentSpaces {i x} : Sim p pre (indentSpacesBody i x) := by unfold indentSpacesBody; sim []
theorem sim_deepIndent {cfg i x} : Sim p pre (deepIndentBody cfg i x) := by unfold deepIndentBody; sim [sim_indentSpaces]
theorem sim_blockIndentSpaces {cfg i} : Sim p pre (blockIndentSpaces cfg i) := by unfold blockIndentSpaces; sim [sim_indentSpaces, sim_deepIndent]
theorem sim_blockIndent {cfg i x} : Sim p pre (blockIndentBody cfg i x) := by unfold blockIndentBody; sim [sim_blockIndentSpaces, sim_readBreak]
theorem sim_skipBlockIndent {cfg i x} : Sim p pre (skipBlockIndent cfg i x) := by unfold skipBlockIndent; sim [sim_blockIndent]
theorem sim_content {x} : Sim p pre (contentBody x) := by unfold contentBody; sim []
theorem sim_contentLine {cfg x} : Sim p pre (contentLine cfg x) := by unfold contentLine; sim [sim_content]
theorem sim_blockBody {cfg l i x} : Sim p pre (blockBody cfg l i x) := by
  unfold blockBody; sim [sim_contentLine, sim_readBreak, sim_skipBlockIndent]
theorem sim_blockContent {cfg l c i x} : Sim p pre (blockContent cfg l c i x) := by unfold blockContent; sim [sim_blockBody]
theorem sim_blockFindIndent {cfg i} : Sim p pre (blockFindIndent cfg i) := by
  unfold blockFindIndent; sim [sim_skipFirstLine, sim_skipBlockIndent]
theorem sim_blockHeaderBreak : Sim p pre blockHeaderBreak := by unfold blockHeaderBreak; sim [sim_readBreak]
theorem sim_scanBlockScalar {cfg l} : Sim p pre (scanBlockScalar cfg l) := by
  unfold scanBlockScalar
  sim [sim_blockHeader, sim_blockHeaderBreak, sim_blockFindIndent, sim_blockContent, sim_unrollNonBlockIndents]

theorem sim_anchorBody {x} : Sim p pre (anchorBody x) := by unfold anchorBody; sim []
theorem sim_scanAnchor {cfg a} : Sim p pre (scanAnchor cfg a) := by unfold scanAnchor; sim [sim_anchorBody]
theorem sim_uriStep {a b} : Sim p pre (uriStep a b) := by unfold uriStep; sim []
theorem sim_uriBody {m x} : Sim p pre (uriBody m x) := by unfold uriBody; sim [sim_uriStep]
theorem sim_uriEscapes {cfg m} : Sim p pre (scanUriEscapes cfg m) := by unfold scanUriEscapes; sim [sim_uriBody]
theorem sim_uriScans {cfg x m} : Sim p pre (uriScansOrNonBlank cfg x m) := by unfold uriScansOrNonBlank; sim [sim_uriEscapes]
theorem sim_uriChars {cfg m x} : Sim p pre (uriCharsBody cfg m x) := by unfold uriCharsBody; sim [sim_uriScans]
theorem sim_verbatim {cfg m} : Sim p pre (scanVerbatimTag cfg m) := by unfold scanVerbatimTag; sim [sim_uriChars]
theorem sim_tagHandle {a m} : Sim p pre (scanTagHandle a m) := by unfold scanTagHandle; sim []
theorem sim_suffix {cfg m x} : Sim p pre (suffixBody cfg m x) := by unfold suffixBody; sim [sim_uriEscapes]
theorem sim_tagSuffix {cfg h m} : Sim p pre (scanTagSuffix cfg h m) := by unfold scanTagSuffix; sim [sim_suffix]
theorem sim_tagParts {cfg m} : Sim p pre (scanTagParts cfg m) := by unfold scanTagParts; sim [sim_verbatim, sim_tagHandle, sim_tagSuffix]
theorem sim_scanTag {cfg} : Sim p pre (scanTag cfg) := by unfold scanTag; sim [sim_tagParts]
theorem sim_directiveName : Sim p pre scanDirectiveName := by unfold scanDirectiveName; sim []
theorem sim_version {cfg m x} : Sim p pre (versionBody cfg m x) := by unfold versionBody; sim []
theorem sim_versionNumber {cfg m} : Sim p pre (scanVersionNumber cfg m) := by unfold scanVersionNumber; sim [sim_version]
theorem sim_versionDirective {cfg m} : Sim p pre (scanVersionDirective cfg m) := by unfold scanVersionDirective; sim [sim_versionNumber]
theorem sim_prefixStart {cfg m} : Sim p pre (scanPrefixStart cfg m) := by unfold scanPrefixStart; sim [sim_uriScans]
theorem sim_tagPrefix {cfg m} : Sim p pre (scanTagPrefix cfg m) := by unfold scanTagPrefix; sim [sim_prefixStart, sim_uriChars]
theorem sim_tagDirective {cfg m} : Sim p pre (scanTagDirective cfg m) := by unfold scanTagDirective; sim [sim_tagHandle, sim_tagPrefix]
theorem sim_otherDirective {m} : Sim p pre (scanOtherDirective m) := by unfold scanOtherDirective; sim []
theorem sim_directive {cfg} : Sim p pre (scanDirective cfg) := by
  unfold scanDirective; sim [sim_directiveName, sim_versionDirective, sim_tagDirective, sim_otherDirective]

theorem sim_pushTok {t} : Sim p pre (pushTok t) := by unfold pushTok; sim []

theorem sim_fetchStreamEnd : Sim p pre fetchStreamEnd := by
  unfold fetchStreamEnd
  refine sim_bind (sim_upd_rfl (fun e => ?_) fun e => ?_) fun _ => ?_
  · rw [view_ite]; rfl
  · split <;> exact ⟨rfl, rfl, rfl, rfl⟩
  refine sim_bind sim_getMark fun _ => sim_bind (sim_gets fun _ => rfl) fun _ => sim_bind sim_failIf fun _ => sim_bind ?_ fun _ => ?_
  · refine sim_upd fun e ho => ⟨rfl, ho.zero, ho.len, ho.flag, ho.taken, fun k hk hp => ?_⟩
    simp only [List.mem_map] at hk
    obtain ⟨k0, -, rfl⟩ := hk
    simp at hp
  · sim []

theorem sim_docIndicator {tt} : Sim p pre (fetchDocumentIndicator tt) := by unfold fetchDocumentIndicator; sim []

theorem sim_noteFlowStart {tt} : Sim p pre (noteFlowStart tt) := by unfold noteFlowStart; sim []
theorem sim_fetchFlowStart {tt} : Sim p pre (fetchFlowStart tt) := by
  unfold fetchFlowStart; sim [sim_rollOneColIndent, sim_increaseFlowLevel, sim_noteFlowStart]

theorem sim_endImplicit {m} : Sim p pre (endImplicitMapping m) := by
  refine sim_upd fun e ho => ?_
  have hl := ho.len
  simp only [view]
  split
  · refine ⟨by simp [List.drop_append_of_le_length ho.len], ho.zero, by simp; omega, ho.flag, (List.take_append_of_le_length ho.len).trans ho.taken, ho.keys⟩
  · exact ⟨rfl, ho⟩

theorem sim_fetchFlowEnd {tt} : Sim p pre (fetchFlowEnd tt) := by
  unfold fetchFlowEnd
  refine sim_bind sim_removeSimpleKey fun _ => sim_bind sim_decreaseFlowLevel fun _ => sim_bind sim_setAllowed fun _ =>
    sim_bind sim_getMark fun _ => sim_bind (sim_when (sim_bind sim_endImplicit fun _ => sim_upd_rfl (fun _ => rfl) fun _ => ⟨rfl, rfl, rfl, rfl⟩)) fun _ =>
    sim_bind sim_skipNonBlank fun _ => sim_bind sim_skipWsToEol fun _ => sim_bind (sim_upd_rfl (fun e => ?_) fun e => ?_) fun _ => ?_
  · rw [view_ite]; rfl
  · split <;> exact ⟨rfl, rfl, rfl, rfl⟩
  · sim []

theorem sim_fetchPlain {cfg} : Sim p pre (fetchPlainScalar cfg) := by unfold fetchPlainScalar; sim [sim_scanPlainScalar, sim_pushTok]
theorem sim_fetchFlowEntry : Sim p pre fetchFlowEntry := by unfold fetchFlowEntry; sim [sim_endImplicit]

theorem anchored_view {e : SSt} (h : anchoredEntry e = false) : anchoredEntry (view p e) = false := by
  unfold anchoredEntry at h ⊢
  rw [show (view p e).tokens = e.tokens.drop p from rfl, List.getLast?_drop]
  by_cases hl : e.tokens.length ≤ p
  · rw [if_pos hl]
  · rw [if_neg hl]; exact h

theorem sim_fetchBlockEntry : Sim p pre fetchBlockEntry := by
  unfold fetchBlockEntry
  refine sim_bind sim_getMark fun m => sim_bind (sim_gets fun _ => rfl) fun _ => sim_bind sim_failIf fun _ =>
    sim_bind (sim_gets fun _ => rfl) fun _ => sim_bind sim_failIf fun _ => ?_
  intro e ho
  rw [gets_bind, gets_bind]
  cases hx : anchoredEntry e with
  | true =>
    refine ⟨fun a e' h => ?_, fun a v h => .inr ⟨⟨m, rfl⟩, hx⟩⟩
    simp [failIf, fail, Bind.bind] at h
  | false =>
    rw [failIf_false, pure_bind_run]
    rw [anchored_view hx, failIf_false, pure_bind_run]
    refine (?_ : Sim p pre _) e ho
    sim [sim_rollIndent_none, sim_rollOneColIndent]

theorem sim_fetchKeyStart {m} : Sim p pre (fetchKeyStart m) := by unfold fetchKeyStart; sim [sim_rollIndent_none]
theorem sim_fetchKey {cfg} : Sim p pre (fetchKey cfg) := by unfold fetchKey; sim [sim_fetchKeyStart, sim_skipYamlWhitespace]
theorem sim_skipColon : Sim p pre skipColon := by unfold skipColon; sim []

theorem sim_afterSimple {sk st im} (h : p ≤ sk.tokenNumber) : Sim p pre (valueAfterSimpleKey sk st im) := by
  unfold valueAfterSimpleKey
  refine sim_bind (sim_insertToken h) fun _ => sim_bind (sim_when (sim_bind sim_failIf fun _ => sim_insertToken h)) fun _ =>
    sim_bind (sim_rollIndent (by simpa using h)) fun _ => sim_bind sim_rollOneColIndent fun _ => sim_upd fun e ho => ⟨rfl, ho.zero, ho.len, ho.flag, ho.taken, ?_⟩
  intro k hk hp
  dsimp only at hk
  split at hk
  · rename_i k0 ks hks
    simp only [List.mem_cons] at hk
    rcases hk with rfl | hk
    · simp at hp
    · exact ho.keys k (by rw [hks]; exact List.mem_cons_of_mem _ hk) hp
  · simp at hk

theorem sim_afterComplex {st im} : Sim p pre (valueAfterComplexKey st im) := by
  unfold valueAfterComplexKey; sim [sim_rollIndent_none, sim_rollOneColIndent]

theorem sim_fetchValue : Sim p pre fetchValue := by
  intro e ho
  unfold fetchValue
  rw [gets_bind, gets_bind]
  rw [show (view p e).simpleKeys = e.simpleKeys from rfl]
  cases hk : e.simpleKeys with
  | nil => exact sim_panic e ho
  | cons sk ks =>
    dsimp only
    have hsk := ho.keys sk (by rw [hk]; simp)
    have hv : ∀ st im, Sim p pre (valueAfterKey sk st im) := by
      intro st im
      unfold valueAfterKey
      exact sim_ite (fun hp => sim_afterSimple (hsk hp)) fun _ => sim_afterComplex
    refine (?_ : Sim p pre _) e ho
    sim [sim_skipColon, hv _ _]

theorem sim_fetchFlowValue : Sim p pre fetchFlowValue := by unfold fetchFlowValue; sim [sim_fetchValue]
theorem sim_fetchAnchor {cfg a} : Sim p pre (fetchAnchor cfg a) := by unfold fetchAnchor; sim [sim_scanAnchor, sim_pushTok]
theorem sim_fetchTag {cfg} : Sim p pre (fetchTag cfg) := by unfold fetchTag; sim [sim_scanTag, sim_pushTok]
theorem sim_fetchBlockScalar {cfg l} : Sim p pre (fetchBlockScalar cfg l) := by unfold fetchBlockScalar; sim [sim_scanBlockScalar]
theorem sim_fetchFlowScalar {cfg l} : Sim p pre (fetchFlowScalar cfg l) := by
  unfold fetchFlowScalar; sim [sim_scanFlowScalar, sim_skipToNextToken, sim_pushTok]
theorem sim_fetchDirective {cfg} : Sim p pre (fetchDirective cfg) := by unfold fetchDirective; sim [sim_directive, sim_pushTok]
theorem sim_finishDocument : Sim p pre finishDocument := by unfold finishDocument; sim [sim_docIndicator]
theorem sim_unexpectedChar : Sim p pre unexpectedChar := by unfold unexpectedChar; sim []

theorem sim_fetchMain {cfg} : Sim p pre (fetchMain cfg) := by
  unfold fetchMain
  sim [sim_fetchFlowStart, sim_fetchFlowEnd, sim_fetchFlowEntry, sim_fetchBlockEntry, sim_fetchKey, sim_fetchValue, sim_fetchFlowValue,
    sim_fetchAnchor, sim_fetchTag, sim_fetchBlockScalar, sim_fetchFlowScalar, sim_fetchPlain, sim_unexpectedChar]

theorem sim_fetchAtToken {cfg} : Sim p pre (fetchAtToken cfg) := by
  unfold fetchAtToken; sim [sim_fetchDirective, sim_docIndicator, sim_finishDocument, sim_fetchMain]

theorem sim_fetchStreamStart : Sim p pre fetchStreamStart := by
  refine sim_upd fun e ho => ⟨?_, ho.zero, ?_, by have := ho.flag; simp [flags] at this ⊢; simp [this], (List.take_append_of_le_length ho.len).trans ho.taken, fun k hk hp => ?_⟩
  · simp [view, List.drop_append_of_le_length ho.len]
  · have := ho.len; simp; omega
  · simp only [List.mem_cons] at hk
    rcases hk with rfl | hk
    · simp [SimpleKey.new] at hp
    · exact ho.keys k hk hp

/-- fetching does not depend on how many tokens were taken -/
theorem sim_fetchNextToken {cfg} : Sim p pre (fetchNextToken cfg) := by
  unfold fetchNextToken
  sim [sim_skipToNextToken, sim_fetchStreamEnd, sim_fetchAtToken, sim_fetchStreamStart]

end Verif.Scanner
