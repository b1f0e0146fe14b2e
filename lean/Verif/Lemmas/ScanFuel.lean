import Verif.Spec.ScannerRuns
import Verif.Model.LoadText
/-!
# The number of iterations granted to the scanner's loops does not matter once it is enough
-/
namespace Verif.Scanner
open Verif Verif.CharUtils Verif.Source

/-- unless `m` runs out of iterations, `m'` does the same -/
def Grow {α} (m m' : SM α) : Prop := ∀ s, (m s).1 ≠ .hang → m' s = m s

/-- more iterations, otherwise the same -/
structure More (cfg cfg' : Cfg) : Prop where
  fuel : cfg.fuel ≤ cfg'.fuel
  debug : cfg'.debug = cfg.debug

theorem Grow.refl {α} (m : SM α) : Grow m m := fun _ _ => rfl

theorem Grow.bind {α β} {m m' : SM α} {f f' : α → SM β} (hm : Grow m m') (hf : ∀ a, Grow (f a) (f' a)) : Grow (m >>= f) (m' >>= f') := by
  intro s h
  simp only [Bind.bind] at h ⊢
  have h1 : (m s).1 ≠ .hang := by
    intro hx
    apply h
    rcases hr : m s with ⟨r, s1⟩
    rw [hr] at hx
    simp only at hx
    subst hx
    rfl
  rw [hm s h1]
  rcases hr : m s with ⟨r, s1⟩
  rw [hr] at h
  cases r with
  | ok a => exact hf a s1 h
  | err e => rfl
  | panic => rfl
  | hang => rfl

theorem Grow.loop {σ α} {b b' : σ → SM (Loop σ α)} (h : ∀ x, Grow (b x) (b' x)) : ∀ {n n'} {x}, n ≤ n' → Grow (loopM b n x) (loopM b' n' x) := by
  intro n
  induction n with
  | zero => intro n' x _ s hs; exact absurd rfl hs
  | succ n ih =>
    intro n' x hn
    obtain ⟨n', rfl⟩ : ∃ k, n' = k + 1 := ⟨n' - 1, by omega⟩
    rw [loopM, loopM]
    refine Grow.bind (h x) fun r => ?_
    cases r with
    | next y => exact ih (by omega)
    | done a => exact .refl _

theorem Grow.loopC {σ α cfg cfg'} (C : More cfg cfg') {b b' : σ → SM (Loop σ α)} {x} (h : ∀ x, Grow (b x) (b' x)) :
    Grow (loopM b cfg.fuel x) (loopM b' cfg'.fuel x) := .loop h C.fuel

theorem Grow.ite {α} {c : Prop} [Decidable c] {m m' n n' : SM α} (h1 : Grow m m') (h2 : Grow n n') : Grow (if c then m else n) (if c then m' else n') := by
  split
  · exact h1
  · exact h2

theorem Grow.when {c : Bool} {m m' : SM Unit} (h : Grow m m') : Grow (when c m) (when c m') := by
  unfold Scanner.when
  exact .ite h (.refl _)

syntax "grow" "[" term,* "]" : tactic
macro_rules
  | `(tactic| grow [$ls,*]) => do
    let alts ← ls.getElems.mapM fun l => `(tacticSeq| refine $l)
    `(tactic| repeat' first
      | with_reducible exact Grow.refl _
      | with_reducible refine Grow.loopC (by assumption) fun _ => ?_
      | assumption
      $[| $alts]*
      | with_reducible refine Grow.bind ?_ fun _ => ?_
      | with_reducible refine Grow.ite ?_ ?_
      | with_reducible refine Grow.when ?_
      | (split <;> skip))

variable {cfg cfg' : Cfg} (C : More cfg cfg')
include C

theorem grow_skipToNextToken : Grow (skipToNextToken cfg) (skipToNextToken cfg') := .loop (fun _ => .refl _) C.fuel

theorem grow_skipYamlWhitespace : Grow (skipYamlWhitespace cfg) (skipYamlWhitespace cfg') := by
  unfold skipYamlWhitespace
  exact .bind (.loop (fun _ => .refl _) C.fuel) fun _ => .refl _

theorem grow_plainContent {p} : Grow (plainContent cfg p) (plainContent cfg' p) := by
  unfold plainContent
  grow []

theorem grow_plainAfter {i m p} : Grow (plainAfter cfg i m p) (plainAfter cfg' i m p) := by
  unfold plainAfter
  grow []

theorem grow_plainBody {i m p} : Grow (plainBody cfg i m p) (plainBody cfg' i m p) := by
  unfold plainBody
  grow [grow_plainContent C, grow_plainAfter C]

theorem grow_scanPlainScalar : Grow (scanPlainScalar cfg) (scanPlainScalar cfg') := by
  unfold scanPlainScalar
  grow [grow_plainBody C]

theorem grow_flowBody {a b c} : Grow (flowBody cfg a b c) (flowBody cfg' a b c) := by
  unfold flowBody
  grow []

theorem grow_scanFlowScalar {a} : Grow (scanFlowScalar cfg a) (scanFlowScalar cfg' a) := by
  unfold scanFlowScalar
  grow [grow_flowBody C]

theorem grow_firstLineBody {x} : Grow (firstLineBody cfg x) (firstLineBody cfg' x) := by
  unfold firstLineBody
  grow []

theorem grow_skipFirstLineIndent {x} : Grow (skipFirstLineIndent cfg x) (skipFirstLineIndent cfg' x) := by
  unfold skipFirstLineIndent
  grow [grow_firstLineBody C]

theorem grow_deepIndentBody {x y} : Grow (deepIndentBody cfg x y) (deepIndentBody cfg' x y) := by
  unfold deepIndentBody
  grow []

theorem grow_blockIndentSpaces {x} : Grow (blockIndentSpaces cfg x) (blockIndentSpaces cfg' x) := by
  unfold blockIndentSpaces
  grow [grow_deepIndentBody C]

theorem grow_blockIndentBody {x y} : Grow (blockIndentBody cfg x y) (blockIndentBody cfg' x y) := by
  unfold blockIndentBody
  grow [grow_blockIndentSpaces C]

theorem grow_skipBlockIndent {x y} : Grow (skipBlockIndent cfg x y) (skipBlockIndent cfg' x y) := by
  unfold skipBlockIndent
  grow [grow_blockIndentBody C]

theorem grow_contentLine {x} : Grow (contentLine cfg x) (contentLine cfg' x) := by
  unfold contentLine
  grow []

theorem grow_blockBody {x y z} : Grow (blockBody cfg x y z) (blockBody cfg' x y z) := by
  unfold blockBody
  grow [grow_contentLine C, grow_skipBlockIndent C]

theorem grow_blockContent {x y z w} : Grow (blockContent cfg x y z w) (blockContent cfg' x y z w) := by
  unfold blockContent
  grow [grow_blockBody C]

theorem grow_blockFindIndent {x} : Grow (blockFindIndent cfg x) (blockFindIndent cfg' x) := by
  unfold blockFindIndent
  grow [grow_skipFirstLineIndent C, grow_skipBlockIndent C]

theorem grow_scanBlockScalar {x} : Grow (scanBlockScalar cfg x) (scanBlockScalar cfg' x) := by
  unfold scanBlockScalar
  grow [grow_blockFindIndent C, grow_blockContent C]

theorem grow_scanAnchor {x} : Grow (scanAnchor cfg x) (scanAnchor cfg' x) := by
  unfold scanAnchor
  grow []

theorem grow_scanUriEscapes {x} : Grow (scanUriEscapes cfg x) (scanUriEscapes cfg' x) := by
  unfold scanUriEscapes
  grow []

theorem grow_uriScansOrNonBlank {x y} : Grow (uriScansOrNonBlank cfg x y) (uriScansOrNonBlank cfg' x y) := by
  unfold uriScansOrNonBlank
  grow [grow_scanUriEscapes C]

theorem grow_uriCharsBody {x y} : Grow (uriCharsBody cfg x y) (uriCharsBody cfg' x y) := by
  unfold uriCharsBody
  grow [grow_uriScansOrNonBlank C]

theorem grow_scanVerbatimTag {x} : Grow (scanVerbatimTag cfg x) (scanVerbatimTag cfg' x) := by
  unfold scanVerbatimTag
  grow [grow_uriCharsBody C]

theorem grow_suffixBody {x y} : Grow (suffixBody cfg x y) (suffixBody cfg' x y) := by
  unfold suffixBody
  grow [grow_uriScansOrNonBlank C, grow_scanUriEscapes C]

theorem grow_scanTagSuffix {x y} : Grow (scanTagSuffix cfg x y) (scanTagSuffix cfg' x y) := by
  unfold scanTagSuffix
  grow [grow_suffixBody C]

theorem grow_scanTagParts {x} : Grow (scanTagParts cfg x) (scanTagParts cfg' x) := by
  unfold scanTagParts
  grow [grow_scanVerbatimTag C, grow_scanTagSuffix C]

theorem grow_scanTag : Grow (scanTag cfg) (scanTag cfg') := by
  unfold scanTag
  grow [grow_scanTagParts C]

theorem grow_versionBody {x y} : Grow (versionBody cfg x y) (versionBody cfg' x y) := by
  unfold versionBody
  rw [C.debug]
  exact .refl _

theorem grow_scanVersionNumber {x} : Grow (scanVersionNumber cfg x) (scanVersionNumber cfg' x) := by
  unfold scanVersionNumber
  grow [grow_versionBody C]

theorem grow_scanVersionDirective {x} : Grow (scanVersionDirective cfg x) (scanVersionDirective cfg' x) := by
  unfold scanVersionDirective
  grow [grow_scanVersionNumber C]

theorem grow_scanPrefixStart {x} : Grow (scanPrefixStart cfg x) (scanPrefixStart cfg' x) := by
  unfold scanPrefixStart
  grow [grow_uriScansOrNonBlank C]

theorem grow_scanTagPrefix {x} : Grow (scanTagPrefix cfg x) (scanTagPrefix cfg' x) := by
  unfold scanTagPrefix
  grow [grow_scanPrefixStart C, grow_uriCharsBody C]

theorem grow_scanTagDirective {x} : Grow (scanTagDirective cfg x) (scanTagDirective cfg' x) := by
  unfold scanTagDirective
  grow [grow_scanTagPrefix C]

theorem grow_scanDirective : Grow (scanDirective cfg) (scanDirective cfg') := by
  unfold scanDirective
  grow [grow_scanVersionDirective C, grow_scanTagDirective C]

theorem grow_fetchPlainScalar : Grow (fetchPlainScalar cfg) (fetchPlainScalar cfg') := by
  unfold fetchPlainScalar
  grow [grow_scanPlainScalar C]

theorem grow_fetchKey : Grow (fetchKey cfg) (fetchKey cfg') := by
  unfold fetchKey
  grow [grow_skipYamlWhitespace C]

theorem grow_fetchAnchor {x} : Grow (fetchAnchor cfg x) (fetchAnchor cfg' x) := by
  unfold fetchAnchor
  grow [grow_scanAnchor C]

theorem grow_fetchTag : Grow (fetchTag cfg) (fetchTag cfg') := by
  unfold fetchTag
  grow [grow_scanTag C]

theorem grow_fetchBlockScalar {x} : Grow (fetchBlockScalar cfg x) (fetchBlockScalar cfg' x) := by
  unfold fetchBlockScalar
  grow [grow_scanBlockScalar C]

theorem grow_fetchFlowScalar {x} : Grow (fetchFlowScalar cfg x) (fetchFlowScalar cfg' x) := by
  unfold fetchFlowScalar
  grow [grow_scanFlowScalar C, grow_skipToNextToken C]

theorem grow_fetchDirective : Grow (fetchDirective cfg) (fetchDirective cfg') := by
  unfold fetchDirective
  grow [grow_scanDirective C]

theorem grow_fetchMain : Grow (fetchMain cfg) (fetchMain cfg') := by
  unfold fetchMain
  grow [grow_fetchKey C, grow_fetchAnchor C, grow_fetchTag C, grow_fetchBlockScalar C, grow_fetchFlowScalar C, grow_fetchPlainScalar C]

theorem grow_fetchAtToken : Grow (fetchAtToken cfg) (fetchAtToken cfg') := by
  unfold fetchAtToken
  grow [grow_fetchDirective C, grow_fetchMain C]

theorem grow_fetchNextToken : Grow (fetchNextToken cfg) (fetchNextToken cfg') := by
  unfold fetchNextToken
  grow [grow_skipToNextToken C, grow_fetchAtToken C]

theorem grow_fetchMoreBody {x} : Grow (fetchMoreBody cfg x) (fetchMoreBody cfg' x) := by
  unfold fetchMoreBody
  grow [grow_fetchNextToken C]

theorem grow_fetchMoreTokens : Grow (fetchMoreTokens cfg) (fetchMoreTokens cfg') := by
  unfold fetchMoreTokens
  grow [grow_fetchMoreBody C]

theorem grow_nextToken : Grow (nextToken cfg) (nextToken cfg') := by
  unfold nextToken
  grow [grow_fetchMoreTokens C]

theorem grow_next : Grow (next cfg) (next cfg') := by
  intro s h
  unfold next at h ⊢
  by_cases hc : (s.error.isSome || s.streamEndReached) = true
  · rw [if_pos hc, if_pos hc]
  · rw [if_neg hc] at h
    rw [if_neg hc, if_neg hc]
    have : (nextToken cfg s).1 ≠ .hang := by
      intro hx
      apply h
      rcases hr : nextToken cfg s with ⟨r, s1⟩
      rw [hr] at hx
      simp only at hx
      subst hx
      rfl
    rw [grow_nextToken C s this]

theorem scan_more : ∀ {k s}, (Spec.scan cfg k s).2 ≠ .hung → Spec.scan cfg' k s = Spec.scan cfg k s := by
  intro k
  induction k with
  | zero => intro s _; rfl
  | succ k ih =>
    intro s h
    have hn : (next cfg s).1 ≠ .hang := by
      intro hx
      apply h
      rcases hr : next cfg s with ⟨r, s1⟩
      rw [hr] at hx
      simp only at hx
      subst hx
      simp only [Spec.scan, hr]
    rw [Spec.scan, Spec.scan, grow_next C s hn]
    rcases hr : next cfg s with ⟨r, s1⟩
    cases r with
    | ok o =>
      cases o with
      | none => rfl
      | some t =>
        simp only
        have : (Spec.scan cfg k s1).2 ≠ .hung := by simpa only [Spec.scan, hr] using h
        rw [ih this]
    | _ => rfl

/-- the scan stopped by itself -/
def Stopped (r : Spec.ScanStop) : Prop := r = .ended ∨ ∃ e, r = .failed e

theorem latched {s : SSt} (h : (s.error.isSome || s.streamEndReached) = true) : ∀ k, Spec.afterNext cfg k s = s := by
  intro k
  induction k with
  | zero => rfl
  | succ k ih =>
    have : next cfg s = (.ok none, s) := by unfold next; rw [if_pos h]
    rw [Spec.afterNext, this]
    exact ih

theorem next_none {s s' : SSt} (h : next cfg s = (.ok none, s')) : (s'.error.isSome || s'.streamEndReached) = true := by
  unfold next at h
  by_cases hc : (s.error.isSome || s.streamEndReached) = true
  · rw [if_pos hc] at h
    simp only [Prod.mk.injEq, true_and] at h
    rw [← h]; exact hc
  · rw [if_neg hc] at h
    rcases hr : nextToken cfg s with ⟨r, s1⟩
    rw [hr] at h
    cases r <;> simp at h
    rw [← h]
    rfl

theorem scan_longer : ∀ {k k' s}, k ≤ k' → Stopped (Spec.scan cfg k s).2 → Spec.scan cfg' k' s = Spec.scan cfg k s ∧ Spec.afterNext cfg' k' s = Spec.afterNext cfg k s := by
  intro k
  induction k with
  | zero => rintro k' s - (h | ⟨e, h⟩) <;> simp [Spec.scan] at h
  | succ k ih =>
    intro k' s hk h
    obtain ⟨k', rfl⟩ : ∃ j, k' = j + 1 := ⟨k' - 1, by omega⟩
    have hn : (next cfg s).1 ≠ .hang := by
      intro hx
      rcases hr : next cfg s with ⟨r, s1⟩
      rw [hr] at hx
      simp only at hx
      subst hx
      simp only [Spec.scan, hr] at h
      rcases h with h | ⟨e, h⟩ <;> simp at h
    rw [Spec.scan, Spec.scan, Spec.afterNext, Spec.afterNext, grow_next C s hn]
    rcases hr : next cfg s with ⟨r, s1⟩
    cases r with
    | ok o =>
      cases o with
      | none =>
        refine ⟨rfl, ?_⟩
        simp only
        have hl := next_none C hr
        have C' : More cfg' cfg' := ⟨Nat.le_refl _, rfl⟩
        rw [latched C hl, latched C' hl]
      | some t =>
        simp only
        have : Stopped (Spec.scan cfg k s1).2 := by simpa only [Spec.scan, hr] using h
        obtain ⟨h1, h2⟩ := ih (show k ≤ k' by omega) this
        rw [h1, h2]
        exact ⟨rfl, rfl⟩
    | err e =>
      exfalso
      unfold next at hr
      split at hr
      · simp at hr
      · rcases hr' : nextToken cfg s with ⟨r, s1⟩
        rw [hr'] at hr
        cases r <;> simp at hr
    | panic => simp only [Spec.scan, hr] at h; rcases h with h | ⟨e, h⟩ <;> simp at h
    | hang => simp only [Spec.scan, hr] at h; rcases h with h | ⟨e, h⟩ <;> simp at h

theorem parserOn_more {k k' i} (hk : k ≤ k') (h : Stopped (Spec.scanInput cfg i k).2) : Loader.parserOn cfg' k' i = Loader.parserOn cfg k i := by
  obtain ⟨h1, h2⟩ := scan_longer C hk h
  unfold Loader.parserOn Spec.scanInput
  rw [h1, h2]

end Verif.Scanner
