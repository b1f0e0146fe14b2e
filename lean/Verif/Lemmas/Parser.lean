import Verif.Model.Parser
import Verif.Lemmas.EventGrammar
/-!
# Weakest preconditions for the parser monad, and the invariants of the parser
-/
namespace Verif.Parser
open Verif Verif.Grammar

/-- Running `m` from `s` gives a value and a state satisfying `Q`, or an error and a state satisfying `E`; it panics or
hangs only if the scanner does. What the scanner does in the end (`tail`) is unchanged. -/
def wp {α} (m : PM α) (Q : α → PSt → Prop) (E : PSt → Prop) (s : PSt) : Prop :=
  (m s).2.tail = s.tail ∧
  match m s with
  | (.ok a, s') => Q a s'
  | (.err _, s') => E s'
  | (.panic, _) => s.tail = .panic
  | (.hang, _) => s.tail = .hang

/-- the tokens not yet consumed -/
def pend (s : PSt) : List Token := s.token.toList ++ s.toks

theorem wp_pure {α} {a : α} {Q E s} (h : Q a s) : wp (pure a) Q E s := ⟨rfl, h⟩

theorem wp_bind {α β} {m : PM α} {f : α → PM β} {Q E s} (h : wp m (fun a s' => wp (f a) Q E s') E s) :
    wp (m >>= f) Q E s := by
  simp only [wp, Bind.bind] at *
  cases hm : m s with
  | mk r s' =>
    cases r with
    | ok a =>
      simp only [hm] at h ⊢
      obtain ⟨h1, h2, h3⟩ := h
      refine ⟨by rw [h2, h1], ?_⟩
      cases hf : f a s' with
      | mk r2 s2 => cases r2 <;> simp only [hf, h1] at h3 ⊢ <;> exact h3
    | err e => simp only [hm] at h ⊢; exact h
    | panic => simp only [hm] at h ⊢; exact h
    | hang => simp only [hm] at h ⊢; exact h

theorem wp_throwAt {α} {sp msg} {Q : α → PSt → Prop} {E s} (h : E s) : wp (throwAt sp msg) Q E s := ⟨rfl, h⟩

theorem wp_gets {α} {f : PSt → α} {Q E s} (h : Q (f s) s) : wp (gets f) Q E s := ⟨rfl, h⟩

theorem wp_modify {f} {Q : Unit → PSt → Prop} {E s} (ht : (f s).tail = s.tail) (h : Q () (f s)) : wp (modify f) Q E s :=
  ⟨ht, h⟩

theorem wp_skip {Q : Unit → PSt → Prop} {E s} (h : Q () { s with token := none }) : wp skip Q E s := ⟨rfl, h⟩

theorem wp_setState {st} {Q : Unit → PSt → Prop} {E s} (h : Q () { s with state := st }) : wp (setState st) Q E s :=
  ⟨rfl, h⟩

theorem wp_pushState {st} {Q : Unit → PSt → Prop} {E s} (h : Q () { s with states := st :: s.states }) :
    wp (pushState st) Q E s := ⟨rfl, h⟩

theorem wp_popState {Q : Unit → PSt → Prop} {E s} (hne : s.states ≠ [])
    (h : ∀ st sts, s.states = st :: sts → Q () { s with state := st, states := sts }) : wp popState Q E s := by
  simp only [wp, popState]
  cases hs : s.states with
  | nil => exact absurd hs hne
  | cons st sts => exact ⟨rfl, h st sts hs⟩

theorem wp_fetchToken {Q : Token → PSt → Prop} {E s t} (ht : s.token = some t) (h : Q t { s with token := none }) :
    wp fetchToken Q E s := by
  simp only [wp, fetchToken, ht]; exact ⟨trivial, h⟩

theorem wp_peekToken {Q : Token → PSt → Prop} {E s}
    (h : ∀ t r a b, pend s = t :: r → Q t { s with token := some t, toks := r, started := a, ended := b })
    (he : E s) : wp peekToken Q E s := by
  simp only [wp, peekToken]
  cases ht : s.token with
  | some t =>
    simp only
    have := h t s.toks s.started s.ended (by simp [pend, ht])
    simpa [← ht] using this
  | none =>
    simp only [scanNextToken]
    cases hk : s.toks with
    | cons t ts =>
      simp only
      exact ⟨trivial, h t ts true (s.ended || t.tt == .streamEnd) (by simp [pend, ht, hk])⟩
    | nil =>
      simp only
      cases htl : s.tail <;> simp [htl, he]

theorem wp_registerAnchor {n} {Q : Nat → PSt → Prop} {E s}
    (h : Q s.anchorIdCount
      { s with anchorIdCount := s.anchorIdCount + 1, anchors := mapInsert s.anchors n s.anchorIdCount }) :
    wp (registerAnchor n) Q E s := ⟨rfl, h⟩

theorem resolveTag_cases (tags sp h sf) :
    (∃ t, resolveTag tags sp h sf = .ok t) ∨ (∃ e, resolveTag tags sp h sf = .err e) := by
  unfold resolveTag
  split
  · simp
  · split
    · split <;> simp
    · split
      · simp
      · split <;> simp

theorem wp_resolveTagM {sp h sf} {Q : Tag → PSt → Prop} {E s}
    (hq : ∀ t, resolveTag s.tags sp h sf = .ok t → Q t s) (he : E s) : wp (resolveTagM sp h sf) Q E s := by
  simp only [wp, resolveTagM]
  rcases resolveTag_cases s.tags sp h sf with ⟨t, ht⟩ | ⟨e, ht⟩
  · rw [ht]; exact ⟨trivial, hq t ht⟩
  · rw [ht]; exact ⟨trivial, he⟩

theorem wp_ite {α} {c : Prop} [Decidable c] {m n : PM α} {Q E s} (h1 : c → wp m Q E s) (h2 : ¬c → wp n Q E s) :
    wp (if c then m else n) Q E s := by
  split
  · exact h1 ‹_›
  · exact h2 ‹_›

theorem wp_mono {α} {m : PM α} {Q Q' : α → PSt → Prop} {E E' s} (h : wp m Q E s)
    (hq : ∀ a s', Q a s' → Q' a s') (he : ∀ s', E s' → E' s') : wp m Q' E' s := by
  simp only [wp] at *
  refine ⟨h.1, ?_⟩
  replace h := h.2
  cases hm : m s with
  | mk r s' => cases r <;> simp only [hm] at h ⊢ <;> first | exact hq _ _ h | exact he _ h | exact h

attribute [irreducible] wp

@[simp] theorem pend_mk (a b c d e f g t h i j k l m) :
    pend ⟨a, b, c, d, e, f, g, some t, h, i, j, k, l, m⟩ = t :: a := rfl
@[simp] theorem pend_mk' (a b c d e f g h i j k l m) :
    pend ⟨a, b, c, d, e, f, g, none, h, i, j, k, l, m⟩ = a := rfl

/-! ## The state stack -/

/-- states that occur outside a node -/
def docLevel : PState → Bool
  | .streamStart | .implicitDocumentStart | .documentStart | .documentEnd | .endState => true
  | _ => false

/-- a stack of node-level states on top of `documentEnd` -/
def GoodStack : List PState → Prop
  | [] => False
  | [x] => x = .documentEnd
  | x :: xs => docLevel x = false ∧ GoodStack xs

/-- the invariant that makes `pop_state` safe; it holds even after errors -/
def Good (s : PSt) : Prop :=
  if docLevel s.state then s.states = [] else GoodStack s.states

theorem GoodStack.push {x xs} (hx : docLevel x = false) (h : GoodStack xs) : GoodStack (x :: xs) := by
  cases xs with
  | nil => exact h.elim
  | cons y ys => exact ⟨hx, h⟩

theorem GoodStack.ne_nil {xs} (h : GoodStack xs) : xs ≠ [] := by
  cases xs
  · exact h.elim
  · simp

theorem GoodStack.pop {s : PSt} {x xs} (h : GoodStack (x :: xs)) :
    Good { s with state := x, states := xs } := by
  cases xs with
  | nil => simp only [GoodStack] at h; subst h; simp [Good, docLevel]
  | cons y ys => simp only [GoodStack] at h; simp [Good, h]

end Verif.Parser
