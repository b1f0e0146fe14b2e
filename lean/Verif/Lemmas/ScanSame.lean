import Verif.Model.Scanner
import Verif.Lemmas.ScanEval
import Verif.Spec.LineEnds
/-!
# Two runs of the scanner side by side

The texts still to be read are the same, or the second has CRLF where the first has LF; marks differ by a number of lines and in the offset.
-/
namespace Verif.Scanner
open Verif Verif.CharUtils Verif.Source Verif.Spec

/-- how the rest of the second text arises from that of the first -/
def conv (b : Bool) (t : List Byte) : List Byte := if b then crlf t else t

theorem conv_nil {b} : conv b [] = [] := by cases b <;> rfl

theorem conv_eq_nil {b t} : conv b t = [] ↔ t = [] := by
  cases b
  · rfl
  · cases t with
    | nil => simp [conv, crlf]
    | cons c r => simp only [conv, if_true, crlf]; split <;> simp

theorem conv_cons_ne {b c t} (h : b = true → c ≠ 10) : conv b (c :: t) = c :: conv b t := by
  cases b
  · rfl
  · simp [conv, crlf, h rfl]

theorem conv_cons_lf {t} : conv true (10 :: t) = 13 :: 10 :: conv true t := by simp [conv, crlf]

/-- the first `n` bytes are not line feeds that become two bytes -/
def Flat (b : Bool) (t : List Byte) (n : Nat) : Prop := b = true → ∀ j < n, t[j]? ≠ some 10

theorem conv_drop {b t n} (h : Flat b t n) : (conv b t).drop n = conv b (t.drop n) := by
  induction n generalizing t with
  | zero => simp
  | succ n ih =>
    cases t with
    | nil => simp [conv_nil]
    | cons c r =>
      rw [conv_cons_ne (fun hb => by have := h hb 0 (by omega); simpa using this)]
      simp only [List.drop_succ_cons]
      exact ih (fun hb j hj => by have := h hb (j + 1) (by omega); simpa using this)

theorem conv_get {b t n} (h : Flat b t n) : (conv b t)[n]? = t[n]? ∨ (b = true ∧ t[n]? = some 10 ∧ (conv b t)[n]? = some 13) := by
  have h0 : ∀ t, (conv b t)[0]? = t[0]? ∨ (b = true ∧ t[0]? = some 10 ∧ (conv b t)[0]? = some 13) := by
    intro t
    cases t with
    | nil => simp [conv_nil]
    | cons c r =>
      by_cases hc : b = true ∧ c = 10
      · obtain ⟨rfl, rfl⟩ := hc
        rw [conv_cons_lf]
        simp
      · rw [conv_cons_ne (fun hb hx => hc ⟨hb, hx⟩)]
        simp
  have := h0 (t.drop n)
  rw [← conv_drop h] at this
  simpa using this

theorem conv_length_drop {b t n} (h : Flat b t n) : (conv b t).length - n = (conv b (t.drop n)).length := by
  rw [← conv_drop h]; simp

theorem conv_length {b t} : t.length ≤ (conv b t).length := by
  cases b
  · exact Nat.le_refl _
  · induction t with
    | nil => simp [conv, crlf]
    | cons c r ih =>
      by_cases hc : c = 10
      · subst hc; rw [conv_cons_lf]; simp; omega
      · rw [conv_cons_ne (fun _ => hc)]; simp; exact ih

theorem conv_flat {b t n} (h : Flat b t n) (hn : t.length ≤ n) : conv b t = t := by
  induction t generalizing n with
  | nil => exact conv_nil
  | cons c r ih =>
    rw [conv_cons_ne (fun hb => by have := h hb 0 (by simp at hn; omega); simpa using this)]
    rw [ih (n := n - 1) (fun hb j hj => by have := h hb (j + 1) (by omega); simpa using this) (by simp at hn; omega)]

/-- the marks agree but for the lines before -/
def MR (l : Nat) (m m' : Marker) : Prop := m'.col = m.col ∧ m'.line = m.line + l

/-- the same for tokens -/
def tokView (l : Nat) (t : Token) : TokenType × Nat × Nat × Nat × Nat :=
  (t.tt, t.span.start.col, t.span.start.line + l, t.span.stop.col, t.span.stop.line + l)

/-- the same for possible keys, with the distance to the current mark on the same line -/
structure KeyR (l : Nat) (m m' : Marker) (k k' : SimpleKey) : Prop where
  possible : k'.possible = k.possible
  required : k'.required = k.required
  number : k'.tokenNumber = k.tokenNumber
  mark : k.possible = true → MR l k.mark k'.mark
  before : k.possible = true → k.mark.line ≤ m.line
  dist : k.possible = true → k.mark.line = m.line → m'.pos + k.mark.pos = m.pos + k'.mark.pos

/-- related element by element -/
inductive Keys (R : SimpleKey → SimpleKey → Prop) : List SimpleKey → List SimpleKey → Prop
  | nil : Keys R [] []
  | cons {k k' ks ks'} : R k k' → Keys R ks ks' → Keys R (k :: ks) (k' :: ks')

theorem Keys.mono {R R' : SimpleKey → SimpleKey → Prop} {ks ks'} (h : ∀ k k', R k k' → R' k k') (hk : Keys R ks ks') : Keys R' ks ks' := by
  induction hk with
  | nil => exact .nil
  | cons h1 _ ih => exact .cons (h _ _ h1) ih

theorem Keys.map {R R' : SimpleKey → SimpleKey → Prop} {f f' ks ks'} (h : ∀ k k', R k k' → R' (f k) (f' k')) (hk : Keys R ks ks') : Keys R' (ks.map f) (ks'.map f') := by
  induction hk with
  | nil => exact .nil
  | cons h1 _ ih => exact .cons (h _ _ h1) ih

theorem Keys.any {R : SimpleKey → SimpleKey → Prop} {f f' : SimpleKey → Bool} {ks ks'} (h : ∀ k k', R k k' → f' k' = f k) (hk : Keys R ks ks') : ks'.any f' = ks.any f := by
  induction hk with
  | nil => rfl
  | cons h1 _ ih => simp [h _ _ h1, ih]

theorem Keys.tail {R : SimpleKey → SimpleKey → Prop} {ks ks'} (hk : Keys R ks ks') : Keys R ks.tail ks'.tail := by
  cases hk with
  | nil => exact .nil
  | cons _ h => exact h

/-- the two runs are at corresponding places -/
structure Rel (b : Bool) (l : Nat) (s s' : SSt) : Prop where
  rest : s'.src.rest = conv b s.src.rest
  nocr : b = true → 13 ∉ s.src.rest
  over : ∃ d, s.src.pos + s.src.rest.length = s.src.len + d ∧ s'.src.pos + s'.src.rest.length = s'.src.len + d ∧ (d > 0 → s.src.rest = [])
  mark : MR l s.mark s'.mark
  tokens : s'.tokens.map (tokView 0) = s.tokens.map (tokView l)
  keys : Keys (KeyR l s.mark s'.mark) s.simpleKeys s'.simpleKeys
  adj : s.adjacentValueAllowedAt ≤ s.mark.pos
  adj' : s'.adjacentValueAllowedAt ≤ s'.mark.pos
  adjs : s.flowLevel = 0 ∨ (s.adjacentValueAllowedAt = s.mark.pos ↔ s'.adjacentValueAllowedAt = s'.mark.pos)
  indents : s'.indents = s.indents
  implicit : s'.implicitFlowMappingStates = s.implicitFlowMappingStates
  reached : s'.streamEndReached = s.streamEndReached
  available : s'.tokensAvailable = s.tokensAvailable
  allowed : s'.simpleKeyAllowed = s.simpleKeyAllowed
  started : s'.streamStartProduced = s.streamStartProduced
  produced : s'.streamEndProduced = s.streamEndProduced
  ended : s.streamEndProduced = s.streamEndReached
  leading : s'.leadingWhitespace = s.leadingWhitespace
  flowMapping : s'.flowMappingStarted = s.flowMappingStarted
  parsed : s'.tokensParsed = s.tokensParsed
  level : s'.flowLevel = s.flowLevel
  indent : s'.indent = s.indent
  error : s.error = none ∧ s'.error = none

/-- the errors agree but for the place -/
def ErrR (l : Nat) (e e' : YErr) : Prop := (e = .unexpectedEof ∧ e' = .unexpectedEof) ∨ ∃ m m' msg, e = .scanner m msg ∧ e' = .scanner m' msg ∧ MR l m m'

/-- the outcomes agree, unless the first is a panic -/
def Out {α} (b : Bool) (l : Nat) (V : α → α → Prop) : Res α × SSt → Res α × SSt → Prop
  | (.panic, _), _ => True
  | (.ok a, t), (.ok a', t') => V a a' ∧ Rel b l t t'
  | (.err e, t), (.err e', t') => ErrR l e e' ∧ MR l t.mark t'.mark
  | (.hang, _), (.hang, _) => True
  | _, _ => False

variable {b : Bool} {l : Nat}

theorem Out.bind {α β} {V : α → α → Prop} {W : β → β → Prop} {s s' : SSt} {m m' : SM α} {f f' : α → SM β} (hm : Out b l V (m s) (m' s'))
    (hf : ∀ a a' t t', m s = (.ok a, t) → m' s' = (.ok a', t') → V a a' → Rel b l t t' → Out b l W (f a t) (f' a' t')) : Out b l W ((m >>= f) s) ((m' >>= f') s') := by
  simp only [Bind.bind]
  rcases h : m s with ⟨r, t⟩
  rcases h' : m' s' with ⟨r', t'⟩
  rw [h, h'] at hm
  cases r <;> cases r' <;> simp only [Out] at hm ⊢
  · exact hf _ _ _ _ h h' hm.1 hm.2
  · exact hm

theorem Out.loop {σ α} {V : α → α → Prop} {W : σ → σ → Prop} {body body' : σ → SM (Loop σ α)}
    (h : ∀ x x' s s', W x x' → Rel b l s s' → Out b l (fun r r' => match r, r' with
      | .next y, .next y' => W y y'
      | .done a, .done a' => V a a'
      | _, _ => False) (body x s) (body' x' s')) :
    ∀ n x x' s s', W x x' → Rel b l s s' → Out b l V (loopM body n x s) (loopM body' n x' s') := by
  intro n
  induction n with
  | zero => intros; simp [loopM, hang, Out]
  | succ n ih =>
    intro x x' s s' hx hs
    rw [loopM, loopM]
    refine Out.bind (h x x' s s' hx hs) ?_
    intro r r' t t' _ _ hr ht
    cases r <;> cases r' <;> simp only at hr
    · exact ih _ _ _ _ hr ht
    · exact ⟨hr, ht⟩

/-! ## Peeking -/

theorem getD_eq {a a' : Option Nat} : a' = a → a'.getD 0 = a.getD 0 := by rintro rfl; rfl

namespace Rel
variable {s s' : SSt} (h : Rel b l s s')
include h

theorem peek {n} (hf : Flat b s.src.rest n) :
    s'.src.peekz n = s.src.peekz n ∨ (b = true ∧ s.src.peekz n = 10 ∧ s'.src.peekz n = 13) := by
  unfold Src.peekz
  rw [h.rest]
  rcases conv_get hf with h1 | ⟨h1, h2, h3⟩
  · rw [h1]; exact .inl rfl
  · rw [h2, h3]; exact .inr ⟨h1, rfl, rfl⟩

theorem flat0 : Flat b s.src.rest 0 := fun _ j hj => absurd hj (by omega)

theorem flatS {n} (hf : Flat b s.src.rest n) (he : s'.src.peekz n = s.src.peekz n) : Flat b s.src.rest (n + 1) := by
  intro hb j hj hx
  by_cases hjn : j < n
  · exact hf hb j hjn hx
  · obtain rfl : j = n := by omega
    unfold Src.peekz at he
    rw [h.rest] at he
    rcases conv_get hf with h1 | ⟨-, h2, h3⟩
    · have hcr : (conv b s.src.rest)[j]? = some 13 := by
        rw [← List.drop_zero (l := conv b s.src.rest)]
        have := conv_drop hf
        have hd : s.src.rest.drop j = 10 :: s.src.rest.drop (j + 1) := by
          rw [List.drop_eq_getElem?_toList_append, hx]; rfl
        rw [hd] at this
        subst hb
        rw [conv_cons_lf] at this
        have h2 : ((conv true s.src.rest).drop j)[0]? = some 13 := by rw [this]; rfl
        simpa using h2
      rw [hcr, hx] at h1
      cases h1
    · rw [h2, h3] at he
      cases he

theorem flat1 (he : s'.src.peekz 0 = s.src.peekz 0) : Flat b s.src.rest 1 := h.flatS h.flat0 he

theorem peek0 : s'.src.peekz 0 = s.src.peekz 0 ∨ (b = true ∧ s.src.peekz 0 = 10 ∧ s'.src.peekz 0 = 13) := h.peek h.flat0

theorem peek1 (he : s'.src.peekz 0 = s.src.peekz 0) : s'.src.peekz 1 = s.src.peekz 1 ∨ (b = true ∧ s.src.peekz 1 = 10 ∧ s'.src.peekz 1 = 13) := h.peek (h.flat1 he)

theorem col : s'.mark.col = s.mark.col := h.mark.1

theorem line : s'.mark.line = s.mark.line + l := h.mark.2

theorem empty : s'.src.bufIsEmpty = s.src.bufIsEmpty := by
  unfold Src.bufIsEmpty
  rw [h.rest, Bool.eq_iff_iff]
  simp [conv_eq_nil]

theorem noCr (hb : b = true) : s.src.peekz 0 ≠ 13 := by
  unfold Src.peekz
  intro hx
  apply h.nocr hb
  cases hr : s.src.rest with
  | nil => rw [hr] at hx; simp at hx
  | cons c r => rw [hr] at hx; simp at hx; simp [hx]

/-- both advance on the line -/
theorem adv {n w} (hf : Flat b s.src.rest n) :
    Rel b l { s with src := s.src.skip n, mark := { s.mark with pos := s.mark.pos + n, col := s.mark.col + n }, leadingWhitespace := w }
      { s' with src := s'.src.skip n, mark := { s'.mark with pos := s'.mark.pos + n, col := s'.mark.col + n }, leadingWhitespace := w } := by
  refine { h with rest := ?_, nocr := ?_, over := ?_, mark := ⟨?_, h.line⟩, keys := ?_, adj := ?_, adj' := ?_, adjs := ?_, leading := rfl }
  · simp only [Src.skip]
    rw [h.rest, conv_drop hf]
  · intro hb hx
    exact h.nocr hb (List.mem_of_mem_drop hx)
  · obtain ⟨d, h1, h2, h3⟩ := h.over
    simp only [Src.skip, List.length_drop]
    have hc := conv_length (b := b) (t := s.src.rest)
    rw [← h.rest] at hc
    by_cases hn : n ≤ s.src.rest.length
    · exact ⟨d, by omega, by omega, fun hd => by rw [h3 hd]; simp⟩
    · have he : s'.src.rest.length = s.src.rest.length := by rw [h.rest, conv_flat hf (by omega)]
      exact ⟨d + (n - s.src.rest.length), by omega, by omega, fun _ => List.drop_eq_nil_of_le (by omega)⟩
  · rw [h.col]
  · refine h.keys.mono fun k k' hk => ⟨hk.possible, hk.required, hk.number, hk.mark, hk.before, fun hp hl => ?_⟩
    have := hk.dist hp hl
    simp only
    omega
  · have := h.adj; simp only; omega
  · have := h.adj'; simp only; omega
  · have h1 := h.adj
    have h2 := h.adj'
    rcases h.adjs with h3 | h3
    · exact .inl h3
    · by_cases hn : n = 0
      · subst hn; exact .inr h3
      · right; simp only; constructor <;> intro <;> omega

/-- both go to the next line -/
theorem nl {n n' w} (hr : s'.src.rest.drop n' = conv b (s.src.rest.drop n)) (hn : n ≤ s.src.rest.length) (hn' : n' ≤ s'.src.rest.length)
    (h0 : 0 < n) (h0' : 0 < n') :
    Rel b l { s with src := s.src.skip n, mark := ⟨s.mark.pos + n, 1, s.mark.line + 1⟩, leadingWhitespace := w }
      { s' with src := s'.src.skip n', mark := ⟨s'.mark.pos + n', 1, s'.mark.line + 1⟩, leadingWhitespace := w } := by
  refine { h with rest := hr, nocr := ?_, over := ?_, mark := ⟨rfl, ?_⟩, keys := ?_, adj := ?_, adj' := ?_, adjs := ?_, leading := rfl }
  · intro hb hx
    exact h.nocr hb (List.mem_of_mem_drop hx)
  · obtain ⟨d, h1, h2, h3⟩ := h.over
    simp only [Src.skip, List.length_drop]
    exact ⟨d, by omega, by omega, fun hd => by rw [h3 hd]; simp⟩
  · have := h.line; simp only; omega
  · refine h.keys.mono fun k k' hk => ⟨hk.possible, hk.required, hk.number, hk.mark, fun hp => ?_, fun hp hl => ?_⟩
    · have := hk.before hp; simp only; omega
    · have := hk.before hp; simp only at hl; omega
  · have := h.adj; simp only; omega
  · have := h.adj'; simp only; omega
  · have h1 := h.adj
    have h2 := h.adj'
    right; simp only; constructor <;> intro <;> omega

end Rel

theorem peekz_flat_cons {s : SSt} {c} (h : s.src.peekz 0 = c) (hc : c ≠ 0) : ∃ r, s.src.rest = c :: r := by
  unfold Src.peekz at h
  cases hr : s.src.rest with
  | nil => rw [hr] at h; simp at h; exact absurd h.symm hc
  | cons a r => rw [hr] at h; simp at h; exact ⟨r, by rw [h]⟩

/-! ## The primitives -/

theorem Out.ok {α} {V : α → α → Prop} {a a' : α} {s s'} (hv : V a a') (h : Rel b l s s') : Out b l V ((pure a : SM α) s) ((pure a' : SM α) s') := ⟨hv, h⟩

theorem Out.okE {α} {a : α} {s s'} (h : Rel b l s s') : Out b l Eq ((pure a : SM α) s) ((pure a : SM α) s') := ⟨rfl, h⟩

theorem Out.ite {α} {V : α → α → Prop} {c : Prop} [Decidable c] {m n m' n' : SM α} {s s'} (h1 : c → Out b l V (m s) (m' s')) (h2 : ¬ c → Out b l V (n s) (n' s')) :
    Out b l V ((if c then m else n) s) ((if c then m' else n') s') := by
  split
  · exact h1 ‹_›
  · exact h2 ‹_›

theorem Out.bindE {α β} {W : β → β → Prop} {s s' : SSt} {m m' : SM α} {f f' : α → SM β} (hm : Out b l Eq (m s) (m' s'))
    (hf : ∀ a t t', Rel b l t t' → Out b l W (f a t) (f' a t')) : Out b l W ((m >>= f) s) ((m' >>= f') s') :=
  Out.bind hm fun a a' t t' _ _ hv ht => by subst hv; exact hf a t t' ht

/-- as `bindE`, for code that does not read -/
theorem Out.bindK {α β} {W : β → β → Prop} {s s' : SSt} {m m' : SM α} {f f' : α → SM β} (hm : Out b l Eq (m s) (m' s'))
    (hk : ∀ s, (m s).2.src = s.src) (hk' : ∀ s, (m' s).2.src = s.src)
    (hf : ∀ a t t', Rel b l t t' → t.src = s.src → t'.src = s'.src → Out b l W (f a t) (f' a t')) : Out b l W ((m >>= f) s) ((m' >>= f') s') :=
  Out.bind hm fun a a' t t' e e' hv ht => by
    subst hv
    refine hf a t t' ht ?_ ?_
    · rw [← hk s, e]
    · rw [← hk' s', e']

theorem out_fail {α} {V : α → α → Prop} {s s'} {m m' msg} (hm : MR l m m') (h : Rel b l s s' := by assumption) : Out b l V ((fail m msg : SM α) s) ((fail m' msg : SM α) s') :=
  ⟨.inr ⟨m, m', msg, rfl, rfl, hm⟩, h.mark⟩

theorem out_failIf {s s'} {c m m' msg} (h : Rel b l s s') (hm : MR l m m') : Out b l Eq (failIf c m msg s) (failIf c m' msg s') := by
  unfold failIf
  split
  · exact out_fail hm
  · exact Out.okE h

/-- after the test nothing has changed -/
theorem Out.failIf_bind {β} {W : β → β → Prop} {s s' : SSt} {c m m' msg} {f f' : Unit → SM β} (hm : MR l m m')
    (hf : c = false → Out b l W (f () s) (f' () s')) (h : Rel b l s s' := by assumption) : Out b l W ((failIf c m msg >>= f) s) ((failIf c m' msg >>= f') s') := by
  cases c
  · exact hf rfl
  · exact ⟨.inr ⟨m, m', msg, rfl, rfl, hm⟩, h.mark⟩

theorem out_when {s s'} {c} {m m' : SM Unit} (h : Rel b l s s') (hm : c = true → Out b l Eq (m s) (m' s')) : Out b l Eq (when c m s) (when c m' s') := by
  unfold when
  split
  · exact hm ‹_›
  · exact Out.okE h

section
variable {s s' : SSt} (h : Rel b l s s')
include h

theorem out_skipN {n} (hf : Flat b s.src.rest n) : Out b l Eq (skipN n s) (skipN n s') := ⟨rfl, h.adv hf⟩

theorem out_skipNonBlank (he : s'.src.peekz 0 = s.src.peekz 0) : Out b l Eq (skipNonBlank s) (skipNonBlank s') := ⟨rfl, h.adv (h.flat1 he)⟩

theorem out_skipBlank (he : s'.src.peekz 0 = s.src.peekz 0) : Out b l Eq (skipBlank s) (skipBlank s') := by
  refine ⟨rfl, ?_⟩
  have := h.adv (w := s.leadingWhitespace) (h.flat1 he)
  rw [← h.leading] at this
  exact { this with leading := h.leading }

theorem out_setAllowed {a} : Out b l Eq (setAllowed a s) (setAllowed a s') := ⟨rfl, { h with allowed := rfl }⟩

theorem out_push {sp sp' tt} (h1 : MR l sp.start sp'.start) (h2 : MR l sp.stop sp'.stop) : Out b l Eq (push sp tt s) (push sp' tt s') := by
  refine ⟨rfl, { h with tokens := ?_ }⟩
  simp [tokView, h.tokens, h1.1, h1.2, h2.1, h2.2]

theorem out_skipLinebreak : Out b l Eq (skipLinebreak s) (skipLinebreak s') := by
  refine ⟨rfl, ?_⟩
  simp only
  rcases h.peek0 with he | ⟨rfl, h1, h2⟩
  · cases b
    · have hr : s'.src.rest = s.src.rest := h.rest
      have hp : ∀ n, s'.src.peekz n = s.src.peekz n := fun n => by unfold Src.peekz; rw [hr]
      rw [hp, hp]
      split
      · rename_i hc
        obtain ⟨r, e⟩ := peekz_flat_cons hc.1 (by simp)
        have hc2 := hc.2
        unfold Src.peekz at hc2
        rw [e] at hc2
        cases r with
        | nil => simp at hc2
        | cons d r => exact h.nl (by rw [hr]; rfl) (by simp [e]) (by simp [hr, e]) (by omega) (by omega)
      · split
        · rename_i hc
          obtain ⟨r, e⟩ := peekz_flat_cons hc (by simp)
          exact h.nl (by rw [hr]; rfl) (by simp [e]) (by simp [hr, e]) (by omega) (by omega)
        · exact h
    · have hn : s.src.peekz 0 ≠ 10 := by
        intro hx
        obtain ⟨r, e⟩ := peekz_flat_cons hx (by simp)
        have := h.flat1 he rfl 0 (by omega)
        rw [e] at this
        exact this rfl
      have hn' := h.noCr rfl
      rw [he, if_neg (fun hx => hn' hx.1), if_neg hn, if_neg (fun hx => hn' hx.1), if_neg hn]
      exact h
  · obtain ⟨r, e⟩ := peekz_flat_cons h1 (by simp)
    have e' := h.rest
    rw [e, conv_cons_lf] at e'
    have h3 : s'.src.peekz 1 = 10 := by simp [Src.peekz, e']
    rw [if_neg (fun hx => by rw [h1] at hx; exact absurd hx.1 (by decide)), if_pos h1, if_pos ⟨h2, h3⟩]
    exact h.nl (by rw [e, e']; rfl) (by simp [e]) (by simp [e']) (by omega) (by omega)

theorem out_readBreak {x} : Out b l Eq (readBreak x s) (readBreak x s') :=
  Out.bindE (out_skipLinebreak h) fun _ _ _ h => Out.okE h

end

/-! ## Skipping -/

theorem conv_takeWhile {p : Byte → Bool} (h1 : p 10 = false) (h2 : p 13 = false) (t : List Byte) : (conv b t).takeWhile p = t.takeWhile p := by
  cases b
  · rfl
  · induction t with
    | nil => rfl
    | cons c r ih =>
      by_cases hc : c = 10
      · subst hc; rw [conv_cons_lf]; simp [h1, h2]
      · rw [conv_cons_ne (fun _ => hc)]; simp only [List.takeWhile_cons, ih]

theorem flat_takeWhile {p : Byte → Bool} (h1 : p 10 = false) (t : List Byte) : Flat b t (t.takeWhile p).length := by
  intro _ j hj hx
  have : (t.takeWhile p)[j]? = some 10 := by
    rw [← List.takeWhile_append_dropWhile (p := p) (l := t), List.getElem?_append_left hj] at hx
    exact hx
  have := List.mem_of_getElem? this
  have := List.all_eq_true.mp (List.all_takeWhile (p := p) (l := t)) _ this
  rw [h1] at this
  cases this

theorem Flat.cons {c r n} (hc : b = true → c ≠ 10) (h : Flat b r n) : Flat b (c :: r) (n + 1) := by
  intro hb j hj
  cases j with
  | zero => simpa using hc hb
  | succ j => simpa using h hb j (by omega)

theorem ws_conv {st} : ∀ (t : List Byte) (x y : Bool), wsToEol st (conv b t) x y = wsToEol st t x y ∧ Flat b t (wsToEol st t x y).1 := by
  have f0 : ∀ t, Flat b t 0 := fun t _ j hj => absurd hj (by omega)
  intro t
  induction t with
  | nil => intro x y; exact ⟨by rw [conv_nil], f0 _⟩
  | cons c r ih =>
    intro x y
    by_cases hc : b = true ∧ c = 10
    · obtain ⟨rfl, rfl⟩ := hc
      rw [conv_cons_lf]
      exact ⟨by simp [wsToEol], by simp [wsToEol]; exact f0 _⟩
    · have hc' : b = true → c ≠ 10 := fun hb hx => hc ⟨hb, hx⟩
      rw [conv_cons_ne hc']
      rw [wsToEol, wsToEol]
      split
      · exact ⟨by rw [(ih _ _).1], (ih _ _).2.cons hc'⟩
      · split
        · exact ⟨by rw [(ih _ _).1], (ih _ _).2.cons hc'⟩
        · split
          · split
            · exact ⟨rfl, f0 _⟩
            · refine ⟨?_, Flat.cons hc' (flat_takeWhile (by decide) _)⟩
              rw [conv_takeWhile (by decide) (by decide)]
          · exact ⟨rfl, f0 _⟩

section
variable {s s' : SSt} (h : Rel b l s s')
include h

theorem out_skipWsToEol {x y} : Out b l Eq (skipWsToEol x y s) (skipWsToEol x y s') := by
  obtain ⟨h1, h2⟩ := ws_conv (b := b) (st := x) s.src.rest false y
  have h3 := h.adv (w := s.leadingWhitespace) h2
  unfold skipWsToEol Src.skipWsToEol
  simp only [h.rest, h1]
  have h4 : Rel b l { s with src := s.src.skip (wsToEol x s.src.rest false y).1, mark := { s.mark with pos := s.mark.pos + (wsToEol x s.src.rest false y).1, col := s.mark.col + (wsToEol x s.src.rest false y).1 } }
      { s' with src := s'.src.skip (wsToEol x s.src.rest false y).1, mark := { s'.mark with pos := s'.mark.pos + (wsToEol x s.src.rest false y).1, col := s'.mark.col + (wsToEol x s.src.rest false y).1 } } :=
    { h3 with leading := h.leading }
  generalize wsToEol x s.src.rest false y = z at h4
  obtain ⟨n, r⟩ := z
  cases r with
  | ok a => exact ⟨rfl, h4⟩
  | error m => exact ⟨.inr ⟨_, _, _, rfl, rfl, h4.mark⟩, h4.mark⟩

theorem out_counted {p : Byte → Bool} (h1 : p 10 = false) (h2 : p 13 = false) :
    Out b l Eq (skipCounted (fun x => ((x.rest.takeWhile p).length, x.skip (x.rest.takeWhile p).length)) s)
      (skipCounted (fun x => ((x.rest.takeWhile p).length, x.skip (x.rest.takeWhile p).length)) s') := by
  refine ⟨rfl, ?_⟩
  have := h.adv (w := s.leadingWhitespace) (flat_takeWhile h1 s.src.rest)
  simp only [h.rest, conv_takeWhile h1 h2]
  exact { this with leading := h.leading }

theorem out_skipBlanks : Out b l Eq (skipCounted Src.skipWhileBlank s) (skipCounted Src.skipWhileBlank s') := out_counted h rfl rfl

theorem out_skipNonBreaks : Out b l Eq (skipCounted Src.skipWhileNonBreakz s) (skipCounted Src.skipWhileNonBreakz s') := out_counted h rfl rfl

theorem out_fetchAlpha : Out b l Eq (fetchAlpha s) (fetchAlpha s') := by
  have := h.adv (w := s.leadingWhitespace) (flat_takeWhile (p := isAlpha) rfl s.src.rest)
  unfold fetchAlpha Src.fetchWhileIsAlpha
  simp only [h.rest, conv_takeWhile (p := isAlpha) rfl rfl]
  exact ⟨rfl, { this with leading := h.leading }⟩

theorem out_unrollIndent {c} : Out b l Eq (unrollIndent c s) (unrollIndent c s') := by
  unfold unrollIndent
  rw [h.level, h.indent, h.indents]
  split
  · exact ⟨rfl, h⟩
  · split
    · trivial
    · rename_i is i n _
      refine ⟨rfl, { h with indents := rfl, indent := rfl, level := rfl, tokens := ?_ }⟩
      simp [tokView, h.tokens, Span.empty, h.col, h.line]

theorem out_insertToken {n m m' tt} (hm : MR l m m') : Out b l Eq (insertToken n (Span.empty m) tt s) (insertToken n (Span.empty m') tt s') := by
  have hl : s'.tokens.length = s.tokens.length := by have := congrArg List.length h.tokens; simpa using this
  unfold insertToken
  rw [h.parsed, hl]
  split
  · trivial
  · refine ⟨rfl, { h with parsed := rfl, tokens := ?_ }⟩
    simp [tokView, List.map_take, List.map_drop, Span.empty, hm.1, hm.2, h.tokens]

theorem out_dropNonBlock {c} : Out b l Eq (dropNonBlock c s) (dropNonBlock c s') := by
  refine ⟨rfl, ?_⟩
  simp only [h.indents, h.indent]
  split
  · split
    · exact { h with indents := rfl, indent := rfl }
    · exact h
  · exact h

theorem out_pushBlock {c n tt m m'} (hm : MR l m m') : Out b l Eq (pushBlock c n tt m s) (pushBlock c n tt m' s') := by
  unfold pushBlock
  rw [gets_bind, gets_bind, h.indent]
  refine Out.ite (fun _ => ?_) fun _ => Out.okE h
  rw [upd_bind, upd_bind]
  have h' : Rel b l { s with indents := ⟨s.indent, true⟩ :: s.indents, indent := c } { s' with indents := ⟨s'.indent, true⟩ :: s'.indents, indent := c } :=
    { h with indents := by simp [h.indents, h.indent], indent := rfl }
  split
  · exact out_insertToken h' hm
  · exact out_push h' hm hm

theorem out_rollIndent {c n tt m m'} (hm : MR l m m') : Out b l Eq (rollIndent c n tt m s) (rollIndent c n tt m' s') := by
  unfold rollIndent
  rw [gets_bind, gets_bind, h.level]
  exact Out.ite (fun _ => Out.okE h) fun _ => Out.bindE (out_dropNonBlock h) fun _ _ _ h => out_pushBlock h hm

theorem out_rollOneColIndent : Out b l Eq (rollOneColIndent s) (rollOneColIndent s') := by
  refine ⟨rfl, ?_⟩
  simp only [h.indents, h.indent, h.level]
  split
  · split
    · exact { h with indents := rfl, indent := rfl, level := rfl }
    · exact h
  · exact h

theorem out_unrollNonBlockIndents : Out b l Eq (unrollNonBlockIndents s) (unrollNonBlockIndents s') :=
  ⟨rfl, { h with indents := by simp [h.indents, h.indent], indent := by simp [h.indents, h.indent] }⟩

theorem out_decreaseFlowLevel : Out b l Eq (decreaseFlowLevel s) (decreaseFlowLevel s') := by
  unfold decreaseFlowLevel
  rw [h.level]
  split
  · have hk := h.keys
    cases h1 : s.simpleKeys with
    | nil => trivial
    | cons k ks =>
      rw [h1] at hk
      cases h2 : s'.simpleKeys with
      | nil => rw [h2] at hk; cases hk
      | cons k' ks' =>
        rw [h2] at hk
        cases hk with
        | cons _ hk =>
          refine ⟨rfl, { h with keys := hk, level := rfl, adjs := ?_ }⟩
          rcases h.adjs with h3 | h3
          · left; simp only; omega
          · exact .inr h3
  · exact ⟨rfl, h⟩

theorem stale_eq {k k'} (hk : KeyR l s.mark s'.mark k k') : isStale s' k' = isStale s k := by
  unfold isStale
  rw [hk.possible, h.level]
  cases hp : k.possible
  · rfl
  · have h1 := hk.mark hp
    have h2 := hk.before hp
    have h3 := hk.dist hp
    have h4 := h.line
    congr 1
    rw [Bool.eq_iff_iff]
    simp
    have := h1.2
    by_cases hl : k.mark.line = s.mark.line
    · have := h3 hl
      constructor <;> rintro (h | h) <;> omega
    · constructor <;> intro _ <;> left <;> omega

theorem out_staleSimpleKeys : Out b l Eq (staleSimpleKeys s) (staleSimpleKeys s') := by
  unfold staleSimpleKeys
  rw [h.keys.any (f' := fun k => isStale s' k && k.required) (f := fun k => isStale s k && k.required)
    fun k k' hk => by rw [stale_eq h hk, hk.required]]
  split
  · exact ⟨.inr ⟨_, _, _, rfl, rfl, h.mark⟩, h.mark⟩
  · refine ⟨rfl, { h with keys := h.keys.map fun k k' hk => ?_ }⟩
    rw [stale_eq h hk]
    split
    · exact ⟨rfl, hk.required, hk.number, nofun, nofun, nofun⟩
    · exact hk

theorem out_removeSimpleKey : Out b l Eq (removeSimpleKey s) (removeSimpleKey s') := by
  unfold removeSimpleKey
  have hk := h.keys
  cases h1 : s.simpleKeys with
  | nil => trivial
  | cons k ks =>
    rw [h1] at hk
    cases h2 : s'.simpleKeys with
    | nil => rw [h2] at hk; cases hk
    | cons k' ks' =>
      rw [h2] at hk
      cases hk with
      | cons hk hks =>
        simp only [hk.possible, hk.required]
        split
        · exact ⟨.inr ⟨_, _, _, rfl, rfl, h.mark⟩, h.mark⟩
        · exact ⟨rfl, { h with keys := .cons ⟨rfl, rfl, hk.number, nofun, nofun, nofun⟩ hks }⟩

theorem out_saveSimpleKey : Out b l Eq (saveSimpleKey s) (saveSimpleKey s') := by
  have hl : s'.tokens.length = s.tokens.length := by have := congrArg List.length h.tokens; simpa using this
  refine ⟨rfl, ?_⟩
  simp only [h.allowed]
  split
  · refine { h with allowed := rfl, keys := .cons ⟨rfl, ?_, ?_, fun _ => h.mark, fun _ => Nat.le_refl _, fun _ _ => ?_⟩ h.keys.tail }
    · simp [keyHere, h.level, h.indent, h.col, h.indents]
    · simp [keyHere, h.parsed, hl]
    · simp only [keyHere]; omega
  · exact h

end

/-! ## What peeking shows -/

theorem Out.mono {α} {V W : α → α → Prop} (hv : ∀ a a', V a a' → W a a') {x y : Res α × SSt} (h : Out b l V x y) : Out b l W x y := by
  obtain ⟨r, t⟩ := x
  obtain ⟨r', t'⟩ := y
  cases r <;> cases r' <;> simp only [Out] at h ⊢
  · exact ⟨hv _ _ h.1, h.2⟩
  · exact h

/-- a loop with the same variables in both runs -/
theorem Out.loopE {σ α} {body body' : σ → SM (Loop σ α)} (hb : ∀ x s s', Rel b l s s' → Out b l Eq (body x s) (body' x s'))
    {n x s s'} (h : Rel b l s s') : Out b l Eq (loopM body n x s) (loopM body' n x s') := by
  refine Out.loop (W := Eq) ?_ n x x s s' rfl h
  rintro x _ s s' rfl h
  exact (hb x s s' h).mono fun r r' e => by subst e; cases r <;> rfl

namespace Rel
variable {s s' : SSt} (h : Rel b l s s')
include h

theorem cls0 {α} {p : Byte → α} (hp : p 13 = p 10) : p (s'.src.peekz 0) = p (s.src.peekz 0) := by
  rcases h.peek0 with he | ⟨_, h1, h2⟩
  · rw [he]
  · rw [h1, h2, hp]

theorem cls1 {α} {p : Byte → α} (hp : p 13 = p 10) (he : s'.src.peekz 0 = s.src.peekz 0) : p (s'.src.peekz 1) = p (s.src.peekz 1) := by
  rcases h.peek1 he with he | ⟨_, h1, h2⟩
  · rw [he]
  · rw [h1, h2, hp]

theorem eq0 (hc : s.src.peekz 0 ≠ 10) : s'.src.peekz 0 = s.src.peekz 0 := by
  rcases h.peek0 with he | ⟨_, h1, _⟩
  · exact he
  · exact absurd h1 hc

theorem eqc {p : Byte → Bool} (hp : p 10 = false) (hc : p (s.src.peekz 0) = true) : s'.src.peekz 0 = s.src.peekz 0 :=
  h.eq0 fun hx => by rw [hx, hp] at hc; cases hc

theorem three {c : Byte} (h1 : c ≠ 10) (h2 : c ≠ 13) : s'.src.nextIsThree c = s.src.nextIsThree c := by
  unfold Src.nextIsThree
  have n1 : (10 == c) = false := beq_false_of_ne (Ne.symm h1)
  have n2 : (13 == c) = false := beq_false_of_ne (Ne.symm h2)
  rcases h.peek0 with e0 | ⟨_, e, e'⟩
  · rw [e0]
    rcases h.peek1 e0 with e1 | ⟨_, e, e'⟩
    · rw [e1]
      rcases h.peek (h.flatS (h.flat1 e0) e1) with e2 | ⟨_, e, e'⟩
      · rw [e2]
      · simp [e, e', n1, n2]
    · simp [e, e', n1, n2]
  · simp [e, e', n1, n2]

theorem flat3 {c : Byte} (h1 : c ≠ 10) (hc : s.src.nextIsThree c = true) : Flat b s.src.rest 3 := by
  simp only [Src.nextIsThree, Bool.and_eq_true, beq_iff_eq] at hc
  obtain ⟨⟨c0, c1⟩, c2⟩ := hc
  unfold Src.peekz at c0 c1 c2
  intro _ j hj hx
  match j, hj with
  | 0, _ => rw [hx] at c0; exact h1 c0.symm
  | 1, _ => rw [hx] at c1; exact h1 c1.symm
  | 2, _ => rw [hx] at c2; exact h1 c2.symm

theorem three_blank {c : Byte} (h1 : c ≠ 10) (h2 : c ≠ 13) :
    (s'.src.nextIsThree c && isBlankOrBreakz (s'.src.peekz 3)) = (s.src.nextIsThree c && isBlankOrBreakz (s.src.peekz 3)) := by
  rw [h.three h1 h2]
  cases hc : s.src.nextIsThree c
  · rfl
  · rcases h.peek (h.flat3 h1 hc) with e | ⟨_, e, e'⟩
    · rw [e]
    · rw [e, e']; rfl

theorem docInd : s'.src.nextIsDocumentIndicator = s.src.nextIsDocumentIndicator := by
  unfold Src.nextIsDocumentIndicator
  rw [Bool.and_or_distrib_right, Bool.and_or_distrib_right, h.three_blank (by decide) (by decide), h.three_blank (by decide) (by decide)]

theorem docEnd : nextIsDocumentEnd s' = nextIsDocumentEnd s := h.three_blank (by decide) (by decide)

theorem docStart : nextIsDocumentStart s' = nextIsDocumentStart s := h.three_blank (by decide) (by decide)

theorem can {f} : s'.src.nextCanBePlainScalar f = s.src.nextCanBePlainScalar f := by
  unfold Src.nextCanBePlainScalar
  rcases h.peek0 with e0 | ⟨_, e, e'⟩
  · rw [e0]
    have := h.cls1 (p := fun x => (isBlankOrBreakz x || (f && isFlow x))) (by cases f <;> rfl) e0
    simp only [this]
  · rw [e, e']; cases f <;> rfl

end Rel

section
variable {s s' : SSt} (h : Rel b l s s')
include h

theorem out_skipToNextToken {cfg : Cfg} : Out b l Eq (skipToNextToken cfg s) (skipToNextToken cfg s') := by
  refine Out.loopE ?_ h
  intro _ s s' h
  unfold skipToNextTokenBody
  simp only [peekz_bind, gets_bind, h.indents, h.leading, h.col, h.indent]
  rcases h.peek0 with he | ⟨_, h1, h2⟩
  · rw [he]
    refine Out.ite (fun _ => ?_) fun _ => Out.ite (fun _ => ?_) fun _ => Out.ite (fun _ => ?_) fun _ => Out.ite (fun _ => ?_) fun _ => Out.okE h
    · refine Out.bindE (out_skipWsToEol h) fun _ s s' h => ?_
      simp only [peekz_bind, getMark_bind]
      rw [h.cls0 (p := fun x => !isBreakz x) rfl]
      exact Out.failIf_bind h.mark fun _ => Out.okE h
    · exact Out.bindE (out_skipBlank h he) fun _ s s' h => Out.okE h
    · refine Out.bindE (out_skipLinebreak h) fun _ s s' h => ?_
      simp only [gets_bind, h.level]
      exact Out.bindE (out_when h fun _ => out_setAllowed h) fun _ s s' h => Out.okE h
    · exact Out.bindE (out_skipNonBreaks h) fun _ s s' h => Out.okE h
  · simp only [h1, h2]
    simp
    refine Out.bindE (out_skipLinebreak h) fun _ s s' h => ?_
    simp only [gets_bind, h.level]
    exact Out.bindE (out_when h fun _ => out_setAllowed h) fun _ s s' h => Out.okE h

theorem out_skipYamlWhitespace {cfg : Cfg} : Out b l Eq (skipYamlWhitespace cfg s) (skipYamlWhitespace cfg s') := by
  unfold skipYamlWhitespace
  refine Out.bindE (Out.loopE ?_ h) fun _ s s' h => ?_
  · intro _ s s' h
    unfold skipYamlWhitespaceBody
    simp only [peekz_bind]
    rcases h.peek0 with he | ⟨_, h1, h2⟩
    · rw [he]
      refine Out.ite (fun _ => ?_) fun _ => Out.ite (fun _ => ?_) fun _ => Out.ite (fun _ => ?_) fun _ => Out.okE h
      · exact Out.bindE (out_skipBlank h he) fun _ s s' h => Out.okE h
      · refine Out.bindE (out_skipLinebreak h) fun _ s s' h => ?_
        simp only [gets_bind, h.level]
        exact Out.bindE (out_when h fun _ => out_setAllowed h) fun _ s s' h => Out.okE h
      · exact Out.bindE (out_skipNonBreaks h) fun _ s s' h => Out.okE h
    · simp only [h1, h2]
      simp
      refine Out.bindE (out_skipLinebreak h) fun _ s s' h => ?_
      simp only [gets_bind, h.level]
      exact Out.bindE (out_when h fun _ => out_setAllowed h) fun _ s s' h => Out.okE h
  · simp only [getMark_bind]
    exact out_failIf h h.mark

end

/-! ## Plain scalars -/

theorem out_plainRun {n x} {s s' : SSt} (h : Rel b l s s') : Out b l Eq (loopM plainRunBody n x s) (loopM plainRunBody n x s') := by
  refine Out.loopE ?_ h
  intro x s s' h
  unfold plainRunBody
  simp only [peekz_bind, gets_bind, h.level, h.can]
  rcases h.peek0 with he | ⟨_, h1, h2⟩
  · rw [he]
    exact Out.ite (fun _ => Out.okE h) fun _ => Out.bindE (out_skipNonBlank h he) fun _ s s' h => Out.okE h
  · rw [h1, h2]
    exact Out.okE h

/-- the variables agree but for the end mark -/
def PlainR (l : Nat) (p p' : PlainSt) : Prop :=
  p'.string = p.string ∧ p'.leadingBreak = p.leadingBreak ∧ p'.trailingBreaks = p.trailingBreaks ∧ p'.whitespaces = p.whitespaces ∧ MR l p.endMark p'.endMark

theorem PlainR.join {p p' w} (h : PlainR l p p') : PlainR l (plainJoin w p) (plainJoin w p') := by
  obtain ⟨h1, h2, h3, h4, h5⟩ := h
  unfold plainJoin PlainR
  rw [h1, h2, h3, h4]
  split
  · split
    · exact ⟨rfl, rfl, rfl, rfl, h5⟩
    · split
      · exact ⟨rfl, rfl, rfl, rfl, h5⟩
      · exact ⟨rfl, rfl, rfl, rfl, h5⟩
  · exact ⟨rfl, rfl, rfl, rfl, h5⟩

/-- related steps of a loop -/
def LoopR {σ α} (W : σ → σ → Prop) (V : α → α → Prop) (r r' : Loop σ α) : Prop :=
  match r, r' with
  | .next y, .next y' => W y y'
  | .done a, .done a' => V a a'
  | _, _ => False

theorem out_plainContent {cfg : Cfg} {p p'} {s s' : SSt} (h : Rel b l s s') (hp : PlainR l p p') (he : s'.src.peekz 0 = s.src.peekz 0) :
    Out b l (PlainR l) (plainContent cfg p s) (plainContent cfg p' s') := by
  unfold plainContent
  simp only [gets_bind, peekz_bind, h.leading, he]
  generalize s.leadingWhitespace = w
  refine Out.bindE (out_skipNonBlank h he) fun _ s s' h => ?_
  have hj := hp.join (w := w)
  rw [hj.1]
  refine Out.bindE (out_plainRun h) fun _ s s' h => ?_
  rw [getMark_bind, getMark_bind]
  exact Out.ok ⟨rfl, hj.2.1, hj.2.2.1, hj.2.2.2.1, h.mark⟩ h

theorem out_plainBlank {i m m' n p p'} {s s' : SSt} (h : Rel b l s s') (hp : PlainR l p p') (hm : MR l m m') :
    Out b l (PlainR l) (loopM (plainBlankBody i m) n p s) (loopM (plainBlankBody i m') n p' s') := by
  refine Out.loop (W := PlainR l) ?_ n p p' s s' hp h
  intro p p' s s' hp h
  show Out b l (LoopR (PlainR l) (PlainR l)) _ _
  obtain ⟨q1, q2, q3, q4, q5⟩ := hp
  unfold plainBlankBody
  simp only [peekz_bind, gets_bind, getMark_bind, h.leading, h.col]
  rcases h.peek0 with he | ⟨_, h1, h2⟩
  · rw [he]
    refine Out.ite (fun _ => Out.ok ⟨q1, q2, q3, q4, q5⟩ h) fun _ => Out.ite (fun _ => Out.ite (fun _ => ?_) fun _ => Out.ite (fun _ => ?_) fun _ => ?_) fun _ => Out.ite (fun _ => ?_) fun _ => ?_
    · exact Out.bindE (out_skipBlank h he) fun _ s s' h => Out.ok ⟨q1, q2, q3, by simp [q4], q5⟩ h
    · refine Out.bindE (out_skipWsToEol h) fun _ s s' h => ?_
      simp only [peekz_bind]
      rw [h.cls0 (p := fun x => !isBreakz x) rfl]
      exact Out.failIf_bind hm fun _ => Out.ok ⟨q1, q2, q3, q4, q5⟩ h
    · exact Out.bindE (out_skipBlank h he) fun _ s s' h => Out.ok ⟨q1, q2, q3, q4, q5⟩ h
    · exact Out.bindE (out_skipLinebreak h) fun _ s s' h => Out.ok ⟨q1, q2, by simp [q3], q4, q5⟩ h
    · refine Out.bindE (out_skipLinebreak h) fun _ s s' h => ?_
      rw [upd_bind, upd_bind]
      exact Out.ok ⟨q1, by simp [q2], q3, rfl, q5⟩ { h with leading := rfl }
  · rw [h1, h2]
    simp only [isBlankOrBreak, isBlank, isBreak]
    simp
    refine Out.ite (fun _ => ?_) fun _ => ?_
    · exact Out.bindE (out_skipLinebreak h) fun _ s s' h => Out.ok ⟨q1, q2, by simp [q3], q4, q5⟩ h
    · refine Out.bindE (out_skipLinebreak h) fun _ s s' h => ?_
      rw [upd_bind, upd_bind]
      exact Out.ok ⟨q1, by simp [q2], q3, rfl, q5⟩ { h with leading := rfl }

theorem out_plainAfter {cfg : Cfg} {i m m' p p'} {s s' : SSt} (h : Rel b l s s') (hp : PlainR l p p') (hm : MR l m m') :
    Out b l (LoopR (PlainR l) (PlainR l)) (plainAfter cfg i m p s) (plainAfter cfg i m' p' s') := by
  unfold plainAfter
  simp only [peekz_bind]
  have := h.cls0 (p := fun x => isBlank x || isBreak x) rfl
  rw [this]
  refine Out.ite (fun _ => ?_) fun _ => Out.ok hp h
  refine Out.bind (out_plainBlank h hp hm) fun p p' s s' _ _ hp h => ?_
  simp only [gets_bind, h.level, h.col]
  exact Out.ite (fun _ => Out.ok hp h) fun _ => Out.ok hp h

theorem out_plainBody {cfg : Cfg} {i m m' n p p'} {s s' : SSt} (h : Rel b l s s') (hp : PlainR l p p') (hm : MR l m m') :
    Out b l (PlainR l) (loopM (plainBody cfg i m) n p s) (loopM (plainBody cfg i m') n p' s') := by
  refine Out.loop (W := PlainR l) ?_ n p p' s s' hp h
  intro p p' s s' hp h
  show Out b l (LoopR (PlainR l) (PlainR l)) _ _
  unfold plainBody
  have e1 := h.cls0 (p := fun x => x == b%'#') rfl
  have e2 := h.cls0 (p := fun x => !isBlankOrBreakz x) rfl
  simp only [gets_bind, h.leading, h.docInd, e1, e2, h.level, h.can]
  refine Out.ite (fun _ => Out.ok hp h) fun _ => ?_
  have e3 : (decide (s.flowLevel > 0) && s'.src.peekz 0 == b%'-' && isFlow (s'.src.peekz 1)) = (decide (s.flowLevel > 0) && s.src.peekz 0 == b%'-' && isFlow (s.src.peekz 1)) := by
    rcases h.peek0 with e0 | ⟨_, e, e'⟩
    · rw [e0, h.cls1 (p := isFlow) rfl e0]
    · rw [e, e']; simp
  simp only [gets_bind, h.level]
  rw [e3]
  simp only [getMark_bind]
  refine Out.failIf_bind h.mark fun _ => ?_
  simp only [gets_bind, h.level, h.can, e2]
  refine Out.ite (fun hc => ?_) fun _ => out_plainAfter h hp hm
  refine Out.bind (out_plainContent h hp ?_) fun p p' s s' _ _ hp h => out_plainAfter h hp hm
  simp only [Bool.and_eq_true] at hc
  exact h.eqc (p := fun x => !isBlankOrBreakz x) rfl hc.1

/-- tokens of the same type and place -/
def TokR (l : Nat) (t t' : Token) : Prop := t'.tt = t.tt ∧ MR l t.span.start t'.span.start ∧ MR l t.span.stop t'.span.stop

theorem out_pushTok {t t'} {s s' : SSt} (h : Rel b l s s') (ht : TokR l t t') : Out b l Eq (pushTok t s) (pushTok t' s') := by
  unfold pushTok
  rw [ht.1]
  exact out_push h ht.2.1 ht.2.2

theorem out_scanPlain {cfg : Cfg} {s s' : SSt} (h : Rel b l s s') : Out b l (TokR l) (scanPlainScalar cfg s) (scanPlainScalar cfg s') := by
  unfold scanPlainScalar
  refine Out.bindE (out_unrollNonBlockIndents h) fun _ s s' h => ?_
  simp only [gets_bind, getMark_bind, h.indent, h.level, h.col]
  refine Out.failIf_bind h.mark fun _ => ?_
  have hm := h.mark
  generalize s.mark = m at hm
  generalize s'.mark = m' at hm
  refine Out.bind (out_plainBody h ⟨rfl, rfl, rfl, rfl, hm⟩ hm) fun p p' s s' _ _ hp h => ?_
  simp only [gets_bind, h.leading]
  refine Out.bindE (out_when h fun _ => out_setAllowed h) fun _ s s' h => ?_
  rw [hp.1]
  exact Out.failIf_bind hm fun _ => Out.ok ⟨rfl, hm, hp.2.2.2.2⟩ h

/-! ## Quoted scalars -/

theorem hex_conv {s s' : SSt} (h : Rel b l s s') : ∀ n i v, Flat b s.src.rest i →
    hexValue s'.src n i v = hexValue s.src n i v ∧ (∀ x, hexValue s.src n i v = some (some x) → Flat b s.src.rest (i + n)) := by
  intro n
  induction n with
  | zero => intro i v hf; exact ⟨rfl, fun _ _ => hf⟩
  | succ n ih =>
    intro i v hf
    rw [hexValue, hexValue]
    rcases h.peek hf with he | ⟨_, h1, h2⟩
    · rw [he]
      have hf' := h.flatS hf he
      split
      · cases asHex (s.src.peekz i) with
        | none => exact ⟨rfl, nofun⟩
        | some d =>
          have := ih (i + 1) (v * 16 + d) hf'
          exact ⟨this.1, fun x hx => by have := this.2 x hx; rwa [show i + (n + 1) = i + 1 + n by omega]⟩
      · exact ⟨rfl, nofun⟩
    · rw [h1, h2]
      exact ⟨rfl, fun x hx => by simp [isAsciiHexdigit, isAsciiDigit] at hx⟩

theorem out_hexEscape {n m m'} {s s' : SSt} (h : Rel b l s s') (hf : Flat b s.src.rest 2) (hm : MR l m m') : Out b l Eq (hexEscape n m s) (hexEscape n m' s') := by
  unfold hexEscape
  refine Out.bindE (out_skipN h hf) fun _ s s' h => ?_
  rw [gets_bind, gets_bind]
  obtain ⟨h1, h2⟩ := hex_conv h n 0 0 h.flat0
  rw [h1]
  cases hv : hexValue s.src n 0 0 with
  | none => trivial
  | some v =>
    cases v with
    | none => exact out_fail hm
    | some v =>
      simp only
      cases Utf8.charFromU32 v with
      | none => exact out_fail hm
      | some ch => exact Out.bindE (out_skipN h (by have := h2 v hv; rwa [Nat.zero_add] at this)) fun _ s s' h => Out.okE h

theorem out_resolveEscape {m m'} {s s' : SSt} (h : Rel b l s s') (he : s'.src.peekz 0 = s.src.peekz 0) (he' : s'.src.peekz 1 = s.src.peekz 1) (hm : MR l m m') :
    Out b l Eq (resolveEscape m s) (resolveEscape m' s') := by
  unfold resolveEscape
  rw [peekz_bind, peekz_bind, he']
  have hf := h.flatS (h.flat1 he) he'
  cases simpleEscape (s.src.peekz 1) with
  | some ch => exact Out.bindE (out_skipN h hf) fun _ s s' h => Out.okE h
  | none =>
    exact Out.ite (fun _ => out_hexEscape h hf hm) fun _ => Out.ite (fun _ => out_hexEscape h hf hm) fun _ => Out.ite (fun _ => out_hexEscape h hf hm) fun _ => out_fail hm

theorem out_flowChars {q m m' n x} {s s' : SSt} (h : Rel b l s s') (hm : MR l m m') : Out b l Eq (loopM (flowCharsBody q m) n x s) (loopM (flowCharsBody q m') n x s') := by
  refine Out.loopE ?_ h
  intro x s s' h
  unfold flowCharsBody
  simp only [peekz_bind]
  rcases h.peek0 with he | ⟨_, h1, h2⟩
  · rw [he]
    have c1 := h.cls1 (p := fun x => x = 39) (by simp) he
    have c2 := h.cls1 (p := isBreak) rfl he
    simp only [c1, c2]
    refine Out.ite (fun _ => Out.okE h) fun _ => Out.ite (fun hc => ?_) fun _ => Out.ite (fun _ => Out.okE h) fun _ => Out.ite (fun _ => Out.okE h) fun _ =>
      Out.ite (fun _ => ?_) fun hnb => Out.ite (fun hc => ?_) fun _ => ?_
    · refine Out.bindE (out_skipN h ?_) fun _ s s' h => Out.okE h
      refine h.flatS (h.flat1 he) ?_
      rcases h.peek1 he with e | ⟨_, e, _⟩
      · exact e
      · rw [e] at hc; exact absurd hc.2.1 (by decide)
    · refine Out.bindE (out_skipNonBlank h he) fun _ s s' h => ?_
      exact Out.bindE (out_skipLinebreak h) fun _ s s' h => Out.okE h
    · refine Out.bindE (out_resolveEscape h he ?_ hm) fun _ s s' h => Out.okE h
      rcases h.peek1 he with e | ⟨_, e, _⟩
      · exact e
      · rw [e] at hnb; exact absurd ⟨hc.1, hc.2, rfl⟩ hnb
    · exact Out.bindE (out_skipNonBlank h he) fun _ s s' h => Out.okE h
  · rw [h1, h2]
    exact Out.okE h

theorem out_flowBlank {n x} {s s' : SSt} (h : Rel b l s s') : Out b l Eq (loopM flowBlankBody n x s) (loopM flowBlankBody n x s') := by
  refine Out.loopE ?_ h
  intro x s s' h
  unfold flowBlankBody
  simp only [peekz_bind]
  rcases h.peek0 with he | ⟨_, h1, h2⟩
  · rw [he]
    refine Out.ite (fun _ => Out.ite (fun _ => ?_) fun _ => ?_) fun _ => Out.ite (fun _ => Out.ite (fun _ => ?_) fun _ => ?_) fun _ => Out.okE h
    · simp only [getMark_bind, gets_bind, h.col, h.indent]
      exact Out.failIf_bind h.mark fun _ => Out.bindE (out_skipBlank h he) fun _ s s' h => Out.okE h
    · exact Out.bindE (out_skipBlank h he) fun _ s s' h => Out.okE h
    · exact Out.bindE (out_readBreak h) fun _ s s' h => Out.okE h
    · exact Out.bindE (out_readBreak h) fun _ s s' h => Out.okE h
  · rw [h1, h2]
    exact Out.ite (c := x.leadingBlanks = true) (fun _ => Out.bindE (out_readBreak h) fun _ s s' h => Out.okE h) fun _ => Out.bindE (out_readBreak h) fun _ s s' h => Out.okE h

theorem Rel.eof {s s' : SSt} (h : Rel b l s s') : (s'.src.bufIsEmpty) = s.src.bufIsEmpty := h.empty

theorem out_flowBody {cfg : Cfg} {q m m' n x} {s s' : SSt} (h : Rel b l s s') (hm : MR l m m') : Out b l Eq (loopM (flowBody cfg q m) n x s) (loopM (flowBody cfg q m') n x s') := by
  refine Out.loopE ?_ h
  intro x s s' h
  unfold flowBody
  simp only [gets_bind, h.col, h.docInd]
  refine Out.failIf_bind hm fun _ => ?_
  simp only [atEof_bind, h.empty]
  refine Out.failIf_bind hm fun _ => ?_
  simp only [gets_bind, h.col, h.indent]
  refine Out.failIf_bind hm fun _ => ?_
  refine Out.bindE (out_flowChars h hm) fun _ s s' h => ?_
  simp only [peekz_bind]
  have c1 := h.cls0 (p := fun c => (c = 39 ∧ q = true) ∨ (c = 34 ∧ q = false)) (by simp)
  simp only [c1]
  exact Out.ite (fun _ => Out.okE h) fun _ => Out.bindE (out_flowBlank h) fun _ s s' h => Out.okE h

theorem bind_done {α β} {m : SM α} {f : α → SM β} {s y t} (h : (m >>= f) s = (.ok y, t)) : ∃ a u, m s = (.ok a, u) ∧ f a u = (.ok y, t) := by
  simp only [Bind.bind] at h
  rcases e : m s with ⟨r, u⟩
  rw [e] at h
  cases r with
  | ok a => exact ⟨a, u, rfl, h⟩
  | err e => cases h
  | panic => cases h
  | hang => cases h

theorem loop_post {σ α} {P : SSt → Prop} {body : σ → SM (Loop σ α)} (hb : ∀ x s a t, body x s = (.ok (.done a), t) → P t) :
    ∀ n x s a t, loopM body n x s = (.ok a, t) → P t := by
  intro n
  induction n with
  | zero => intro x s a t h; cases h
  | succ n ih =>
    intro x s a t h
    rw [loopM] at h
    obtain ⟨r, u, h1, h2⟩ := bind_done h
    cases r with
    | next y => exact ih _ _ _ _ h2
    | done y => cases h2; exact hb _ _ _ _ h1

theorem flowBody_post {cfg q m n x s a t} (h : loopM (flowBody cfg q m) n x s = (.ok a, t)) : t.src.peekz 0 ≠ 10 := by
  refine loop_post (P := fun t => t.src.peekz 0 ≠ 10) ?_ n x s a t h
  intro x s a t h
  unfold flowBody at h
  obtain ⟨_, _, _, h⟩ := bind_done h
  obtain ⟨_, _, _, h⟩ := bind_done h
  obtain ⟨_, _, _, h⟩ := bind_done h
  obtain ⟨_, _, _, h⟩ := bind_done h
  obtain ⟨_, _, _, h⟩ := bind_done h
  obtain ⟨_, _, _, h⟩ := bind_done h
  obtain ⟨_, _, _, h⟩ := bind_done h
  rw [peekz_bind, ite_run] at h
  split at h
  · rename_i hc
    cases h
    omega
  · obtain ⟨_, _, _, h⟩ := bind_done h
    cases h

theorem trailing_eq {m m'} {s s' : SSt} (h : Rel b l s s') (hm : MR l m m') : flowTrailingOk s' m' = flowTrailingOk s m := by
  unfold flowTrailingOk
  have e : (m'.line == s'.mark.line) = (m.line == s.mark.line) := by
    rw [h.line, hm.2, Bool.eq_iff_iff]; simp
  simp only [e, h.level]
  rcases h.peek0 with he | ⟨_, h1, h2⟩
  · rw [he]
  · rw [h1, h2]; rfl

theorem out_scanFlow {cfg : Cfg} {q} {s s' : SSt} (h : Rel b l s s') (he : s'.src.peekz 0 = s.src.peekz 0) : Out b l (TokR l) (scanFlowScalar cfg q s) (scanFlowScalar cfg q s') := by
  unfold scanFlowScalar
  simp only [getMark_bind]
  have hm := h.mark
  generalize s.mark = m at hm
  generalize s'.mark = m' at hm
  refine Out.bindE (out_skipNonBlank h he) fun _ s s' h => ?_
  refine Out.bind (out_flowBody h hm) fun p p' s s' e _ hp h => ?_
  subst hp
  refine Out.bindE (out_skipNonBlank h (h.eq0 (flowBody_post e))) fun _ s s' h => ?_
  refine Out.bindE (out_skipWsToEol h) fun _ s s' h => ?_
  simp only [gets_bind, getMark_bind, trailing_eq h hm]
  exact Out.failIf_bind h.mark fun _ => Out.ok ⟨rfl, hm, h.mark⟩ h

end Verif.Scanner
