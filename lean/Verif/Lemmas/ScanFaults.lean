import Verif.Lemmas.ScanLost
/-!
# Every mistake is refused

For each rule of `Verif.Spec.Faults`: fetching goes on to the mistake and fails there, or gets into a flow collection that is not closed.
-/
namespace Verif.Scanner
open Verif Verif.CharUtils Verif.Source Verif.Spec

/-! ## At the mistake -/

/-- `m` leaves the queue alone -/
def KeepT {α} (m : SM α) : Prop := ∀ s, (m s).2.tokens = s.tokens

theorem keepT_bind {α β} {m : SM α} {f : α → SM β} (hm : KeepT m) (hf : ∀ a, KeepT (f a)) : KeepT (m >>= f) := by
  intro s
  have h1 := hm s
  simp only [Bind.bind]
  rcases hx : m s with ⟨r, s1⟩
  rw [hx] at h1
  cases r with
  | ok a => exact (hf a s1).trans h1
  | err e => exact h1
  | panic => exact h1
  | hang => exact h1

theorem keepT_pure {α} {a : α} : KeepT (pure a) := fun _ => rfl

theorem keepT_ite {α} {c : Prop} [Decidable c] {m n : SM α} (hm : KeepT m) (hn : KeepT n) : KeepT (if c then m else n) := by
  split
  · exact hm
  · exact hn

theorem keepT_loop {σ α} {body : σ → SM (Loop σ α)} (h : ∀ x, KeepT (body x)) : ∀ n x, KeepT (loopM body n x)
  | 0, _ => fun _ => rfl
  | n + 1, x => by
    rw [loopM]
    refine keepT_bind (h x) fun r => ?_
    cases r with
    | next y => exact keepT_loop h n y
    | done a => exact keepT_pure

theorem keepT_skip {cfg} : KeepT (skipToNextToken cfg) := by
  refine keepT_loop (fun _ => ?_) _ _
  have hg : ∀ {α} {f : SSt → α}, KeepT (gets f) := fun _ => rfl
  have hw : ∀ a b, KeepT (skipWsToEol a b) := by
    intro a b s
    unfold skipWsToEol
    dsimp only
    split <;> rfl
  have hl : KeepT skipLinebreak := by
    intro s
    unfold skipLinebreak upd
    dsimp only
    split
    · rfl
    · split <;> rfl
  unfold skipToNextTokenBody
  refine keepT_bind hg fun c => keepT_bind hg fun t => keepT_ite ?_ (keepT_ite ?_ (keepT_ite ?_ (keepT_ite ?_ keepT_pure)))
  · refine keepT_bind (hw _ _) fun _ => keepT_bind hg fun _ => keepT_bind hg fun _ => keepT_bind ?_ fun _ => keepT_pure
    unfold failIf
    exact keepT_ite (fun _ => rfl) keepT_pure
  · exact keepT_bind (fun _ => rfl) fun _ => keepT_pure
  · refine keepT_bind hl fun _ => keepT_bind hg fun _ => keepT_bind ?_ fun _ => keepT_pure
    unfold when
    exact keepT_ite (fun _ => rfl) keepT_pure
  · exact keepT_bind (fun _ => rfl) fun _ => keepT_pure

/-- can be the next token: something, not white space, and not a document marker in the first column -/
structure Opening (c : Nat) (t : List Byte) : Prop where
  ne : t ≠ []
  head : TokenHead t
  mark : c = 1 → NotMarkL t

/-- no key is possible -/
def NoKey (s : SSt) : Prop := ∀ k ∈ s.simpleKeys, k.possible = false

/-- no end of the stream, and brackets in balance -/
def Clean (out : List TokenType) : Prop := .streamEnd ∉ out ∧ sqOf out = 0 ∧ brOf out = 0

theorem clean_nil : Clean [] := ⟨by simp, rfl, rfl⟩

theorem Clean.append {a b} (h : Clean a) (h' : Clean b) : Clean (a ++ b) :=
  ⟨by simp [h.1, h'.1], by rw [sqOf_append, h.2.1, h'.2.1]; rfl, by rw [brOf_append, h.2.2, h'.2.2]; rfl⟩

/-- after the tokens `out` fetching has failed, or goes on in a flow collection that is not closed -/
def Fails (out : List TokenType) (r : Res Unit × SSt) : Prop := Refuses r ∨ ∃ s', r = (.ok (), s') ∧ (Clean out → Runs s' → Open [] s')

/-- the scanner fails at the next token -/
theorem doom_here {cfg s out I i t c al} (h : Here cfg s out I i t c al) (ho : Opening c t) (hout : Clean out)
    (hr : ∀ s2, Pos s2 out I i t c al → (NoKey s → NoKey s2) → Fails out (fetchMain cfg s2)) : Lost cfg s := by
  obtain ⟨s1, s2, hp, e, hs, ⟨l, hl⟩, hk⟩ := fetch_hereK h ho.ne ho.mark
  have hk1 : s1.simpleKeys = s.simpleKeys := by
    have := kfull_skipToNextToken (cfg := cfg) s.simpleKeys s
    rw [hs] at this
    exact congrArg (fun x : Res Unit × SSt => x.2.simpleKeys) this
  have ht1 : s1.tokens = s.tokens := by
    have := keepT_skip (cfg := cfg) s
    rw [hs] at this
    exact this
  rcases hr s2 hp fun hn => hk (by rw [hk1]; exact hn) with hr | ⟨s', hr, hop⟩
  · refine .inl ⟨0, s, .refl, by rw [e]; exact hr, fun t ht hx => hout.1 ?_⟩
    rw [hl, types, ht1, ← hx]
    exact List.mem_append_left _ (List.mem_map_of_mem ht)
  · exact .inr ⟨1, s', .step (e.trans hr) .refl, hop hout⟩

/-- a node at column `c` fails -/
def NodeD (own : Bool) (c : Nat) (t : List Byte) : Prop :=
  ∀ {cfg s out I i i0 I0}, Here cfg s out I i t c own → (own = false → NoKey s) → BCtx I i i0 I0 → BlockTop I0 → (i0 = 0 → I = [] ∧ i = 0) → i0 < c →
    t.length < cfg.fuel → Clean out → Lost cfg s

/-- items or entries at column `c` fail -/
def PartD (tt : TokenType) (c : Nat) (t : List Byte) : Prop :=
  ∀ {cfg s out I i i0 I0 b}, Here cfg s out I i t c true → Opens I i i0 I0 c tt b → t.length < cfg.fuel → Clean out → Lost cfg s

/-- a mistake that is found at its first byte -/
theorem nodeD_of {own c t} (ho : Opening c t) (h : ∀ {cfg : Cfg} {s out I i}, Pos s out I i t c own → (own = false → NoKey s) → t.length < cfg.fuel → Fails out (fetchMain cfg s)) : NodeD own c t :=
  fun hh hk _ _ _ _ hf hout => doom_here hh ho hout fun _ hp hk' => h hp (fun ho => hk' (hk ho)) hf

/-! ## The kinds of mistakes -/

theorem bind_err {α β} {m : SM α} {f : α → SM β} {s s' : SSt} {e} (h : m s = (.err e, s')) : (m >>= f) s = (.err e, s') := by
  simp only [Bind.bind, h]

theorem opening_of {c : Nat} {b : Byte} {r : List Byte} (h : b ∉ bs!" \t\n\r#-.") (h0 : b ≠ 0) (hm : c = 1 → b ≠ 37) : Opening c (b :: r) := by
  simp at h
  refine ⟨by simp, ?_, fun h1 => other_notMark (hm h1) (by omega) (by omega)⟩
  intro d hd
  simp at hd
  omega

theorem refuses_err {α} {s : SSt} {m msg} (h : msg ≠ "block sequence entries are not allowed in this context") : Refuses (α := α) (.err (.scanner m msg), s) := by
  refine ⟨fun a s e => (by cases e), ?_⟩
  rintro ⟨⟨mk, e⟩, -⟩
  simp at e
  exact h e.2

theorem refuses_panic {α} {s : SSt} : Refuses (α := α) (.panic, s) := by
  refine ⟨fun a s e => (by cases e), ?_⟩
  rintro ⟨⟨mk, e⟩, -⟩
  cases e

theorem refuses_hang {α} {s : SSt} : Refuses (α := α) (.hang, s) := by
  refine ⟨fun a s e => (by cases e), ?_⟩
  rintro ⟨⟨mk, e⟩, -⟩
  cases e

theorem unexpected_refused {s : SSt} : Refuses (unexpectedChar s) := by
  unfold unexpectedChar getMark
  ev []
  split
  · exact refuses_panic
  · exact refuses_err (by decide)

theorem reserved_refused {cfg : Cfg} {s : SSt} {b r} (hr : s.src.rest = b :: r) (hb : b = 64 ∨ b = 96 ∨ b = 37) : Refuses (fetchMain cfg s) := by
  have h0 : s.src.peekz 0 = b := peekz_cons hr
  have : fetchMain cfg s = unexpectedChar s := by
    unfold fetchMain
    ev [h0]
    rcases hb with rfl | rfl | rfl <;> simp
  rw [this]
  exact unexpected_refused

theorem openQuote_refused {cfg : Cfg} {s : SSt} {single r} (hr : s.src.rest = (if single then 39 else 34) :: r) (h : Unclosed single r) : Refuses (fetchMain cfg s) := by
  have h0 : s.src.peekz 0 = if single then 39 else 34 := peekz_cons hr
  have : fetchMain cfg s = fetchFlowScalar cfg single s := by
    unfold fetchMain
    ev [h0]
    cases single <;> simp
  rw [this]
  exact (quote_refused h).refuses hr

theorem nameless_refused {cfg : Cfg} {s : SSt} {c r} (hr : s.src.rest = c :: r) (hc : c = 38 ∨ c = 42) (h : isAnchorChar (r.headD 0) = false) : Refuses (fetchMain cfg s) := by
  have h0 : s.src.peekz 0 = c := peekz_cons hr
  have : ∃ a, fetchMain cfg s = fetchAnchor cfg a s := by
    unfold fetchMain
    ev [h0]
    rcases hc with rfl | rfl
    · exact ⟨false, by simp⟩
    · exact ⟨true, by simp⟩
  obtain ⟨a, this⟩ := this
  rw [this]
  refine Tri.refuses (P := fun t => t = c :: r) ?_ hr
  unfold fetchAnchor scanAnchor saveSimpleKey setAllowed getMark
  refine tri_bind (Q := fun _ t => t = c :: r) (tri_upd fun s h => ?_) fun _ => tri_bind (Q := fun _ t => t = c :: r) (tri_upd fun s h => h) fun _ => ?_
  · split <;> exact h
  · refine tri_bind (Q := fun _ _ => False) ?_ fun _ => fun _ h => h.elim
    refine tri_bind tri_any fun m => tri_bind (Q := fun _ t => t = r) (tri_skipNonBlank fun t ht => by rw [ht]; rfl) fun _ => ?_
    intro s1 hs1
    have h1 : s1.src.peekz 0 = r.headD 0 := peekz_head hs1
    have hb : anchorBody [] s1 = (.ok (.done []), s1) := by
      unfold anchorBody
      ev [h1, h]
    cases hf : cfg.fuel with
    | zero => exact ⟨trivial, fun _ _ e => by cases e⟩
    | succ k =>
      have : loopM anchorBody (k + 1) [] s1 = (.ok [], s1) := loop_done hb
      rw [bind_run this]
      refine ⟨?_, fun a s' e => by cases e⟩
      show _ ≠ _
      decide

/-! ### Block scalars -/

theorem tri_failTrue {c m msg} {P : List Byte → Prop} (h : msg ≠ "block sequence entries are not allowed in this context") (hc : c = true) : Tri P (failIf c m msg) fun _ _ => False := by
  unfold failIf
  rw [if_pos hc]
  exact tri_fail h

/-- the next byte -/
theorem tri_peek {t : List Byte} : Tri (fun u => u = t) (peekz 0) fun c u => u = t ∧ c = t.headD 0 :=
  tri_gets fun s h => ⟨h, peekz_head h⟩

theorem tri_and {α} {φ : Prop} {P : List Byte → Prop} {m : SM α} {Q : α → List Byte → Prop} (h : φ → Tri P m Q) : Tri (fun u => P u ∧ φ) m Q := fun s hs => h hs.2 s hs.1

/-- seeing the next byte -/
theorem tri_look {α} {t : List Byte} {f : Byte → SM α} {Q : α → List Byte → Prop} (h : Tri (fun u => u = t) (f (t.headD 0)) Q) : Tri (fun u => u = t) (peekz 0 >>= f) Q :=
  tri_bind tri_peek fun c => tri_and fun hc => by rw [hc]; exact h

theorem tri_take {α} {b : Byte} {t : List Byte} {f : Unit → SM α} {Q : α → List Byte → Prop} (h : Tri (fun u => u = t) (f ()) Q) : Tri (fun u => u = b :: t) (skipNonBlank >>= f) Q :=
  tri_bind (Q := fun _ u => u = t) (tri_skipNonBlank fun r hr => by rw [hr]; rfl) fun _ => h

theorem chomp_sign {ch : Block.Chomp} {t : List Byte} (ht : t.headD 0 ≠ 43 ∧ t.headD 0 ≠ 45) : Tri (fun u => u = ch.sign ++ t) blockChomp fun _ u => u = t := by
  unfold blockChomp
  refine tri_look ?_
  cases ch with
  | strip => exact tri_take (b := 45) (tri_pure fun _ h => h)
  | keep => exact tri_take (b := 43) (tri_pure fun _ h => h)
  | clip =>
    show Tri _ (if t.headD 0 = 43 then _ else if t.headD 0 = 45 then _ else _) _
    rw [if_neg ht.1, if_neg ht.2]
    exact tri_pure fun _ h => h

theorem increment_digit {d : Option Nat} {w t : List Byte} {start} (hd : Block.Digit d w) (ht : isAsciiDigit (t.headD 0) = false) :
    Tri (fun u => u = w ++ t) (blockIncrement start) fun n u => u = t ∧ (n = 0 ↔ w = []) := by
  unfold blockIncrement
  refine tri_look ?_
  cases hd with
  | none =>
    show Tri _ (if isAsciiDigit (t.headD 0) = true then _ else _) _
    rw [ht]
    exact tri_pure fun _ h => ⟨h, by simp⟩
  | @some d h1 h2 =>
    have h3 : isAsciiDigit (48 + d) = true := by simp [isAsciiDigit]; omega
    have h4 : (48 + d == 48) = false := by simp; omega
    show Tri _ (if isAsciiDigit (48 + d) = true then _ else _) _
    rw [if_pos h3]
    show Tri _ (failIf (48 + d == 48) start _ >>= _) _
    rw [h4]
    refine tri_bind (Q := fun _ u => u = (48 + d) :: t) (tri_pure fun _ h => h) fun _ => ?_
    exact tri_take (b := 48 + d) (tri_pure fun _ h => ⟨h, by simp; omega⟩)

theorem header_read {ch : Block.Chomp} {d : Option Nat} {h t : List Byte} {start} (hh : Block.Header ch d h) (hs : t.headD 0 ≠ 43 ∧ t.headD 0 ≠ 45) (hd : isAsciiDigit (t.headD 0) = false) :
    Tri (fun u => u = h ++ t) (blockHeader start) fun _ u => u = t := by
  obtain ⟨w, hw, hh⟩ := hh
  unfold blockHeader
  refine tri_look ?_
  by_cases hsign : ∃ r, h = ch.sign ++ r ∧ ch.sign ≠ [] ∧ r = w
  · obtain ⟨r, rfl, hne, rfl⟩ := hsign
    have hx : ((ch.sign ++ r) ++ t).headD 0 = 43 ∨ ((ch.sign ++ r) ++ t).headD 0 = 45 := by cases ch <;> simp [Block.Chomp.sign] at hne ⊢
    rw [if_pos hx]
    have hr : (r ++ t).headD 0 ≠ 43 ∧ (r ++ t).headD 0 ≠ 45 := by
      cases hw with
      | none => exact hs
      | some h1 h2 => simp; omega
    rw [List.append_assoc]
    exact tri_bind (chomp_sign hr) fun _ => tri_bind (increment_digit hw hd) fun _ => tri_pure fun _ h => h.1
  · have hwt : h = w ++ ch.sign := by
      rcases hh with hh | hh
      · by_cases hc : ch.sign = []
        · rw [hh, hc]; simp
        · exact absurd ⟨w, hh, hc, rfl⟩ hsign
      · exact hh
    have hx : ¬ ((h ++ t).headD 0 = 43 ∨ (h ++ t).headD 0 = 45) := by
      cases hw with
      | none =>
        simp at hwt
        have hc : ch.sign = [] := Classical.byContradiction fun hc => hsign ⟨[], by simp [hwt], hc, rfl⟩
        rw [hwt, hc]
        rintro (hx | hx)
        · exact hs.1 hx
        · exact hs.2 hx
      | some h1 h2 => rw [hwt]; simp; omega
    rw [if_neg hx, hwt, List.append_assoc]
    have hcd : isAsciiDigit ((ch.sign ++ t).headD 0) = false := by
      cases ch with
      | clip => exact hd
      | strip => rfl
      | keep => rfl
    refine tri_bind (increment_digit hw hcd) fun n => tri_and fun hn => ?_
    by_cases h0 : n = 0
    · rw [if_pos h0]
      refine tri_pure fun u hu => ?_
      rw [hn] at h0
      subst h0
      simp at hwt
      have hc : ch.sign = [] := Classical.byContradiction fun hc => hsign ⟨[], by simp [hwt], hc, rfl⟩
      rw [hu, hc]; rfl
    · rw [if_neg h0]
      exact tri_bind (chomp_sign hs) fun _ => tri_pure fun _ h => h

theorem header_zero {s r : List Byte} {start} (hs : s = [] ∨ s = [45] ∨ s = [43]) : Tri (fun u => u = s ++ 48 :: r) (blockHeader start) fun _ _ => False := by
  have hz : ∀ start, Tri (fun u => u = 48 :: r) (blockIncrement start) fun _ _ => False := by
    intro start
    unfold blockIncrement
    refine tri_look ?_
    exact tri_bind (tri_failTrue (by decide) rfl) fun _ => fun _ h => h.elim
  unfold blockHeader
  refine tri_look ?_
  rcases hs with rfl | rfl | rfl
  · exact tri_bind (hz _) fun _ => fun _ h => h.elim
  · exact tri_bind (chomp_sign (ch := .strip) (t := 48 :: r) (by simp)) fun _ => tri_bind (hz _) fun _ => fun _ h => h.elim
  · exact tri_bind (chomp_sign (ch := .keep) (t := 48 :: r) (by simp)) fun _ => tri_bind (hz _) fun _ => fun _ h => h.elim

/-- blanks, up to something that is neither white space nor a comment -/
theorem tri_ws {j : Nat} {b : Byte} {r : List Byte} {x} (hb : b ≠ 32 ∧ b ≠ 9 ∧ b ≠ 35) : Tri (fun u => u = Block.spaces j ++ b :: r) (skipWsToEol true x) fun _ u => u = b :: r := by
  intro s hs
  have hw : wsToEol true s.src.rest false x = (j, .ok (false, x || decide (1 ≤ j))) := by
    rw [hs, Block.spaces, ws_spaces]
    simp [wsToEol, hb]
  unfold skipWsToEol Src.skipWsToEol
  rw [hw]
  refine ⟨trivial, fun a s' e => ?_⟩
  cases e
  show (s.src.skip j).rest = _
  rw [rest_skip, hs]
  simp [Block.spaces]

theorem scroll_refused {cfg : Cfg} {s : SSt} {c h r} (hr : s.src.rest = c :: (h ++ r)) (hc : c = 124 ∨ c = 62) (hl : s.flowLevel = 0)
    (hh : ∀ start, Tri (fun u => u = h ++ r) (blockHeader start) fun _ _ => False) : Refuses (fetchMain cfg s) := by
  have h0 : s.src.peekz 0 = c := peekz_cons hr
  have : ∃ a, fetchMain cfg s = fetchBlockScalar cfg a s := by
    unfold fetchMain
    ev [h0, hl]
    rcases hc with rfl | rfl
    · exact ⟨true, by simp⟩
    · exact ⟨false, by simp⟩
  obtain ⟨a, this⟩ := this
  rw [this]
  refine Tri.refuses (P := fun t => t = c :: (h ++ r)) ?_ hr
  unfold fetchBlockScalar scanBlockScalar saveSimpleKey setAllowed getMark unrollNonBlockIndents
  refine tri_bind (Q := fun _ t => t = c :: (h ++ r)) (tri_upd fun s h => ?_) fun _ => tri_bind (Q := fun _ t => t = c :: (h ++ r)) (tri_upd fun s h => h) fun _ => ?_
  · split <;> exact h
  refine tri_bind tri_any fun m => tri_take ?_
  refine tri_bind (Q := fun _ t => t = h ++ r) (tri_upd fun s h => h) fun _ => tri_bind (hh m) fun _ => fun _ h => h.elim

theorem header_refused {cfg : Cfg} {s : SSt} {c h j b r} {ch : Block.Chomp} {d : Option Nat} (hr : s.src.rest = c :: (h ++ (Block.spaces j ++ b :: r))) (hc : c = 124 ∨ c = 62) (hl : s.flowLevel = 0)
    (hh : Block.Header ch d h) (hb : b ∉ bs!" \t\n\r#") (h0' : b ≠ 0) (hj : j = 0 → b ∉ bs!"0123456789+-") : Refuses (fetchMain cfg s) := by
  have h0 : s.src.peekz 0 = c := peekz_cons hr
  have : ∃ a, fetchMain cfg s = fetchBlockScalar cfg a s := by
    unfold fetchMain
    ev [h0, hl]
    rcases hc with rfl | rfl
    · exact ⟨true, by simp⟩
    · exact ⟨false, by simp⟩
  obtain ⟨a, this⟩ := this
  rw [this]
  generalize hT : Block.spaces j ++ b :: r = T at hr
  have hT' : (T.headD 0 ≠ 43 ∧ T.headD 0 ≠ 45) ∧ isAsciiDigit (T.headD 0) = false := by
    rw [← hT]
    cases j with
    | succ j => exact ⟨⟨by simp [Block.spaces, List.replicate_succ], by simp [Block.spaces, List.replicate_succ]⟩, by simp [Block.spaces, List.replicate_succ, isAsciiDigit]⟩
    | zero =>
      have := hj rfl
      simp at this
      simp [Block.spaces, isAsciiDigit]
      omega
  refine Tri.refuses (P := fun t => t = c :: (h ++ T)) ?_ hr
  unfold fetchBlockScalar scanBlockScalar saveSimpleKey setAllowed getMark unrollNonBlockIndents
  refine tri_bind (Q := fun _ t => t = c :: (h ++ T)) (tri_upd fun s h => ?_) fun _ => tri_bind (Q := fun _ t => t = c :: (h ++ T)) (tri_upd fun s h => h) fun _ => ?_
  · split <;> exact h
  refine tri_bind tri_any fun m => tri_take ?_
  refine tri_bind (Q := fun _ t => t = h ++ T) (tri_upd fun s h => h) fun _ => tri_bind (header_read hh hT'.1 hT'.2) fun _ => ?_
  rw [← hT]
  simp at hb
  refine tri_bind (tri_ws ⟨by omega, by omega, by omega⟩) fun _ => tri_look ?_
  refine tri_bind (tri_failTrue (by decide) ?_) fun _ => fun _ h => h.elim
  simp [isBreakz]
  omega
/-! ### After a quoted scalar -/

theorem unanchored {s : SSt} {out I i rest c al} (hp : Pos s out I i rest c al) : anchoredEntry s = false := by
  unfold anchoredEntry
  cases hl : s.tokens.getLast? with
  | none => rfl
  | some t =>
    have hnp := hp.np _ hl
    obtain ⟨sp, tt⟩ := t
    have : isProp tt = true → (s.mark.col == 1 && sp.start.col == 1 && decide (s.indent > 0)) = false := by
      intro hpr
      rw [hp.col, hp.indent]
      by_cases h1 : sp.start.col = 1
      case neg => simp [h1]
      rcases hnp hpr h1 with h | h
      · simp [h]
      · simp [h]
    cases tt <;> first | rfl | exact this rfl

theorem afterQuote_refused {cfg : Cfg} {s : SSt} {out I i c al single m v j b r} {qt : Byte} (h : Pos s out I i (qt :: (m ++ qt :: (Block.spaces j ++ b :: r))) c al)
    (hqt : qt = if single then 39 else 34) (hm : QFlow single 0 m v) (hn : ∀ b ∈ m, b ≠ 10) (hb : b ∉ bs!" \t\n\r:#") (hb0 : b ≠ 0) (h39 : single = true → b ≠ 39)
    (h1 : 1 ≤ c) (hf : (qt :: (m ++ qt :: (Block.spaces j ++ b :: r))).length < cfg.fuel) : Refuses (fetchMain cfg s) := by
  have h0 : s.src.peekz 0 = qt := peekz_cons h.rest
  have hfm : fetchMain cfg s = fetchFlowScalar cfg single s := by
    unfold fetchMain
    ev [h0]
    cases single <;> simp at hqt <;> subst hqt <;> simp
  have hq10 : qt ≠ 10 := by rw [hqt]; split <;> decide
  rw [hfm]
  unfold fetchFlowScalar setAllowed
  rw [bind_run (save_run s)]
  ev []
  generalize hA : ({ s with simpleKeys := savedKeys s, simpleKeyAllowed := false } : SSt) = sC
  have c1 : sC.flowLevel = 0 := by rw [← hA]; exact h.calm.level
  have c2 : sC.mark = s.mark := by rw [← hA]
  have c3 : sC.src = s.src := by rw [← hA]
  have c4 : sC.indent = i := by rw [← hA]; exact h.indent
  have hrest : sC.src.rest = qt :: (m ++ qt :: (Block.spaces j ++ b :: r)) := by rw [c3, h.rest]
  have hcol : (pass sC [qt] false).mark.col = c + 1 := by simp [pass, gapMark, hq10, c2, h.col]
  have hlow := h.low
  have hhead : single = true → (Block.spaces j ++ b :: r).head? ≠ some 39 := by
    intro hs hx
    cases j with
    | zero => simp [Block.spaces] at hx; exact h39 hs hx
    | succ j => simp [Block.spaces, List.replicate_succ] at hx
  obtain ⟨l, p', hl, -⟩ := qflow_run (cfg := cfg) (start := sC.mark) hhead hqt (hm.oneLine (b := sC.indent) hn) (k := cfg.fuel) (s := pass sC [qt] false) (str := []) (lb := false)
    (pass_rest (a := [qt]) (by rw [hrest]; simp)) (by simp at hf; omega) (by simp at hf; omega) (by omega)
    (by rw [hcol]; show sC.indent ≤ _; rw [c4]; omega) (Nat.le_refl _) (fun hx => by omega)
  have e2 : skipNonBlank (pass (pass sC [qt] false) m l) = (.ok (), pass sC (qt :: (m ++ [qt])) false) := by
    rw [skipNonBlank_pass (b := qt) hq10, pass_pass, pass_pass]
    simp
  generalize hS : pass sC (qt :: (m ++ [qt])) false = S at e2
  have s1 : S.src.rest = Block.spaces j ++ b :: r := by rw [← hS]; exact pass_rest (by simpa using hrest)
  have s2 : S.flowLevel = 0 := by rw [← hS]; exact c1
  simp at hb
  have hw : wsToEol true S.src.rest false false = (j, .ok (false, false || decide (1 ≤ j))) := by
    rw [s1, Block.spaces, ws_spaces]
    simp [wsToEol, hb]
  obtain ⟨r', T, e3, t1, t2⟩ : ∃ r' T, skipWsToEol true false S = (.ok r', T) ∧ T.src.rest = b :: r ∧ T.flowLevel = 0 := by
    unfold skipWsToEol Src.skipWsToEol
    rw [hw]
    refine ⟨_, _, rfl, ?_, s2⟩
    show (S.src.skip j).rest = _
    rw [rest_skip, s1]
    simp [Block.spaces]
  have hbad : flowTrailingOk T sC.mark = false := by
    have : T.src.peekz 0 = b := peekz_cons t1
    unfold flowTrailingOk
    simp [this, t2, isBreakz, isBreak]
    omega
  have : scanFlowScalar cfg single sC = (.err (.scanner T.mark "invalid trailing content after double-quoted scalar"), T) := by
    unfold scanFlowScalar
    ev []
    rw [bind_run (skipNonBlank_pass hq10), bind_run hl, bind_run e2, bind_run e3]
    ev [hbad, Bool.not_false]
    rfl
  rw [bind_err this]
  exact refuses_err (by decide)

/-! ### On a line where a key has been -/

theorem dash_refused {cfg : Cfg} {s : SSt} {out I i c r} (h : Pos s out I i (45 :: r) c false) (hr : Faults.Blank r) : Refuses (fetchMain cfg s) := by
  have h0 : s.src.peekz 0 = 45 := peekz_cons h.rest
  have h1 : isBlankOrBreakz (s.src.peekz 1) = true := by
    rcases hr with rfl | ⟨b, r', rfl, rfl | rfl⟩ <;> simp [Src.peekz, h.rest, isBlankOrBreakz, isBlank, isBreak]
  have em : fetchMain cfg s = fetchBlockEntry s := by
    unfold fetchMain
    ev [h0, h1]
    simp
  have hfl : decide (s.flowLevel > 0) = false := by simp [h.calm.level]
  have : fetchBlockEntry s = (.err (.scanner s.mark "block sequence entries are not allowed in this context"), s) := by
    unfold fetchBlockEntry
    ev [hfl, h.al, Bool.not_false]
    rfl
  rw [em, this]
  refine ⟨fun a s e => (by cases e), ?_⟩
  rintro ⟨-, e⟩
  rw [unanchored h] at e
  cases e

theorem question_refused {cfg : Cfg} {s : SSt} {out I i c r} (h : Pos s out I i (63 :: r) c false) (hr : Faults.Blank r) : Refuses (fetchMain cfg s) := by
  have h0 : s.src.peekz 0 = 63 := peekz_cons h.rest
  have h1 : isBlankOrBreakz (s.src.peekz 1) = true := by
    rcases hr with rfl | ⟨b, r', rfl, rfl | rfl⟩ <;> simp [Src.peekz, h.rest, isBlankOrBreakz, isBlank, isBreak]
  have em : fetchMain cfg s = fetchKey cfg s := by
    unfold fetchMain
    ev [h0, h1]
    simp
  have hfl : s.flowLevel = 0 := h.calm.level
  have : fetchKeyStart s.mark s = (.err (.scanner s.mark "mapping keys are not allowed in this context"), s) := by
    unfold fetchKeyStart
    ev [hfl, h.al, Bool.not_false]
    rfl
  rw [em]
  unfold fetchKey
  rw [getMark_bind, bind_err this]
  exact refuses_err (by decide)

theorem colon_after {k tok} {j : Nat} {r : List Byte} (_ : LeafText k tok) (hr : Faults.Blank r) (i : Nat) : AfterL (Block.spaces j) (58 :: r) i := by
  have hsp10 : (Block.spaces j).contains 10 = false := contains_false.2 fun x hx => by rw [spaces_mem x hx]; decide
  refine ⟨?_, by simp [TokenHead], ?_, .inr (.inl ⟨hsp10, _, rfl, hr⟩)⟩
  · have := Lay.append (a := Block.spaces j) (w := []) (q := 58 :: r) .nil (fun b hb => .inl (spaces_mem b hb))
    simpa using this
  · cases j with
    | zero => simp [Block.spaces]
    | succ j => rw [Block.spaces, List.replicate_succ]; simp

/-- a second key on a line -/
theorem colonD {k tok c j r} (hk : LeafText k tok) (hr : Faults.Blank r) (h1 : 1 ≤ c) : NodeD false c (k ++ (Block.spaces j ++ 58 :: r)) := by
  intro cfg s out I i i0 I0 hh hnk hx hb _ hi hf hout
  have ha : ∀ i, AfterL (Block.spaces j) (58 :: r) i := colon_after hk hr
  obtain ⟨s1, s2, hp, e, hs, ⟨l, hl⟩, hkeys⟩ := fetch_hereK hh (by simp) fun _ => hk.notMark (ha 0).pend
  have hk1 : s1.simpleKeys = s.simpleKeys := by
    have := kfull_skipToNextToken (cfg := cfg) s.simpleKeys s
    rw [hs] at this
    exact congrArg (fun x : Res Unit × SSt => x.2.simpleKeys) this
  have hn2 : NoKey s2 := hkeys (by rw [hk1]; exact hnk rfl)
  obtain ⟨s3, w1, w2, e3, hws, rd⟩ := leaf_read (w := Block.spaces j) (q := 58 :: r) hp hk hx hb (by omega) h1 (ha _) hf
  have hskip : skipToNextToken cfg s3 = (.ok (), gap s3 w2) :=
    lay_run rd.lay (by simp [TokenHead]) rd.rest (by have := lay_len hws; simp at hf; omega) rd.calm.level
  have hpos : 0 < k.length := by rw [List.length_pos_iff]; exact hk.ne
  have hw10 : ∀ w : List Byte, (∀ x ∈ w, x = 32) → w.contains 10 = false := fun w hw => contains_false.2 fun x hx => by rw [hw x hx]; decide
  have hsp : ∀ x ∈ w1 ++ w2, x = 32 := by rw [← hws]; exact spaces_mem
  generalize hs3 : gap s3 w2 = s4 at hskip
  have hr4 : s4.src.rest = 58 :: r := by rw [← hs3]; exact gap_rest rd.rest
  have hk4 : s4.simpleKeys = s2.simpleKeys := by
    rw [← hs3]; show s3.simpleKeys = _; rw [rd.keys]; simp [savedKeys, hp.al]
  have hm4 : s4.mark = ⟨s2.mark.pos + k.length + j, s2.mark.col + k.length + j, s2.mark.line⟩ := by
    rw [← hs3]; show gapMark s3.mark w2 = _
    rw [rd.mark, ← gapMark_append, ← hws, gapMark_flat _ _ (contains_false.1 (hw10 _ spaces_mem)), spaces_len]
  have hctx4 : BCtx s4.indents s4.indent i0 I0 := by rw [← hs3]; exact rd.ctx
  have hl4 : s4.flowLevel = 0 := by rw [← hs3]; exact rd.calm.level
  have himp : (!s4.implicitFlowMappingStates.isEmpty && !s4.flowMappingStarted) = false := by
    have : s4.implicitFlowMappingStates = [] := by rw [← hs3]; exact rd.calm.impl
    rw [this]; rfl
  have hal4 : s4.simpleKeyAllowed = false := by
    rw [← hs3]
    show (s3.simpleKeyAllowed || w2.contains 10) = false
    rw [rd.al, hw10 w1 fun x hx => hsp x (by simp [hx]), hw10 w2 fun x hx => hsp x (by simp [hx])]
    rfl
  have hnn : ∀ k ∈ s4.simpleKeys, isStale s4 k = false := by
    intro k hk
    rw [hk4] at hk
    simp [isStale, hn2 k hk]
  have einl := fetch_inlineL (cfg := cfg) (q := 58 :: r) hskip rd.calm.started (by simp) hr4 hl4 hnn
    (by rw [hm4]; show s2.mark.col + k.length + j ≠ 1; rw [hp.col]; omega)
    (by have := hctx4.le; rw [hm4]; show s4.indent ≤ s2.mark.col + k.length + j; rw [hp.col]; omega)
  obtain ⟨k', hk', -⟩ := hp.keys
  have hk'' : k'.possible = false := hn2 k' (by rw [hk']; simp)
  have efin : ∃ mk T, fetchMain cfg s4 = (.err (.scanner mk "mapping values are not allowed in this context"), T) := by
    rw [fetchMain_colonL hr4 hr]
    have hal5 : (on s4 1).simpleKeyAllowed = false := hal4
    have hl5 : (on s4 1).flowLevel = 0 := hl4
    have hv : valueAfterKey k' s4.mark false (on s4 1) = (.err (.scanner s4.mark "mapping values are not allowed in this context"), on s4 1) := by
      unfold valueAfterKey valueAfterComplexKey
      rw [hk'']
      ev [hl5]
      refine bind_err ?_
      show (do
        let allowed ← gets (·.simpleKeyAllowed)
        failIf (!allowed) s4.mark "mapping values are not allowed in this context"
        rollIndent s4.mark.col none .blockMappingStart s4.mark) (on s4 1) = _
      rw [gets_bind, hal5]
      rfl
    refine ⟨s4.mark, on s4 1, ?_⟩
    unfold fetchValue
    rw [gets_bind, hk4, hk']
    show (do
      let start ← getMark
      _) s4 = _
    ev [himp]
    rw [bind_run (skipColon_lay hr4 hr), bind_err hv]
  obtain ⟨mk, T, efin⟩ := efin
  obtain ⟨sp, ht3⟩ := rd.toks
  refine .inl ⟨1, s3, .step (e.trans e3) .refl, ?_, fun t ht hx => ?_⟩
  · rw [einl, efin]
    exact refuses_err (by decide)
  · rw [ht3] at ht
    rcases List.mem_append.1 ht with ht | ht
    · exact hout.1 (by rw [← hp.toks, types, ← hx]; exact List.mem_map_of_mem ht)
    · simp at ht
      subst ht
      cases hk <;> cases hx

/-! ### A line without a colon -/

theorem noColonD {k tok n g q c' cfg s out I0 i0} (hk : LeafText k tok) (he : EndL g q c' (n + 1)) (hh : Here cfg s out (⟨i0, true⟩ :: I0) (n + 1) (k ++ (g ++ q)) (n + 1) true)
    (hf : (k ++ (g ++ q)).length < cfg.fuel) (hout : Clean out) : Lost cfg s := by
  have ha := he.after
  obtain ⟨s2, hp, e⟩ := fetch_hereL hh (by simp [hk.ne]) fun _ => hk.notMark ha.pend
  obtain ⟨s3, w1, w2, e3, hws, rd⟩ := leaf_read (w := g) (q := q) (i0 := n + 1) (I0 := ⟨i0, true⟩ :: I0) hp hk (.inl ⟨rfl, rfl⟩) (.inr ⟨_, _, rfl⟩) (by omega) (by omega) ha hf
  have hskip : skipToNextToken cfg s3 = (.ok (), gap s3 w2) :=
    lay_run rd.lay ha.head rd.rest (by have := lay_len hws; simp at hf; omega) rd.calm.level
  obtain ⟨sp, ht3⟩ := rd.toks
  refine .inl ⟨1, s3, .step (e.trans e3) .refl, ?_, fun t ht hx => ?_⟩
  case refine_2 =>
    rw [ht3] at ht
    rcases List.mem_append.1 ht with ht | ht
    · exact hout.1 (by rw [← hp.toks, types, ← hx]; exact List.mem_map_of_mem ht)
    · simp at ht
      subst ht
      cases hk <;> cases hx
  have hpos : 0 < k.length := by rw [List.length_pos_iff]; exact hk.ne
  generalize hs4 : gap s3 w2 = s4 at hskip
  have hk4 : s4.simpleKeys = [keyHere s2] := by
    obtain ⟨k, hk, -⟩ := hp.keys
    rw [← hs4]; show s3.simpleKeys = _; rw [rd.keys]; simp [savedKeys, hp.al, hk]
  have hl4 : s4.flowLevel = 0 := by rw [← hs4]; exact rd.calm.level
  have hctx4 : BCtx s4.indents s4.indent (n + 1) (⟨i0, true⟩ :: I0) := by rw [← hs4]; exact rd.ctx
  have hr4 : s4.src.rest = q := by rw [← hs4]; exact gap_rest rd.rest
  have hreq : (keyHere s2).required = true := by simp [keyHere, hp.calm.level, hp.indent, hp.col, hp.indents]
  have hm4 : s4.mark = gapMark ⟨s2.mark.pos + k.length, s2.mark.col + k.length, s2.mark.line⟩ g := by
    rw [← hs4]; show gapMark s3.mark w2 = _
    rw [rd.mark, ← gapMark_append, ← hws]
  unfold fetchNextToken
  rw [gets_bind, if_pos rd.calm.started, bind_run hskip]
  by_cases hst : isStale s4 (keyHere s2) = true
  · have : staleSimpleKeys s4 = (.err (.scanner s4.mark "simple key expect ':'"), s4) := by
      unfold staleSimpleKeys
      rw [hk4]
      simp [hst, hreq]
    rw [bind_err this]
    exact refuses_err (by decide)
  · have hst' : isStale s4 (keyHere s2) = false := by simpa using hst
    have hg : g.contains 10 = false := by
      cases hg : g.contains 10 with
      | false => rfl
      | true =>
        have hlt := gapMark_lt ⟨s2.mark.pos + k.length, s2.mark.col + k.length, s2.mark.line⟩ g hg
        rw [← hm4] at hlt
        have hlt' : s2.mark.line < s4.mark.line := hlt
        have : isStale s4 (keyHere s2) = true := by simp [isStale, hl4, keyHere, hlt']
        exact absurd this hst
    have hq : q = [] := by
      obtain ⟨-, -, -, hq⟩ := he
      rcases hq with hq | ⟨hx, -⟩
      · exact hq
      · rw [hg] at hx; cases hx
    subst hq
    rw [gapMark_flat _ _ (contains_false.1 hg)] at hm4
    have hs : staleSimpleKeys s4 = (.ok (), s4) := by
      rw [stale_run (fun k' h' hx => by rw [hk4] at h'; simp at h'; subst h'; rw [hst'] at hx; cases hx)]
      rw [hk4]
      simp [hst']
      rw [← hk4]
    have hu : unrollIndent s4.mark.col s4 = (.ok (), s4) := by
      unfold unrollIndent
      rw [if_neg (by omega), unroll_ok (by have := hctx4.le; rw [hm4]; show s4.indent ≤ s2.mark.col + k.length + g.length; rw [hp.col]; omega)]
      simp
    rw [bind_run hs, getMark_bind, bind_run hu, atEof_bind]
    have hemp : s4.src.bufIsEmpty = true := by simp [Src.bufIsEmpty, hr4]
    rw [hemp, if_pos rfl]
    have : ∃ mk T, fetchStreamEnd s4 = (.err (.scanner mk "simple key expected"), T) := by
      unfold fetchStreamEnd
      have hbad : (s4.simpleKeys.any fun k => k.required && k.possible) = true := by
        have : (keyHere s2).possible = true := rfl
        rw [hk4]; simp [hreq, this]
      have hcol : s4.mark.col ≠ 0 := by rw [hm4]; show s2.mark.col + k.length + g.length ≠ 0; omega
      rw [upd_bind, if_pos hcol]
      rw [getMark_bind, gets_bind]
      refine ⟨⟨s4.mark.pos, 1, s4.mark.line + 1⟩, { s4 with mark := ⟨s4.mark.pos, 1, s4.mark.line + 1⟩ }, bind_err ?_⟩
      show failIf (s4.simpleKeys.any fun k => k.required && k.possible) _ _ _ = _
      rw [hbad]
      rfl
    obtain ⟨mk, T, this⟩ := this
    rw [this]
    exact refuses_err (by decide)

/-! ## All mistakes -/

variable {F : Type}

/-- whatever the place is -/
def AtOnce (c : Nat) (t : List Byte) : Prop := ∀ {cfg : Cfg} {s out I i al}, Pos s out I i t c al → t.length < cfg.fuel → Fails out (fetchMain cfg s)

theorem noFlat {m : List Byte} (h : 10 ∉ m) : ∀ b ∈ m, b ≠ 10 := by
  rintro b hb rfl
  exact h hb

theorem wsToEol_error {t msg} : ∀ u a w, (wsToEol t u a w).2 = .error msg → msg = "comments must be separated from other tokens by whitespace"
  | [], a, w, h => by cases h
  | c :: r, a, w, h => by
    rw [wsToEol] at h
    split at h
    · exact wsToEol_error r _ _ h
    · split at h
      · exact wsToEol_error r _ _ h
      · split at h
        · split at h
          · cases h; rfl
          · cases h
        · cases h

theorem flowStart_cases {tt s} : (∃ s', fetchFlowStart tt s = (.ok (), s')) ∨
    ∃ m s', fetchFlowStart tt s = (.err (.scanner m "comments must be separated from other tokens by whitespace"), s') := by
  have hn : ∃ f, noteFlowStart tt = upd f := by
    unfold noteFlowStart
    split <;> exact ⟨_, rfl⟩
  obtain ⟨f, hn⟩ := hn
  unfold fetchFlowStart
  rw [hn]
  unfold saveSimpleKey rollOneColIndent increaseFlowLevel setAllowed skipNonBlank
  rw [upd_bind, upd_bind, upd_bind, upd_bind, getMark_bind, upd_bind, upd_bind]
  generalize f _ = s9
  rcases hw : skipWsToEol true false s9 with ⟨r, s10⟩
  unfold skipWsToEol at hw
  dsimp only at hw
  split at hw
  · rename_i x hx
    cases hw
    left
    exact ⟨_, by rw [bind_run (show skipWsToEol true false s9 = (.ok x, _) by unfold skipWsToEol; dsimp only; rw [hx])]; rfl⟩
  · rename_i msg hx
    right
    cases hw
    have := wsToEol_error _ _ _ hx
    subst this
    exact ⟨_, _, bind_err (by unfold skipWsToEol; dsimp only; rw [hx])⟩

/-- an opening bracket -/
theorem brackets_fail {cfg s out I i c r col al} (hp : Pos s out I i (c :: r) col al) (hc : c = 91 ∨ c = 123) (hu : Faults.unclosed (c :: r) .start 0 0 = true) : Fails out (fetchMain cfg s) := by
  have hpc : s.src.peekz 0 = c := by unfold Src.peekz; rw [hp.rest]; rfl
  have h0 := unclosed_clean (.inl rfl) hu
  have hmain : fetchMain cfg s = fetchFlowStart (if c = 91 then .flowSequenceStart else .flowMappingStart) s := by
    unfold fetchMain
    rw [peekz_bind, peekz_bind, gets_bind, gets_bind, hpc]
    rcases hc with rfl | rfl <;> rfl
  by_cases hok : ∃ s', fetchMain cfg s = (.ok (), s')
  · right
    obtain ⟨s', e⟩ := hok
    refine ⟨s', e, fun hcl hru => ?_⟩
    rw [hmain] at e
    obtain ⟨h1, h2, h3, h4, h5⟩ := flowStart_ok e
    have hto : typesOf s = out := hp.toks
    rw [hp.calm.impl] at h4
    have h4 : insideOf s'.implicitFlowMappingStates = 0 := h4
    rw [hp.calm.level] at h2
    rw [hp.rest] at h5
    rw [hto] at h1
    rw [unclosed_plain (.inl rfl), if_neg (by simpa [not_or] using h0)] at hu
    rcases hc with rfl | rfl
    · have hu : Faults.unclosed r .start 1 0 = true := hu
      refine .flow (sa := 1) (b := 0) ⟨?_, ?_, ?_, by rw [h2]; rfl, by omega, hru, fun ho => ho.elim⟩ (.inl (by rw [h5]; exact ws_drop wsl_start.toWsp _ _ _ hu))
      · rw [h1]; simp [hcl.1]
      · rw [h1, List.nil_append, sqOf_append, hcl.2.1]; decide
      · rw [h1, List.nil_append, brOf_append, hcl.2.2, h4]; decide
    · have hu : Faults.unclosed r .start 0 1 = true := hu
      refine .flow (sa := 0) (b := 1) ⟨?_, ?_, ?_, by rw [h2]; rfl, by omega, hru, fun ho => ho.elim⟩ (.inl (by rw [h5]; exact ws_drop wsl_start.toWsp _ _ _ hu))
      · rw [h1]; simp [hcl.1]
      · rw [h1, List.nil_append, sqOf_append, hcl.2.1]; decide
      · rw [h1, List.nil_append, brOf_append, hcl.2.2, h4]; decide
  · left
    rcases flowStart_cases (tt := if c = 91 then .flowSequenceStart else .flowMappingStart) (s := s) with ⟨s', e⟩ | ⟨mk, s', e⟩
    · exact absurd ⟨s', hmain.trans e⟩ hok
    · rw [hmain, e]
      exact refuses_err (by decide)

theorem fault_refused {fo : FloatOps F} {n own t} (h : Faults.Fault false fo n own t) : Opening (n + 1) t ∧ (AtOnce (n + 1) t ∨ (own = false ∧ NodeD false (n + 1) t)) := by
  cases h with
  | reserved hb =>
    simp at hb
    exact ⟨opening_of (by simp; omega) (by omega) (by omega), .inl fun hp _ => .inl (reserved_refused hp.rest (by omega))⟩
  | percent hn => exact ⟨opening_of (by simp) (by omega) (by omega), .inl fun hp _ => .inl (reserved_refused hp.rest (by omega))⟩
  | double hr => exact ⟨opening_of (by simp) (by omega) (by omega), .inl fun hp _ => .inl (openQuote_refused (single := false) hp.rest hr)⟩
  | single hr => exact ⟨opening_of (by simp) (by omega) (by omega), .inl fun hp _ => .inl (openQuote_refused (single := true) hp.rest hr)⟩
  | afterDouble hw hn hb h0 =>
    exact ⟨opening_of (by simp) (by omega) (by omega), .inl fun hp hf => .inl (afterQuote_refused (single := false) hp rfl ((double_flow hw).oneLine (noFlat hn)) (noFlat hn) hb h0 (by simp) (by omega) hf)⟩
  | afterSingle hw hn hb h0 h39 =>
    exact ⟨opening_of (by simp) (by omega) (by omega), .inl fun hp hf => .inl (afterQuote_refused (single := true) hp rfl ((single_flow hw).oneLine (noFlat hn)) (noFlat hn) hb h0 (fun _ => h39) (by omega) hf)⟩
  | nameless hc hr =>
    simp at hc
    refine ⟨opening_of (by simp; omega) (by omega) (by omega), .inl fun hp _ => .inl (nameless_refused hp.rest (by omega) ?_)⟩
    rcases hr with rfl | ⟨b, r', rfl, hb⟩
    · rfl
    · simp at hb
      rcases hb with rfl | rfl | rfl | rfl | rfl | rfl | rfl | rfl | rfl <;> rfl
  | zero hc hs =>
    simp at hc
    refine ⟨opening_of (by simp; omega) (by omega) (by omega), .inl fun hp _ => .inl (scroll_refused hp.rest (by omega) hp.calm.level fun _ => header_zero ?_)⟩
    simp at hs
    exact hs
  | header hc hh hb h0 hj =>
    simp at hc
    exact ⟨opening_of (by simp; omega) (by omega) (by omega), .inl fun hp _ => .inl (header_refused hp.rest (by omega) hp.calm.level hh hb h0 hj)⟩
  | brackets hc hu =>
    simp at hc
    exact ⟨opening_of (by simp; omega) (by omega) (by omega), .inl fun hp _ => brackets_fail hp hc hu⟩
  | @dash r hr =>
    have ho : Opening (n + 1) (45 :: r) := ⟨by simp, by simp [TokenHead], fun _ => ⟨by simp, fun x r' hx e => by
      rcases hr with rfl | ⟨b, r', rfl, rfl | rfl⟩
      · simp at e
      · simp at e; omega
      · simp at e; omega⟩⟩
    exact ⟨ho, .inr ⟨rfl, nodeD_of ho fun hp _ _ => .inl (dash_refused hp hr)⟩⟩
  | @question r hr =>
    have ho : Opening (n + 1) (63 :: r) := opening_of (by simp) (by omega) (by omega)
    exact ⟨ho, .inr ⟨rfl, nodeD_of ho fun hp _ _ => .inl (question_refused hp hr)⟩⟩
  | colon hk hr =>
    obtain ⟨st, v, hk, -⟩ := leaf_text hk
    exact ⟨⟨by simp, hk.head, fun _ => hk.notMark (colon_after hk hr 0).pend⟩, .inr ⟨rfl, colonD hk hr (by omega)⟩⟩

theorem AtOnce.node {own c t} (h : AtOnce c t) (ho : Opening c t) : NodeD own c t := nodeD_of ho fun hp _ hf => h hp hf

theorem AtOnce.part {tt c t} (h : AtOnce c t) (ho : Opening c t) : PartD tt c t := fun hh _ hf hout => doom_here hh ho hout fun _ hp _ => h hp hf

/-! ## All places -/

theorem PartD.node {tt c t} (h : PartD tt c t) : NodeD true c t := fun hh _ hx hb _ hi hf hout => h hh (.inl ⟨hx, hb, hi, rfl⟩) hf hout

theorem Goes.doomed {cfg s b out I i rest c al} (h : Goes cfg s b out I i rest c al) (h' : ∀ s', Here cfg s' out I i rest c al → Lost cfg s') : Lost cfg s := by
  obtain ⟨m, s', h1, h2, -⟩ := h
  exact (h' s' h2).before h1

theorem Opens.clean {I i i0 I0 c tt b} (h : Opens I i i0 I0 c tt b) (ht : Clean [tt]) : Clean b := by
  rcases h with ⟨-, -, -, rfl⟩ | ⟨-, -, rfl⟩
  · exact ht
  · exact clean_nil

theorem sem_balanced [Block.Handles] {nt T E toks} {E' : Block.Names F} (h : Sem nt T E toks E') : Clean toks := by
  obtain ⟨evs, h, -⟩ := h [] (fun _ => none)
  have := derives_count h
  exact ⟨derives_end h, this.2.2 rfl, this.2.1⟩

macro "clean" : tactic => `(tactic| exact ⟨by simp, by decide, by decide⟩)

theorem Opening.low {c t} (h : Opening c t) : lowCol t c = c := NotMarkL.low h.mark h.ne

/-- after items or entries without a mistake -/
theorem PartG.doomed {tt f n t toks g r} (h : PartG tt f (n + 1) t toks) (hg : Block.Gap f n g) (ho : Opening (n + 1) r) (htt : Clean [tt]) (htoks : Clean toks)
    (h' : ∀ {cfg s out i0 I0}, Here cfg s out (⟨i0, true⟩ :: I0) (n + 1) r (n + 1) true → r.length < cfg.fuel → Clean out → Lost cfg s) : PartD tt (n + 1) (t ++ (g ++ r)) := by
  intro cfg s out I i i0 I0 b hh hop hf hout
  have := h (w := g) (q := r) (I' := ⟨i0, true⟩ :: I0) (i' := n + 1) (k := 0) hh hop (break_end (gap_break hg) ho.head ho.ne (Nat.le_refl _)) (gap_fits hg ho.head ho.ne) hf
    (by rw [ho.low]; exact unroll_ok (Nat.le_refl _))
  refine this.doomed fun s' h2 => h' h2 (by simp at hf; omega) ?_
  simpa using hout.append ((hop.clean htt).append htoks)

/-- after an indicator -/
theorem lead_doomed {tt c0 tok e c g t c2} (hl : LeadG tt c0 tok e) (hg : ∀ q, Lay g q) (hb : g.head? = some 32 ∨ g.head? = some 10)
    (hcol : ∀ m : Marker, m.col = c + 1 → (gapMark m g).col = c2) (h1 : 1 ≤ c) (hc : c < c2) (htt : Clean [tt]) (htok : Clean [tok])
    (h : NodeD true c2 t) (ho : Opening c2 t) : PartD tt c (c0 :: (g ++ t)) := by
  intro cfg s out I i i0 I0 b hh hop hf hout
  obtain ⟨I1, i1, hx, hgo⟩ := hl (c' := c2) (w := g) (q := t) hh hop (hg _) ho.head (.inr hb) (fun h => absurd h (head_ne hb)) (fun _ => hcol) hf
  have := hgo I1 i1 0 (by rw [lowCol_deep ho.ne (by omega)]; exact unroll_ok (by have := hx.le; omega))
  refine this.doomed fun s' h' => h h' (fun h => by cases h) hx (.inr ⟨_, _, rfl⟩) (fun h => absurd h (by omega)) hc (by simp at hf; omega) ?_
  simpa using hout.append ((hop.clean htt).append htok)

theorem leaf_tok {k tok} (h : LeafText k tok) : Clean [tok] := by
  cases h <;> exact ⟨by simp, by simp [sqOf], by simp [brOf]⟩

/-- after a key -/
theorem entry_doomed {c k tok j g t c2} (hk : LeafText k tok) (hj : k.length + j ≤ 1024) (h1 : 1 ≤ c) (hg : ∀ q, Lay g q) (hb : g.head? = some 32 ∨ g.head? = some 10)
    (hcol : ∀ m : Marker, m.col = c + k.length + j + 1 → (gapMark m g).col = c2) (hc : c < c2)
    (h : NodeD (g.contains 10) c2 t) (ho : Opening c2 t) : PartD .blockMappingStart c (k ++ (Block.spaces j ++ 58 :: (g ++ t))) := by
  intro cfg s out I i i0 I0 b hh hop hf hout
  obtain ⟨I1, i1, hx, hgo⟩ := pair_layK (c' := c2) (w := g) (q := t) hh hk spaces_mem (by rw [spaces_len]; exact hj) h1 hop (hg _) ho.head (.inr hb)
    (fun _ m hm => hcol m (by rw [hm, spaces_len])) hf
  obtain ⟨m, s', f, h', -, hn⟩ := hgo I1 i1 0 (by rw [lowCol_deep ho.ne (by omega)]; exact unroll_ok (by have := hx.le; omega))
  refine (h h' (fun _ => hn) hx (.inr ⟨_, _, rfl⟩) (fun h => absurd h (by omega)) hc (by simp at hf; omega) ?_).before f
  simpa using hout.append ((hop.clean (by clean)).append ((show Clean [.key] by clean).append ((leaf_tok hk).append (show Clean [.value] by clean))))

theorem beside_doomed {n k tok j g t} (hk : LeafText k tok) (hj : k.length + j ≤ 1024) (hg : Block.Break n g)
    (h : PartD .blockSequenceStart (n + 1) t) (ho : Opening (n + 1) t) : PartD .blockMappingStart (n + 1) (k ++ (Block.spaces j ++ 58 :: (g ++ t))) := by
  intro cfg s out I i i0 I0 b hh hop hf hout
  obtain ⟨I1, i1, hx, hgo⟩ := pair_lay (c' := n + 1) (w := g) (q := t) hh hk spaces_mem (by rw [spaces_len]; exact hj) (by omega) hop (break_lay hg) ho.head (.inr (break_first hg))
    (fun _ m hm => break_col hg m) hf
  have := hgo (⟨i0, true⟩ :: I0) (n + 1) 0 (by rw [ho.low, hx.unroll (Nat.le_refl _)]; exact unroll_ok (Nat.le_refl _))
  rw [break_newline hg] at this
  refine this.doomed fun s' h' => h h' (.inr ⟨rfl, rfl, rfl⟩) (by simp at hf; omega) ?_
  simpa using hout.append ((hop.clean (by clean)).append ((show Clean [.key] by clean).append ((leaf_tok hk).append (show Clean [.value] by clean))))

/-- what is proved of every place -/
def PlaceD (t : List Byte) : Faults.Place → Prop
  | .node n own => Opening (n + 1) t ∧ NodeD own (n + 1) t
  | .items n | .item n => Opening (n + 1) t ∧ PartD .blockSequenceStart (n + 1) t
  | .entries n | .entry n => Opening (n + 1) t ∧ PartD .blockMappingStart (n + 1) t

theorem starts_opening {t r : List Byte} {c} (h : Starts t) (hr : FirstBlank r) : Opening c (t ++ r) := ⟨by simp [h.1], (h.2 r hr).1, fun _ => (h.2 r hr).2⟩

theorem entry_opening {k tok c} {j : Nat} {g t : List Byte} (hk : LeafText k tok) (hb : g.head? = some 32 ∨ g.head? = some 10) : Opening c (k ++ (Block.spaces j ++ 58 :: (g ++ t))) := by
  refine ⟨by simp, hk.head, fun _ => hk.notMark (colon_after hk (.inr ?_) 0).pend⟩
  cases g with
  | nil => simp at hb
  | cons b g => exact ⟨b, g ++ t, rfl, by simpa using hb⟩

theorem dash_opening {c : Nat} {g t : List Byte} (hb : g.head? = some 32 ∨ g.head? = some 10) : Opening c (45 :: (g ++ t)) := by
  refine ⟨by simp, by simp [TokenHead], fun _ => ⟨by simp, fun x r' hx e => ?_⟩⟩
  cases g with
  | nil => simp at hb
  | cons b g =>
    simp at e hb
    omega

theorem faulty_place {fo : FloatOps F} {E l t} (h : Faults.Faulty false fo emptyStr E l t) : PlaceD t l := by
  induction h with
  | here h =>
    obtain ⟨h1, h2 | ⟨rfl, h2⟩⟩ := fault_refused h
    · exact ⟨h1, h2.node h1⟩
    · exact ⟨h1, h2⟩
  | seq _ ih => exact ⟨ih.1, PartD.node ih.2⟩
  | map _ ih => exact ⟨ih.1, PartD.node ih.2⟩
  | firstItem _ ih => exact ih
  | laterItem h hg _ ih =>
    obtain ⟨toks, h1, -, h2, h3⟩ := items_block h
    exact ⟨starts_opening h1 (break_pend (gap_break hg)), h2.doomed hg ih.1 (by clean) (sem_balanced (h3 false)) fun hh hf ho => ih.2 hh (.inr ⟨rfl, rfl, rfl⟩) hf ho⟩
  | firstEntry _ ih => exact ih
  | laterEntry h hg _ ih =>
    obtain ⟨toks, h1, h2, h3⟩ := entries_block h
    exact ⟨starts_opening h1 (break_pend (gap_break hg)), h2.doomed hg ih.1 (by clean) (sem_balanced h3) fun hh hf ho => ih.2 hh (.inr ⟨rfl, rfl, rfl⟩) hf ho⟩
  | @noColon E E' n f t es g k x b h hg hk hl =>
    obtain ⟨toks, h1, h2, h3⟩ := entries_block h
    obtain ⟨st, v, hk, -⟩ := leaf_text hk
    obtain ⟨w, q, c', rfl, he⟩ : ∃ w q c', b = w ++ q ∧ EndL w q c' (n + 1) := by
      rcases hl with hl | ⟨m, g, c, r, hm, hb, hc, h0, rfl⟩
      · exact ⟨b, [], 1, by simp, tail_end hl⟩
      · refine ⟨g, c :: r, m + 1, rfl, break_end hb ?_ (by simp) (by omega)⟩
        intro d hd
        simp at hd hc
        omega
    exact ⟨starts_opening h1 (break_pend (gap_break hg)), h2.doomed hg ⟨by simp [hk.ne], hk.head, fun _ => hk.notMark he.pend.pend⟩ (by clean) (sem_balanced h3) fun hh hf ho => noColonD hk he hh hf ho⟩
  | atItem h =>
    obtain ⟨h1, h2 | ⟨h, -⟩⟩ := fault_refused h
    · exact ⟨h1, h2.part h1⟩
    · cases h
  | atEntry h =>
    obtain ⟨h1, h2 | ⟨h, -⟩⟩ := fault_refused h
    · exact ⟨h1, h2.part h1⟩
    · cases h
  | @inItem E n m t _ ih =>
    exact ⟨dash_opening (.inl rfl), lead_doomed dash_lead (fun _ => spaces_lay') (.inl rfl) (fun m' hm => by rw [spaces_col, hm]; omega) (by omega) (by omega) (by clean) (by clean) ih.2 ih.1⟩
  | underItem hg hn _ ih =>
    exact ⟨dash_opening (break_first hg), lead_doomed dash_lead (fun _ => break_lay hg) (break_first hg) (fun m _ => break_col hg m) (by omega) (by omega) (by clean) (by clean) ih.2 ih.1⟩
  | @inEntry E n k j x m t hk hj _ ih =>
    obtain ⟨st, v, hk, -⟩ := leaf_text hk
    have h10 : (Block.spaces (m + 1)).contains 10 = false := contains_false.2 fun x hx => by rw [spaces_mem x hx]; decide
    exact ⟨entry_opening hk (.inl rfl), entry_doomed hk hj (by omega) (fun _ => spaces_lay') (.inl rfl) (fun m' hm => by rw [spaces_col, hm]; omega) (by omega) (by rw [h10]; exact ih.2) ih.1⟩
  | underEntry hk hj hg hn _ ih =>
    obtain ⟨st, v, hk, -⟩ := leaf_text hk
    exact ⟨entry_opening hk (break_first hg), entry_doomed hk hj (by omega) (fun _ => break_lay hg) (break_first hg) (fun m _ => break_col hg m) (by omega) (by rw [break_newline hg]; exact ih.2) ih.1⟩
  | besideEntry hk hj hg _ ih =>
    obtain ⟨st, v, hk, -⟩ := leaf_text hk
    exact ⟨entry_opening hk (break_first hg), beside_doomed hk hj hg ih.2 ih.1⟩

/-- the scanner fails on every text with a mistake, or its brackets are out of balance -/
theorem fault_lost {fo : FloatOps F} {t : List Byte} {cfg : Cfg} (h : Faults.Text false fo emptyStr t) (hf : t.length < cfg.fuel) : Lost cfg (fetchStreamStart (Scanner.new t)).2 := by
  obtain ⟨a, n, r, ha, h, rfl, hb⟩ := h
  obtain ⟨ho, hd⟩ := faulty_place h
  exact hd (text_here ha ho.head (by simp at hf ⊢; omega)) (fun h => by cases h) (.inl ⟨rfl, rfl⟩) (.inl rfl) (fun _ => ⟨rfl, rfl⟩) (by omega) (by simp at hf; omega) (by clean)

end Verif.Scanner
