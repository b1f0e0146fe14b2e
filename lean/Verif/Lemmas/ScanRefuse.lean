import Verif.Lemmas.ScanDoom
import Verif.Lemmas.ScanDocs
import Verif.Spec.Faults
/-!
# Scalars that cannot be read

`Tri P m Q`: from a state whose remaining text satisfies `P`, `m` does not fail with the message about block sequence entries, and if it succeeds,
the remaining text and the result satisfy `Q`.
-/
namespace Verif.Scanner
open Verif Verif.CharUtils Verif.Source Verif.Spec

/-- not the message that depends on the queue -/
def NotEntry {α} : Res α → Prop
  | .err (.scanner _ msg) => msg ≠ "block sequence entries are not allowed in this context"
  | _ => True

def Tri {α} (P : List Byte → Prop) (m : SM α) (Q : α → List Byte → Prop) : Prop :=
  ∀ s, P s.src.rest → NotEntry (m s).1 ∧ ∀ a s', m s = (.ok a, s') → Q a s'.src.rest

variable {P P' : List Byte → Prop}

theorem Tri.refuses {α} {m : SM α} {s} (h : Tri P m fun _ _ => False) (hs : P s.src.rest) : Refuses (m s) := by
  obtain ⟨h1, h2⟩ := h s hs
  refine ⟨fun a s' e => h2 a s' e, ?_⟩
  rintro ⟨⟨mk, e⟩, -⟩
  rw [e] at h1
  exact h1 rfl

theorem tri_pure {α} {a : α} {Q : α → List Byte → Prop} (h : ∀ r, P r → Q a r) : Tri P (pure a) Q :=
  fun s hs => ⟨trivial, fun b s' e => by cases e; exact h _ hs⟩

theorem tri_bind {α β} {m : SM α} {f : α → SM β} {Q : α → List Byte → Prop} {R : β → List Byte → Prop} (hm : Tri P m Q) (hf : ∀ a, Tri (Q a) (f a) R) :
    Tri P (m >>= f) R := by
  intro s hs
  obtain ⟨h1, h2⟩ := hm s hs
  show NotEntry (match m s with | (.ok a, s) => f a s | (.err e, s) => (.err e, s) | (.panic, s) => (.panic, s) | (.hang, s) => (.hang, s)).1 ∧ ∀ a s',
    (match m s with | (.ok a, s) => f a s | (.err e, s) => (.err e, s) | (.panic, s) => (.panic, s) | (.hang, s) => (.hang, s)) = (.ok a, s') → R a s'.src.rest
  rcases hx : m s with ⟨r, s1⟩
  rw [hx] at h1
  cases r with
  | ok a => exact hf a s1 (h2 a s1 hx)
  | err e =>
    refine ⟨?_, fun a s' e => by cases e⟩
    cases e <;> exact h1
  | panic => exact ⟨trivial, fun a s' e => by cases e⟩
  | hang => exact ⟨trivial, fun a s' e => by cases e⟩

/-- looking at the text -/
theorem tri_gets {α} {f : SSt → α} {Q : α → List Byte → Prop} (h : ∀ s, P s.src.rest → Q (f s) s.src.rest) : Tri P (gets f) Q :=
  fun s hs => ⟨trivial, fun b s' e => by cases e; exact h _ hs⟩

/-- looking at anything -/
theorem tri_any {α} {f : SSt → α} : Tri P (gets f) fun _ => P := tri_gets fun _ h => h

theorem tri_upd {f : SSt → SSt} {Q : Unit → List Byte → Prop} (h : ∀ s, P s.src.rest → Q () (f s).src.rest) : Tri P (upd f) Q :=
  fun s hs => ⟨trivial, fun b s' e => by cases e; exact h _ hs⟩

theorem tri_fail {α} {m msg} {Q : α → List Byte → Prop} (h : msg ≠ "block sequence entries are not allowed in this context") : Tri P (fail m msg) Q :=
  fun _ _ => ⟨h, fun _ _ e => by cases e⟩

theorem tri_panic {α} {Q : α → List Byte → Prop} : Tri P (panic (α := α)) Q := fun _ _ => ⟨trivial, fun _ _ e => by cases e⟩

theorem tri_failIf {c m msg} (h : msg ≠ "block sequence entries are not allowed in this context") : Tri P (failIf c m msg) fun _ => P := by
  unfold failIf
  split
  · exact tri_fail h
  · exact tri_pure fun _ h => h

theorem tri_ite {α} {c : Prop} [Decidable c] {m n : SM α} {Q : α → List Byte → Prop} (hm : c → Tri P m Q) (hn : ¬ c → Tri P n Q) : Tri P (if c then m else n) Q := by
  split
  · exact hm ‹_›
  · exact hn ‹_›

theorem tri_pre {α} {m : SM α} {Q : α → List Byte → Prop} (hm : Tri P' m Q) (h : ∀ r, P r → P' r) : Tri P m Q := fun s hs => hm s (h _ hs)

theorem tri_post {α} {m : SM α} {Q Q' : α → List Byte → Prop} (hm : Tri P m Q) (h : ∀ a r, Q a r → Q' a r) : Tri P m Q' :=
  fun s hs => ⟨(hm s hs).1, fun a s' e => h _ _ ((hm s hs).2 a s' e)⟩

/-- what a loop has to keep, and what it ends with -/
def Laps {σ α} (P : List Byte → Prop) (Q : α → List Byte → Prop) : Loop σ α → List Byte → Prop
  | .next _, t => P t
  | .done a, t => Q a t

theorem tri_loop {σ α} {body : σ → SM (Loop σ α)} {Q : α → List Byte → Prop}
    (h : ∀ x, Tri P (body x) (Laps P Q)) : ∀ n x, Tri P (loopM body n x) Q
  | 0, _ => fun _ _ => ⟨trivial, fun _ _ e => by cases e⟩
  | n + 1, x => by
    rw [loopM]
    refine tri_bind (h x) fun r => ?_
    cases r with
    | next y => exact tri_loop h n y
    | done a => exact tri_pure fun _ h => h

/-! ## The text moves on -/

theorem rest_skip {s : Src} {n : Nat} : (s.skip n).rest = s.rest.drop n := by
  simp [Src.skip]

theorem tri_skipN {n} {Q : Unit → List Byte → Prop} (h : ∀ r, P r → Q () (r.drop n)) : Tri P (skipN n) Q :=
  tri_upd fun s hs => by show Q () (s.src.skip n).rest; rw [rest_skip]; exact h _ hs

theorem tri_skipNonBlank {Q : Unit → List Byte → Prop} (h : ∀ r, P r → Q () (r.drop 1)) : Tri P skipNonBlank Q :=
  tri_upd fun s hs => by show Q () (s.src.skip 1).rest; rw [rest_skip]; exact h _ hs

theorem tri_skipBlank {Q : Unit → List Byte → Prop} (h : ∀ r, P r → Q () (r.drop 1)) : Tri P skipBlank Q :=
  tri_upd fun s hs => by show Q () (s.src.skip 1).rest; rw [rest_skip]; exact h _ hs

/-! ## Quotation marks that are not closed -/

/-- what comes after the opening quotation mark -/
def Unclosed (single : Bool) (r : List Byte) : Prop := if single then Faults.NoSingle r else Faults.NoDouble r

theorem Unclosed.tail {single b r} (h : Unclosed single (b :: r)) (h1 : b ≠ if single then 39 else 34) (h2 : single = false → b ≠ 92) : Unclosed single r := by
  cases single with
  | true =>
    have h : Faults.NoSingle (b :: r) := h
    show Faults.NoSingle r
    cases h with
    | raw _ h => exact h
    | pair _ => exact absurd rfl h1
  | false =>
    have h : Faults.NoDouble (b :: r) := h
    show Faults.NoDouble r
    cases h with
    | raw _ _ h => exact h
    | last => exact .nil
    | escape _ => exact absurd rfl (h2 rfl)
    | unknown _ => exact absurd rfl (h2 rfl)
    | short _ _ _ => exact absurd rfl (h2 rfl)

theorem Unclosed.cons {single b r} (h : Unclosed single r) (h1 : b ≠ if single then 39 else 34) (h2 : single = false → b ≠ 92) : Unclosed single (b :: r) := by
  cases single with
  | true => exact Faults.NoSingle.raw h1 h
  | false => exact Faults.NoDouble.raw h1 (h2 rfl) h

theorem Unclosed.drop {single r} (h : Unclosed single r) (h1 : r.headD 0 ≠ if single then 39 else 34) (h2 : single = false → r.headD 0 ≠ 92) :
    Unclosed single (r.drop 1) := by
  cases r with
  | nil => exact h
  | cons b r => exact h.tail h1 h2

theorem unclosed_break {single r} (h : Unclosed single r) : ∀ s : SSt, s.src.rest = r → Unclosed single (skipLinebreak s).2.src.rest := by
  intro s hs
  unfold skipLinebreak upd
  dsimp only
  split
  · rename_i hx
    show Unclosed single (s.src.skip 2).rest
    rw [rest_skip, hs]
    cases r with
    | nil => exact h
    | cons b r =>
      obtain rfl : b = 13 := by simpa [Src.peekz, hs] using hx.1
      have h1 := h.tail (by cases single <;> simp) (by simp)
      have h2 := h1.drop (by
        have : r.headD 0 = 10 := by
          have := hx.2
          simp [Src.peekz, hs] at this
          cases r <;> simp_all
        rw [this]; cases single <;> simp) (by
        have : r.headD 0 = 10 := by
          have := hx.2
          simp [Src.peekz, hs] at this
          cases r <;> simp_all
        rw [this]; simp)
      simpa using h2
  · split
    · rename_i hx
      show Unclosed single (s.src.skip 1).rest
      rw [rest_skip, hs]
      have : r.headD 0 = 10 := by rw [← hx, Src.peekz, hs]; cases r <;> rfl
      exact h.drop (by rw [this]; cases single <;> simp) (by rw [this]; simp)
    · rw [hs]; exact h

theorem tri_break {single} : Tri (Unclosed single) skipLinebreak fun _ => Unclosed single := by
  intro s hs
  have := unclosed_break hs s rfl
  exact ⟨trivial, fun a s' e => by rw [e] at this; exact this⟩

theorem hex_stop {src : Src} {h b r} (hr : src.rest = h ++ b :: r) (hb : ¬ Faults.Hex b) : ∀ {k i v}, i ≤ h.length → h.length < i + k → ∀ x, hexValue src k i v ≠ some (some x)
  | 0, i, v, h1, h2, x => by omega
  | k + 1, i, v, h1, h2, x => by
    rw [hexValue]
    by_cases hi : i = h.length
    · have hp : src.peekz i = b := by rw [Src.peekz, hr, hi]; simp
      have hx : isAsciiHexdigit b = false := by
        simp only [Faults.Hex, isAsciiHexdigit] at hb ⊢
        simp
        omega
      rw [hp, hx]
      simp
    · split
      · split
        · exact hex_stop hr hb (by omega) (by omega) x
        · simp
      · simp

/-- numeric escapes leave the quotation mark open -/
theorem unclosed_hex {r : List Byte} : ∀ {k i v x} {src : Src}, src.rest.drop i = r → Faults.NoDouble r → hexValue src k i v = some (some x) → Faults.NoDouble (r.drop k)
  | 0, i, v, x, src, hr, h, hx => by simpa using h
  | k + 1, i, v, x, src, hr, h, hx => by
    rw [hexValue] at hx
    split at hx
    · rename_i hd
      have hp : src.peekz i = r.headD 0 := by
        rw [Src.peekz, ← hr]
        simp [List.headD_eq_head?_getD, List.head?_drop]
      split at hx
      · have h1 : Unclosed false (r.drop 1) := Unclosed.drop (single := false) h
          (by rw [← hp]; intro he; rw [he] at hd; revert hd; decide)
          (by intro _; rw [← hp]; intro he; rw [he] at hd; revert hd; decide)
        have := unclosed_hex (k := k) (i := i + 1) (r := r.drop 1) (by rw [← hr]; simp) h1 hx
        rw [List.drop_drop, Nat.add_comm] at this
        exact this
      · cases hx
    · cases hx

/-- a numeric escape that is read -/
theorem hex_open {k start} {r : List Byte} (s : SSt) (hs : s.src.rest.drop 2 = r) (h : (∀ v, hexValue (s.src.skip 2) k 0 0 ≠ some (some v)) ∨ Faults.NoDouble r) :
    NotEntry (hexEscape k start s).1 ∧ ∀ a s', hexEscape k start s = (.ok a, s') → Faults.NoDouble s'.src.rest := by
  unfold hexEscape skipN
  ev []
  generalize hS : ({ s with src := s.src.skip 2, mark := { s.mark with pos := s.mark.pos + 2, col := s.mark.col + 2 }, leadingWhitespace := false } : SSt) = S
  have hr : S.src.rest = r := by rw [← hS, ← hs]; exact rest_skip
  have hsrc : s.src.skip 2 = S.src := by rw [← hS]
  rw [hsrc] at h
  rw [hsrc]
  cases hv : hexValue S.src k 0 0 with
  | none => exact ⟨trivial, fun _ _ e => by cases e⟩
  | some o =>
    cases o with
    | none => exact ⟨by show _ ≠ _; decide, fun _ _ e => by cases e⟩
    | some v =>
      dsimp only
      cases hc : Utf8.charFromU32 v with
      | none => exact ⟨by show _ ≠ _; decide, fun _ _ e => by cases e⟩
      | some ch =>
        rcases h with h | h
        · exact absurd hv (h v)
        · have := unclosed_hex (k := k) (i := 0) (by rw [← hr]; rfl) h hv
          refine ⟨trivial, fun a s' e => ?_⟩
          cases e
          show Faults.NoDouble (S.src.skip k).rest
          rw [rest_skip, hr]
          exact this

theorem escape_open {start r} (h : Faults.NoDouble (92 :: r)) (hb : isBreak (r.headD 0) = false) : Tri (fun t => t = 92 :: r) (resolveEscape start) fun _ => Faults.NoDouble := by
  intro s hs
  have hp : s.src.peekz 1 = r.headD 0 := by rw [Src.peekz, hs]; cases r <;> rfl
  have hd : s.src.rest.drop 2 = r.drop 1 := by rw [hs]; rfl
  unfold resolveEscape
  ev [hp]
  have key : (∃ c, simpleEscape (r.headD 0) = some c) → Faults.NoDouble (r.drop 1) := by
    rintro ⟨c, hc⟩
    cases h with
    | last => cases hc
    | raw _ hx _ => exact absurd rfl hx
    | escape h => exact h
    | @unknown b r hx =>
      exfalso
      revert hc
      simp [Faults.meaningful] at hx
      simp [simpleEscape, hx]
    | @short x k h b r h1 h2 h3 =>
      exfalso
      revert hc
      simp [Block.codes] at h1
      rcases h1 with ⟨rfl, -⟩ | ⟨rfl, -⟩ | ⟨rfl, -⟩ <;> simp [simpleEscape]
  have hexy : ∀ x k, (x, k) ∈ Block.codes → r.headD 0 = x → (∀ v, hexValue (s.src.skip 2) k 0 0 ≠ some (some v)) ∨ Faults.NoDouble (r.drop 1) := by
    intro x k hx he
    cases h with
    | last => simp [Block.codes] at hx; simp at he; omega
    | raw _ hx _ => exact absurd rfl hx
    | escape h => exact .inr h
    | @unknown b r hu =>
      simp [Faults.meaningful] at hu
      simp [Block.codes] at hx
      rw [List.headD_cons] at he
      omega
    | @short y k' h b r h1 h2 h3 =>
      simp at he
      subst he
      have : k = k' := by
        simp [Block.codes] at hx h1
        omega
      subst this
      exact .inl (fun v => hex_stop (h := h) (b := b) (r := r) (by rw [rest_skip, hs]; rfl) h3 (by omega) (by omega) v)
  cases hc : simpleEscape (r.headD 0) with
  | some c =>
    refine ⟨trivial, fun a s' e => ?_⟩
    cases e
    show Faults.NoDouble (s.src.skip 2).rest
    rw [rest_skip, hd]
    exact key ⟨c, hc⟩
  | none =>
    dsimp only
    by_cases h1 : r.headD 0 = 120
    · rw [if_pos h1]
      exact hex_open s hd (hexy 120 2 (by simp [Block.codes]) h1)
    · rw [if_neg h1]
      by_cases h2 : r.headD 0 = 117
      · rw [if_pos h2]
        exact hex_open s hd (hexy 117 4 (by simp [Block.codes]) h2)
      · rw [if_neg h2]
        by_cases h3 : r.headD 0 = 85
        · rw [if_pos h3]
          exact hex_open s hd (hexy 85 8 (by simp [Block.codes]) h3)
        · rw [if_neg h3]
          exact ⟨by show _ ≠ _; decide, fun _ _ e => by cases e⟩

/-! ## The loops over a quoted scalar -/

theorem noDouble_head {r} (h : Faults.NoDouble r) : r.headD 0 ≠ 34 := by
  cases h with
  | raw hx _ _ => exact hx
  | nil => simp
  | last => simp
  | escape _ => simp
  | unknown _ => simp
  | short _ _ _ => simp

theorem chars_open {single start string} : Tri (Unclosed single) (flowCharsBody single start string)
    (Laps (Unclosed single) fun _ t => Unclosed single t ∧ t.headD 0 ≠ if single then 39 else 34) := by
  intro s hs
  have h0 : s.src.peekz 0 = s.src.rest.headD 0 := by rw [Src.peekz]; cases s.src.rest <;> rfl
  unfold flowCharsBody
  ev []
  by_cases h1 : isBlankOrBreakz (s.src.peekz 0) = true
  · rw [if_pos h1]
    refine ⟨trivial, fun a s' e => ?_⟩
    cases e
    refine ⟨hs, ?_⟩
    rw [← h0]
    intro hx
    rw [hx] at h1
    cases single <;> exact absurd h1 (by decide)
  rw [if_neg h1]
  by_cases h2 : s.src.peekz 0 = 39 ∧ s.src.peekz 1 = 39 ∧ single = true
  · rw [if_pos h2]
    obtain ⟨h2, h3, rfl⟩ := h2
    refine ⟨trivial, fun a s' e => ?_⟩
    cases e
    show Faults.NoSingle (s.src.skip 2).rest
    rw [rest_skip]
    have hs : Faults.NoSingle s.src.rest := hs
    rw [h0] at h2
    cases hr : s.src.rest with
    | nil => exact .nil
    | cons b r =>
      rw [hr] at hs h2
      simp at h2
      subst h2
      cases hs with
      | raw hx _ => exact absurd rfl hx
      | pair h => exact h
  rw [if_neg h2]
  by_cases h3 : s.src.peekz 0 = 39 ∧ single = true
  · exfalso
    obtain ⟨h3, rfl⟩ := h3
    have hs : Faults.NoSingle s.src.rest := hs
    apply h2
    refine ⟨h3, ?_, rfl⟩
    rw [h0] at h3
    cases hr : s.src.rest with
    | nil => rw [hr] at h3; cases h3
    | cons b r =>
      rw [hr] at hs h3
      simp at h3
      subst h3
      cases hs with
      | raw hx _ => exact absurd rfl hx
      | pair h => simp [Src.peekz, hr]
  rw [if_neg h3]
  by_cases h4 : s.src.peekz 0 = 34 ∧ single = false
  · exfalso
    obtain ⟨h4, rfl⟩ := h4
    exact noDouble_head hs (h0.symm.trans h4)
  rw [if_neg h4]
  have hq : s.src.rest.headD 0 ≠ if single then 39 else 34 := by
    rw [← h0]
    cases single
    · exact fun hx => h4 ⟨hx, rfl⟩
    · exact fun hx => h3 ⟨hx, rfl⟩
  by_cases h5 : s.src.peekz 0 = 92 ∧ single = false ∧ isBreak (s.src.peekz 1) = true
  · rw [if_pos h5]
    obtain ⟨h5, rfl, h6⟩ := h5
    have hs : Faults.NoDouble s.src.rest := hs
    obtain ⟨b, r, hr, hb⟩ : ∃ b r, s.src.rest = 92 :: b :: r ∧ isBreak b = true := by
      rw [Src.peekz] at h5 h6
      cases hr : s.src.rest with
      | nil => rw [hr] at h5; cases h5
      | cons a r =>
        rw [hr] at h5 h6
        simp at h5
        subst h5
        cases r with
        | nil => cases h6
        | cons b r => exact ⟨b, r, rfl, h6⟩
    have hb' : b = 13 ∨ b = 10 := by simpa [isBreak] using hb
    have hn : Faults.NoDouble (b :: r) := by
      rw [hr] at hs
      cases hs with
      | raw _ hx _ => exact absurd rfl hx
      | escape h => exact .raw (by omega) (by omega) h
      | unknown hx => simp [Faults.meaningful] at hx; omega
      | short hx _ _ => simp [Block.codes] at hx; omega
    have e1 := bind_run (f := fun _ => (skipLinebreak >>= fun _ => pure (Loop.done (σ := List Byte) (string, true)))) (skipNonBlank_on s)
    have r1 : (on s 1).src.rest = b :: r := on_rest (w := [92]) (by rw [hr]; rfl) rfl
    have hx := unclosed_break (single := false) hn (on s 1) r1
    have e2 : ∃ S, skipLinebreak (on s 1) = (.ok (), S) ∧ Faults.NoDouble S.src.rest ∧ S.src.rest.headD 0 ≠ 34 := by
      refine ⟨(skipLinebreak (on s 1)).2, rfl, hx, noDouble_head hx⟩
    obtain ⟨S, e2, hS, hS'⟩ := e2
    have e3 := bind_run (f := fun _ => pure (Loop.done (σ := List Byte) (string, true))) e2
    refine ⟨?_, fun a s' e => ?_⟩
    · show NotEntry (((skipNonBlank >>= fun _ => skipLinebreak >>= fun _ => pure (Loop.done (σ := List Byte) (string, true))) s).1)
      rw [e1, e3]
      trivial
    · have e : (skipNonBlank >>= fun _ => skipLinebreak >>= fun _ => pure (Loop.done (σ := List Byte) (string, true))) s = (.ok a, s') := e
      rw [e1, e3] at e
      cases e
      exact ⟨hS, hS'⟩
  rw [if_neg h5]
  by_cases h6 : s.src.peekz 0 = 92 ∧ single = false
  · rw [if_pos h6]
    obtain ⟨h6, rfl⟩ := h6
    have hb : isBreak (s.src.peekz 1) = false := by
      rw [Bool.eq_false_iff]
      exact fun hx => h5 ⟨h6, rfl, hx⟩
    obtain ⟨r, hr⟩ : ∃ r, s.src.rest = 92 :: r := by
      rw [h0] at h6
      cases hr : s.src.rest with
      | nil => rw [hr] at h6; cases h6
      | cons a r => rw [hr] at h6; simp at h6; exact ⟨r, by rw [h6]⟩
    have hp : s.src.peekz 1 = r.headD 0 := by rw [Src.peekz, hr]; cases r <;> rfl
    refine tri_bind (f := fun ch => pure (Loop.next (string ++ Utf8.encode ch))) (escape_open (start := start) (hr ▸ hs) (hp ▸ hb)) (fun ch => tri_pure fun _ h => ?_) s hr
    exact h
  rw [if_neg h6]
  refine ⟨trivial, fun a s' e => ?_⟩
  cases e
  show Unclosed single (s.src.skip 1).rest
  rw [rest_skip]
  exact hs.drop hq (fun hx => by rw [← h0]; exact fun hy => h6 ⟨hy, hx⟩)

theorem readBreak_open {single x} : Tri (Unclosed single) (readBreak x) fun _ => Unclosed single :=
  tri_bind tri_break fun _ => tri_pure fun _ h => h

theorem blanks_open {single p} : Tri (Unclosed single) (flowBlankBody p)
    (Laps (Unclosed single) fun _ => Unclosed single) := by
  unfold flowBlankBody peekz
  refine tri_bind (Q := fun c t => Unclosed single t ∧ c = t.headD 0) (tri_gets fun s h => ⟨h, by rw [Src.peekz]; cases s.src.rest <;> rfl⟩) fun c => ?_
  have hstep : isBlank c = true → Tri (fun t => Unclosed single t ∧ c = t.headD 0) skipBlank fun _ => Unclosed single := by
    intro hc
    refine tri_skipBlank fun t ⟨h, ht⟩ => h.drop ?_ (fun _ => ?_)
    · rw [← ht]; intro hx; rw [hx] at hc; cases single <;> exact absurd hc (by decide)
    · rw [← ht]; intro hx; rw [hx] at hc; exact absurd hc (by decide)
  refine tri_ite (fun hc => ?_) (fun hc => tri_pre ?_ fun t h => h.1)
  · refine tri_ite (fun _ => ?_) (fun _ => ?_)
    · unfold getMark
      refine tri_bind tri_any fun m => tri_bind tri_any fun bad => tri_bind (tri_failIf (by decide)) fun _ => tri_bind (hstep hc) fun _ => tri_pure fun _ h => h
    · exact tri_bind (hstep hc) fun _ => tri_pure fun _ h => h
  · refine tri_ite (fun _ => ?_) (fun _ => tri_pure fun _ h => h)
    refine tri_ite (fun _ => ?_) (fun _ => ?_)
    · exact tri_bind readBreak_open fun _ => tri_pure fun _ h => h
    · exact tri_bind readBreak_open fun _ => tri_pure fun _ h => h

theorem body_open {cfg single start p} : Tri (Unclosed single) (flowBody cfg single start p)
    (Laps (Unclosed single) fun _ _ => False) := by
  unfold flowBody atEof
  refine tri_bind tri_any fun doc => tri_bind (tri_failIf (by decide)) fun _ => tri_bind tri_any fun eof => tri_bind (tri_failIf (by decide)) fun _ =>
    tri_bind tri_any fun low => tri_bind (tri_failIf (by decide)) fun _ =>
    tri_bind (tri_loop (Q := fun _ t => Unclosed single t ∧ t.headD 0 ≠ if single then 39 else 34) (fun _ => chars_open) _ _) fun r => ?_
  unfold peekz
  refine tri_bind (Q := fun c t => Unclosed single t ∧ t.headD 0 ≠ (if single then 39 else 34) ∧ c = t.headD 0)
    (tri_gets fun s h => ⟨h.1, h.2, by rw [Src.peekz]; cases s.src.rest <;> rfl⟩) fun c => ?_
  refine tri_ite (fun hc => ?_) (fun hc => ?_)
  · refine tri_pure fun t h => h.2.1 ?_
    rw [← h.2.2]
    rcases hc with ⟨rfl, rfl⟩ | ⟨rfl, rfl⟩ <;> rfl
  · exact tri_bind (tri_loop (Q := fun _ t => Unclosed single t) (fun _ => blanks_open) _ _ |> fun h => tri_pre h fun _ h => h.1) fun _ => tri_pure fun _ h => h

/-- a quoted scalar that is not closed -/
theorem quote_refused {cfg single} {r : List Byte} {qt : Byte} (h : Unclosed single r) : Tri (fun t => t = qt :: r) (fetchFlowScalar cfg single) fun _ _ => False := by
  unfold fetchFlowScalar scanFlowScalar saveSimpleKey setAllowed getMark
  refine tri_bind (Q := fun _ t => t = qt :: r) (tri_upd fun s h => ?_) fun _ => tri_bind (Q := fun _ t => t = qt :: r) (tri_upd fun s h => h) fun _ => ?_
  · split <;> exact h
  · refine tri_bind (Q := fun _ _ => False) ?_ fun _ => fun _ h => h.elim
    refine tri_bind tri_any fun m => tri_bind (Q := fun _ => Unclosed single) (tri_skipNonBlank fun t ht => by rw [ht]; exact h) fun _ => ?_
    exact tri_bind (tri_loop (Q := fun _ _ => False) (fun _ => body_open) _ _) fun _ => fun _ h => h.elim

end Verif.Scanner
