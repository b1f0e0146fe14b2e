import Verif.Lemmas.ScanScroll
import Verif.Lemmas.ScanExplicit
import Verif.Lemmas.ScanJsonValue
import Verif.Spec.Block
import Verif.Props.Scalar
/-!
# The parts of YAML texts in block style
-/
namespace Verif.Scanner
open Verif Verif.CharUtils Verif.Source Verif.Emitter Verif.Spec
variable {F : Type}

/-! ## Gaps -/

theorem spaces_lay {n w q} (h : Lay w q) : Lay (Block.spaces n ++ w) q :=
  h.append fun b hb => .inl (List.eq_of_mem_replicate hb)

theorem spaces_lay' {n q} : Lay (Block.spaces n) q := by
  simpa using spaces_lay (n := n) (w := []) (q := q) .nil

theorem comment_lay {k w q} (hk : Block.Comment k) (h : Lay w q) : Lay (k ++ 10 :: w) q := by
  obtain ⟨k, rfl, hk⟩ := hk
  exact .comment hk h

theorem comment_last {k} (hk : Block.Comment k) : Lay k [] := by
  obtain ⟨k, rfl, hk⟩ := hk
  exact .last hk

theorem eol_newline {e w q} (he : Block.Eol e) (h : Lay w q) : Lay (e ++ 10 :: w) q := by
  rcases he with ⟨n, rfl⟩ | ⟨n, k, hk, rfl⟩
  · exact spaces_lay (.newline h)
  · rw [List.append_assoc]
    exact spaces_lay (comment_lay hk h)

theorem idle_newline {e w q} (he : Block.Idle e) (h : Lay w q) : Lay (e ++ 10 :: w) q := by
  rcases he with ⟨n, rfl⟩ | ⟨n, k, hk, rfl⟩
  · exact spaces_lay (.newline h)
  · rw [List.append_assoc]
    exact spaces_lay (comment_lay hk h)

theorem idle_last {e} (he : Block.Idle e) : Lay e [] := by
  rcases he with ⟨n, rfl⟩ | ⟨n, k, hk, rfl⟩
  · exact spaces_lay'
  · exact spaces_lay (comment_last hk)

theorem eol_last {e} (he : Block.Eol e) : Lay e [] := by
  rcases he with ⟨n, rfl⟩ | ⟨n, k, hk, rfl⟩
  · exact spaces_lay'
  · exact spaces_lay (comment_last hk)

theorem idles_lay {l w q} (hl : Block.IdleLines l) (h : Lay w q) : Lay (l ++ w) q := by
  induction hl with
  | nil => exact h
  | @cons l r h1 _ ih =>
    rw [List.append_assoc]
    exact idle_newline h1 ih

theorem break_lay {n g q} (h : Block.Break n g) : Lay g q := by
  obtain ⟨e, ls, he, hl, rfl⟩ := h
  exact eol_newline he (idles_lay hl spaces_lay')

theorem tail_lay {w} (h : Block.Tail w) : Lay w [] := by
  rcases h with h | ⟨e, ls, l, he, hl, h, rfl⟩
  · exact eol_last h
  · exact eol_newline he (idles_lay hl (idle_last h))

/-- nothing, a space or a line feed -/
def FirstBlank (e : List Byte) : Prop := e = [] ∨ e.head? = some 32 ∨ e.head? = some 10

theorem eol_first {e} (h : Block.Eol e) : FirstBlank e := by
  rcases h with ⟨n, rfl⟩ | ⟨n, k, -, rfl⟩
  · cases n with
    | zero => exact .inl rfl
    | succ n => exact .inr (.inl rfl)
  · exact .inr (.inl rfl)

theorem break_first {n g} (h : Block.Break n g) : g.head? = some 32 ∨ g.head? = some 10 := by
  obtain ⟨e, ls, he, -, rfl⟩ := h
  rcases eol_first he with rfl | h | h
  · exact .inr rfl
  · cases e with
    | nil => cases h
    | cons => exact .inl h
  · cases e with
    | nil => cases h
    | cons => exact .inr h

theorem tail_first {w} (h : Block.Tail w) : w.head? ≠ some 35 := by
  have : FirstBlank w := by
    rcases h with h | ⟨e, ls, l, he, -, -, rfl⟩
    · exact eol_first h
    · rcases eol_first he with rfl | h | h
      · exact .inr (.inr rfl)
      · cases e with
        | nil => cases h
        | cons => exact .inr (.inl h)
      · cases e with
        | nil => cases h
        | cons => exact .inr (.inr h)
  rcases this with rfl | h | h
  · simp
  · rw [h]; simp
  · rw [h]; simp

theorem idles_end {l} (h : Block.IdleLines l) : l = [] ∨ ∃ l', l = l' ++ [10] := by
  induction h with
  | nil => exact .inl rfl
  | @cons a r _ _ ih =>
    rcases ih with rfl | ⟨l', rfl⟩
    · exact .inr ⟨a, rfl⟩
    · exact .inr ⟨a ++ 10 :: l', by simp⟩

theorem gapMark_after (m : Marker) (a : List Byte) (n : Nat) : (gapMark m (a ++ 10 :: Block.spaces n)).col = n + 1 := by
  rw [gapMark_append]
  show (gapMark _ (10 :: List.replicate n 32)).col = _
  rw [gapMark_line]
  exact Nat.add_comm _ _

theorem break_shape {n g} (h : Block.Break n g) : ∃ a, g = a ++ 10 :: Block.spaces n := by
  obtain ⟨e, ls, he, hl, rfl⟩ := h
  rcases idles_end hl with rfl | ⟨l', rfl⟩
  · exact ⟨e, rfl⟩
  · exact ⟨e ++ 10 :: l', by simp⟩

theorem break_col {n g} (h : Block.Break n g) (m : Marker) : (gapMark m g).col = n + 1 := by
  obtain ⟨a, rfl⟩ := break_shape h
  exact gapMark_after m a n

theorem break_newline {n g} (h : Block.Break n g) : g.contains 10 = true := by
  obtain ⟨a, rfl⟩ := break_shape h
  simp

theorem break_end {n g q i0} (h : Block.Break n g) (hq : TokenHead q) (h0 : q ≠ []) (hi : n + 1 ≤ i0) : EndL g q (n + 1) i0 := by
  refine ⟨break_lay h, ?_, hq, .inr ⟨break_newline h, break_col h, by omega, .inl hi, h0⟩⟩
  rcases break_first h with h | h <;> simp [h]

theorem break_pend {n g r} (h : Block.Break n g) : FirstBlank (g ++ r) := by
  rcases break_first h with h | h
  · cases g with
    | nil => cases h
    | cons b g => exact .inr (.inl h)
  · cases g with
    | nil => cases h
    | cons b g => exact .inr (.inr h)

theorem gap_break {f n g} (h : Block.Gap f n g) : Block.Break n g := by
  cases f with
  | none => exact h
  | some c =>
    rcases h with ⟨-, rfl⟩ | ⟨k, cm, ls, -, hc, hl, rfl⟩
    · exact ⟨[], [], .inl ⟨0, rfl⟩, .nil, rfl⟩
    · exact ⟨[], Block.spaces k ++ cm ++ 10 :: ls, .inl ⟨0, rfl⟩, .cons (.inr ⟨k, cm, hc, rfl⟩) hl, by simp⟩

theorem end_tail {full f b} (h : Block.End full f b) : Block.Tail b := by
  cases f with
  | none => exact h
  | some c =>
    rcases h with ⟨k, -, -, rfl⟩ | ⟨k, cm, -, hc, rfl | ⟨ls, l, h1, h2, rfl⟩⟩
    · exact .inr ⟨[], [], Block.spaces k, .inl ⟨0, rfl⟩, .nil, .inl ⟨k, rfl⟩, rfl⟩
    · exact .inr ⟨[], [], Block.spaces k ++ cm, .inl ⟨0, rfl⟩, .nil, .inr ⟨k, cm, hc, rfl⟩, rfl⟩
    · exact .inr ⟨[], Block.spaces k ++ cm ++ 10 :: ls, l, .inl ⟨0, rfl⟩, .cons (.inr ⟨k, cm, hc, rfl⟩) h1, h2, by simp⟩

/-- what has to follow a node that ends with a block scalar -/
def Fits : Option Nat → List Byte → List Byte → Prop
  | none, _, _ => True
  | some c, w, q => Follows c w q

theorem comment_stop {c k cm} (hc : Block.Comment cm) (hk : k < c) (r : List Byte) : Stop c k (cm ++ r) := by
  obtain ⟨x, rfl, -⟩ := hc
  exact ⟨by omega, fun c hc => by cases hc; rfl, by simp, .inl ⟨hk, by simp⟩⟩

theorem gap_fits {f n g q} (h : Block.Gap f n g) (hq : TokenHead q) (h0 : q ≠ []) : Fits f g q := by
  cases f with
  | none => trivial
  | some c =>
    rcases h with ⟨hn, rfl⟩ | ⟨k, cm, ls, hk, hc, hl, rfl⟩
    · refine ⟨n, [], by simp, .nil, by omega, fun x hx => ?_, fun hx => (hq 32 hx).2.1 rfl, .inl ⟨hn, h0⟩⟩
      have := hq x hx
      simp [isBreak, this]
    · refine ⟨k, _, rfl, comment_lay hc (idles_lay hl spaces_lay'), ?_⟩
      rw [List.append_assoc]
      exact comment_stop hc hk _

theorem end_fits {f b} (h : Block.End false f b) : Fits f b [] := by
  cases f with
  | none => trivial
  | some c =>
    rcases h with ⟨k, h1, h2, rfl⟩ | ⟨k, cm, hk, hc, rfl | ⟨ls, l, h1, h2, rfl⟩⟩
    · exact ⟨k, [], by simp, .nil, h1, by simp [NoBreak], by simp, .inr (.inl ⟨rfl, h2 rfl⟩)⟩
    · exact ⟨k, cm, rfl, comment_last hc, comment_stop hc hk _⟩
    · refine ⟨k, _, rfl, comment_lay hc (idles_lay h1 (idle_last h2)), ?_⟩
      rw [List.append_assoc]
      exact comment_stop hc hk _

theorem tail_end {b i0} (h : Block.Tail b) : EndL b [] 1 i0 := ⟨tail_lay h, tail_first h, by simp [TokenHead], .inl rfl⟩

/-! ## Scalars -/

theorem word_pword {w} (h : Block.Word w) : PWord w := ⟨h.ne, h.ink, h.hash, h.colon⟩

theorem words_pwords {t} (h : Block.Words t) : PWords t := by
  induction h with
  | one h => exact .one (word_pword h)
  | more h _ ih => exact .more (word_pword h) ih

theorem plain_first {t} (h : Block.Begins t) : PFirst t := by
  obtain ⟨⟨c, r, e, h1, h2⟩, h3⟩ := h
  refine ⟨⟨c, r, e, h1, fun hx => h2 ?_⟩, fun x r hx e => h3 [x, x, x] r ?_ e⟩
  · rcases hx with rfl | rfl | rfl <;> simp
  · rcases hx with rfl | rfl <;> simp

theorem words_flow {ind t} (h : Block.Words t) : PFlow ind t t := by
  induction h with
  | one h => exact .one (word_pword h)
  | more h _ ih => exact .space (word_pword h) ih

theorem noMark_line {t} (h : Block.NoMark t) : LineMark t := by
  intro x r hx e
  exact h [x, x, x] r (by rcases hx with rfl | rfl <;> simp) e

theorem lines_flow {p t v} (h : Block.PlainLines false p t v) : PFlow (p + 1) t v := by
  induction h with
  | one h => exact words_flow h
  | @more t m n g r v h hg hp hm _ ih =>
    have hm' := noMark_line (hm (.inl rfl))
    clear hm
    induction h with
    | one h => exact .line (word_pword h) hg (by omega) hm' ih
    | @more w k t h _ ih' =>
      have := PFlow.space (n := k) (word_pword h) ih'
      simpa [Block.spaces] using this

theorem fold_flat {m n g} (h : Block.Fold m n g) : 10 ∈ g := by
  have := fold_newline h
  simpa using this

theorem lines_flat {full p t v} (h : Block.PlainLines full p t v) (ht : 10 ∉ t) : Block.Words t ∧ v = t := by
  cases h with
  | one h => exact ⟨h, rfl⟩
  | more _ hg _ _ _ => exact absurd (by simp [fold_flat hg]) ht

/-! Between quotation marks -/

theorem utf8_one (c : Char) : Spec.utf8 [c] = Utf8.encode c.toNat := by rw [Utf8.utf8_cons, Utf8.utf8_nil, List.append_nil]

theorem piece_escape {c : Byte} {ch : Char} (h : (c, ch) ∈ Block.escapes) : Piece [92, c] (Spec.utf8 [ch]) := by
  have key : isBreak c = false ∧ simpleEscape c = some ch.toNat ∧ c ≠ 10 := by
    simp only [Block.escapes, List.mem_cons, Prod.mk.injEq, List.not_mem_nil, or_false] at h
    rcases h with ⟨rfl, rfl⟩ | ⟨rfl, rfl⟩ | ⟨rfl, rfl⟩ | ⟨rfl, rfl⟩ | ⟨rfl, rfl⟩ | ⟨rfl, rfl⟩ | ⟨rfl, rfl⟩ | ⟨rfl, rfl⟩ | ⟨rfl, rfl⟩ | ⟨rfl, rfl⟩ |
      ⟨rfl, rfl⟩ | ⟨rfl, rfl⟩ | ⟨rfl, rfl⟩ | ⟨rfl, rfl⟩ | ⟨rfl, rfl⟩ | ⟨rfl, rfl⟩ | ⟨rfl, rfl⟩ | ⟨rfl, rfl⟩ <;> decide
  obtain ⟨hb, hs, h10⟩ := key
  refine ⟨⟨_, rfl⟩, by simp [h10], fun start str s r h => ?_⟩
  have h0 : s.src.peekz 0 = 92 := by simp [Src.peekz, h]
  have h1 : s.src.peekz 1 = c := by simp [Src.peekz, h]
  unfold flowCharsBody resolveEscape skipN
  ev [h0, h1, hb, hs]
  simp [isBlankOrBreakz, isBlank, isBreak, utf8_one]
  rfl

theorem hex_none (l : List Nat) : l.foldl (fun acc c => do return (← acc) * 16 + (← Core.digit 16 c)) (none : Option Nat) = none := by
  induction l with
  | nil => rfl
  | cons d l ih => exact ih

theorem hex_run {s : Src} : ∀ {h r i a v}, s.rest.drop i = h ++ r → h.foldl (fun acc c => do return (← acc) * 16 + (← Core.digit 16 c)) (some a) = some v →
    hexValue s h.length i a = some (some v) ∧ ∀ x ∈ h, x ≠ 10 := by
  intro h
  induction h with
  | nil => intro r i a v _ h; simp at h; subst h; exact ⟨rfl, by simp⟩
  | cons c h ih =>
    intro r i a v hr hv
    rw [List.foldl_cons] at hv
    cases hc : Core.digit 16 c with
    | none =>
      rw [hc] at hv
      rw [show (do return (← some a) * 16 + (← (none : Option Nat))) = (none : Option Nat) from rfl, hex_none] at hv
      cases hv
    | some d =>
      rw [hc] at hv
      have hp : s.peekz i = c := by
        have : s.rest[i]? = some c := by
          have := congrArg List.head? hr
          simpa using this
        simp [Src.peekz, this]
      obtain ⟨h1, h2⟩ := hex_digit hc
      obtain ⟨h3, h4⟩ := ih (r := r) (i := i + 1) (a := a * 16 + d) (v := v) (by rw [← List.drop_drop, hr]; rfl) hv
      refine ⟨?_, ?_⟩
      · simp only [List.length_cons, hexValue, hp, h1, h2, if_true, h3]
      · intro x hx
        rcases List.mem_cons.1 hx with rfl | hx
        · rintro rfl; revert h1; decide
        · exact h4 x hx

theorem piece_hex {x : Byte} {k h} {c : Char} (hx : (x, k) ∈ Block.codes) (hk : h.length = k) (hn : Core.IsNumeral 16 h c.toNat) : Piece (92 :: x :: h) (Spec.utf8 [c]) := by
  have hv := fun (s : Src) (r : List Byte) (hs : s.rest = h ++ r) => hex_run (s := s) (i := 0) (r := r) (by simpa using hs) hn.2
  have h10 : x ≠ 10 := by
    simp only [Block.codes, List.mem_cons, Prod.mk.injEq, List.not_mem_nil, or_false] at hx
    rcases hx with ⟨rfl, -⟩ | ⟨rfl, -⟩ | ⟨rfl, -⟩ <;> decide
  refine ⟨⟨_, rfl⟩, ?_, fun start str s r hs => ?_⟩
  · intro y hy
    simp only [List.mem_cons] at hy
    rcases hy with rfl | rfl | hy
    · decide
    · exact h10
    · exact (hv ⟨h ++ [], 0, 0⟩ [] rfl).2 y hy
  · have h0 : s.src.peekz 0 = 92 := by simp [Src.peekz, hs]
    have h1 : s.src.peekz 1 = x := by simp [Src.peekz, hs]
    have hv' := (hv (s.src.skip 2) r (by simp [Src.skip, hs])).1
    have hc := Utf8.charFromU32_char c
    have key : hexEscape k start s = (.ok c.toNat, on s (h.length + 2)) := by
      unfold hexEscape skipN
      rw [hk] at hv'
      ev [hv', hc]
      simp [on, Src.skip, hs, hk]
      try omega
    simp only [Block.codes, List.mem_cons, Prod.mk.injEq, List.not_mem_nil, or_false] at hx
    unfold flowCharsBody resolveEscape
    ev [h0, h1]
    rcases hx with ⟨rfl, rfl⟩ | ⟨rfl, rfl⟩ | ⟨rfl, rfl⟩ <;>
      simp [isBlankOrBreakz, isBlank, isBreak, simpleEscape] <;> rw [bind_run key] <;> ev [] <;> simp [utf8_one]

theorem noMark_doc {w} {qt : Byte} (h : Block.NoMark (w ++ [qt])) : NotDocMark w := by
  intro d c r hd e
  obtain ⟨x, r', h1, h2, h3, h4, h5, h6⟩ := h [d, d, d] (c :: (r ++ [qt])) (by rcases hd with rfl | rfl <;> simp) (by rw [e]; rfl)
  simp at h1
  obtain ⟨rfl, -⟩ := h1
  simp [isBlankOrBreakz, isBlank, isBreak, h2, h3, h4, h5, h6]

theorem double_head {p w s} (h : Block.Double p w s) : ∀ c, w.head? = some c → 32 ≤ c ∨ c = 10 := by
  intro c hc
  cases h with
  | nil => cases hc
  | raw h _ _ _ => simp at hc; omega
  | space _ _ => simp [Block.spaces, List.replicate_succ] at hc; omega
  | short _ _ => simp at hc; omega
  | code _ _ _ _ => simp at hc; omega
  | @fold m n g w s hg _ _ =>
    cases g with
    | nil => exact absurd (fold_flat hg) (by simp)
    | cons x g => simp at hc; subst hc; have := fold_mem hg x (by simp); omega
  | join _ _ _ => simp at hc; omega

theorem unspaced_ink {w : List Byte} (h : ∀ c, w.head? = some c → 32 ≤ c ∨ c = 10) (hu : Block.Unspaced w) : InkHead w := by
  intro c hc
  have h1 := h c hc
  have h2 : c ≠ 32 := fun hx => hu.1 (by rw [hc, hx])
  have h3 : c ≠ 10 := fun hx => hu.2 (by rw [hc, hx])
  simp [isBlank, isBreak]
  omega

theorem raw_chars {b : Byte} {single : Bool} (h : 32 < b) (h1 : b ≠ if single then 39 else 34) (h2 : single = false → b ≠ 92) : QChars single [b] [b] := by
  refine .same ?_ h1 h2
  simp [isBlankOrBreakz, isBlank, isBreak]
  omega

theorem double_flow {p w s} (h : Block.Double p w s) : QFlow false (p + 1) w s := by
  induction h with
  | nil => exact .stop .empty
  | @raw b w s h1 h2 h3 _ ih => exact ih.cons (a := [b]) (x := [b]) (raw_chars h1 (by simpa using h2) (fun _ => h3))
  | @space n w s h1 h2 ih =>
    have := QFlow.gap (n := n) .empty (unspaced_ink (double_head h2) h1) ih
    simpa [Block.spaces] using this
  | short h _ ih => exact ih.cons (.piece (piece_escape h))
  | code h1 h2 h3 _ ih => exact ih.cons (.piece (piece_hex h1 h2 h3))
  | fold h1 h2 h3 ih =>
    have := QFlow.line .empty h1 (Nat.succ_le_succ h2.col) (unspaced_ink (double_head h3) h2.head) (fun hn => noMark_doc (h2.mark hn)) ih
    simpa using this
  | join h1 h2 h3 ih =>
    have := QFlow.esc rfl .empty h1 (Nat.succ_le_succ h2.col) (unspaced_ink (double_head h3) h2.head) (fun hn => noMark_doc (h2.mark hn)) ih
    simpa [Block.spaces] using this

theorem single_head {p w s} (h : Block.Single p w s) : ∀ c, w.head? = some c → 32 ≤ c ∨ c = 10 := by
  intro c hc
  cases h with
  | nil => cases hc
  | raw h _ _ => simp at hc; omega
  | space _ _ => simp [Block.spaces, List.replicate_succ] at hc; omega
  | quote _ => simp at hc; omega
  | @fold m n g w s hg _ _ =>
    cases g with
    | nil => exact absurd (fold_flat hg) (by simp)
    | cons x g => simp at hc; subst hc; have := fold_mem hg x (by simp); omega

theorem single_flow {p w s} (h : Block.Single p w s) : QFlow true (p + 1) w s := by
  induction h with
  | nil => exact .stop .empty
  | @raw b w s h1 h2 _ ih => exact ih.cons (a := [b]) (x := [b]) (raw_chars h1 (by simpa using h2) (by simp))
  | @space n w s h1 h2 ih =>
    have := QFlow.gap (n := n) .empty (unspaced_ink (single_head h2) h1) ih
    simpa [Block.spaces] using this
  | quote _ ih => exact ih.cons (a := [39, 39]) (x := [39]) .quote
  | fold h1 h2 h3 ih =>
    have := QFlow.line .empty h1 (Nat.succ_le_succ h2.col) (unspaced_ink (single_head h3) h2.head) (fun hn => noMark_doc (h2.mark hn)) ih
    simpa using this

/-! ## What the parts of a text do to the scanner -/

/-- not a gap, and not a document marker -/
def Starts (t : List Byte) : Prop := t ≠ [] ∧ ∀ r, FirstBlank r → TokenHead (t ++ r) ∧ NotMarkL (t ++ r)

/-- a node at column `c` is read as `toks`; `al`: whether it has to be at a place where a key may be; `p`: the column of the collection around
it; `f`: what has to follow it -/
def NodeG (al : Bool) (f : Option Nat) (p c : Nat) (t : List Byte) (toks : List TokenType) : Prop :=
  ∀ {cfg s out I i i0 I0 w q c' al' I' i' k}, Here cfg s out I i (t ++ (w ++ q)) c al' → (al = true → al' = true) → BCtx I i i0 I0 → BlockTop I0 → (i0 = 0 → I = [] ∧ i = 0) → i0 < c → i0 = p →
    EndL w q c' i0 → Fits f w q → (t ++ (w ++ q)).length < cfg.fuel → unroll (lowCol q c') i0 I0 = some (I', i', k) →
    Goes cfg s (t ++ (w ++ q)).length (out ++ toks ++ List.replicate k .blockEnd) I' i' q c' true

/-- items or entries of a collection at column `c` are read as `toks` -/
def PartG (tt : TokenType) (f : Option Nat) (c : Nat) (t : List Byte) (toks : List TokenType) : Prop :=
  ∀ {cfg s out I i i0 I0 w q c' I' i' k b}, Here cfg s out I i (t ++ (w ++ q)) c true → Opens I i i0 I0 c tt b →
    EndL w q c' c → Fits f w q → (t ++ (w ++ q)).length < cfg.fuel → unroll (lowCol q c') c (⟨i0, true⟩ :: I0) = some (I', i', k) →
    Goes cfg s (t ++ (w ++ q)).length (out ++ b ++ toks ++ List.replicate k .blockEnd) I' i' q c' true

/-- the same, if something follows -/
def PartN (tt : TokenType) (f : Option Nat) (c : Nat) (t : List Byte) (toks : List TokenType) : Prop :=
  ∀ {cfg s out I i i0 I0 w q c' I' i' k b}, Here cfg s out I i (t ++ (w ++ q)) c true → Opens I i i0 I0 c tt b →
    EndL w q c' c → Fits f w q → w ≠ [] → (t ++ (w ++ q)).length < cfg.fuel → unroll (lowCol q c') c (⟨i0, true⟩ :: I0) = some (I', i', k) →
    Goes cfg s (t ++ (w ++ q)).length (out ++ b ++ toks ++ List.replicate k .blockEnd) I' i' q c' true

theorem PartG.next {tt f c t toks} (h : PartG tt f c t toks) : PartN tt f c t toks := fun hh ho he hfo _ hf hu => h hh ho he hfo hf hu

theorem tallG {p t tok c} (h : TallText p t tok) : NodeG false none p c t [tok] := fun hh _ hx hb _ hi hp he _ hf hu => tall_goes hh h (Nat.le_of_eq hp) hx hb hi he hf hu

theorem scrollG {p C t tok c} (h : ScrollText p C t tok) : NodeG false (some C) p c t [tok] := fun hh _ hx hb _ hi hp he hfo hf hu => scroll_goes hh h hp hx hb hi he hfo hf hu

theorem scroll_starts {p C t tok} (h : ScrollText p C t tok) : Starts t := by
  cases h with
  | @mk folded =>
    refine ⟨by simp, fun r _ => ⟨by cases folded <;> simp [TokenHead], by cases folded <;> simp, fun x y hx e => ?_⟩⟩
    cases folded <;> simp at e <;> omega

theorem FirstBlank.pend {r} (h : FirstBlank r) : PEnd r := by
  rcases h with rfl | h | h
  · exact .inl rfl
  · cases r with
    | nil => cases h
    | cons b g => simp at h; subst h; exact .inr (.inl ⟨_, rfl⟩)
  · cases r with
    | nil => cases h
    | cons b g => simp at h; subst h; exact .inr (.inr (.inl ⟨_, rfl⟩))

theorem tall_starts {p t tok} (h : TallText p t tok) : Starts t := ⟨h.ne, fun _ hr => ⟨h.head, h.notMark hr.pend⟩⟩

theorem NodeG.weaken {f p c t toks} (h : NodeG false f p c t toks) : NodeG true f p c t toks := fun hh _ => h hh (by simp)

theorem Starts.low {t r c} (h : Starts t) (hr : FirstBlank r) : lowCol (t ++ r) c = c :=
  NotMarkL.low (fun _ => (h.2 r hr).2) (by simp [h.1])

theorem BlankNext.firstBlank {w q} (h : BlankNext w q) : FirstBlank (w ++ q) := by
  rcases h.next with h | ⟨b, r, h, rfl | rfl⟩
  · exact .inl h
  · rw [h]; exact .inr (.inl rfl)
  · rw [h]; exact .inr (.inr rfl)

theorem EndL.pend {w q c' i0} (h : EndL w q c' i0) : FirstBlank (w ++ q) := h.blank.firstBlank

/-- one after the other -/
theorem PartN.more {tt f1 f2 n t1 toks1 g t2 toks2} (h1 : PartN tt f1 (n + 1) t1 toks1) (hg : Block.Gap f1 n g) (h2 : PartG tt f2 (n + 1) t2 toks2) (hs : Starts t2) :
    PartG tt f2 (n + 1) (t1 ++ (g ++ t2)) (toks1 ++ toks2) := by
  intro cfg s out I i i0 I0 w q c' I' i' k b hh ho he hfo hf hu
  have e : (t1 ++ (g ++ t2)) ++ (w ++ q) = t1 ++ (g ++ (t2 ++ (w ++ q))) := by simp
  rw [e] at hh hf ⊢
  have hne : t2 ++ (w ++ q) ≠ [] := by simp [hs.1]
  have := h1 (w := g) (q := t2 ++ (w ++ q)) (I' := ⟨i0, true⟩ :: I0) (i' := n + 1) (k := 0) hh ho (break_end (gap_break hg) (hs.2 _ he.pend).1 hne (Nat.le_refl _)) (gap_fits hg (hs.2 _ he.pend).1 hne) (fun e => by have := break_first (gap_break hg); simp [e] at this) hf
    (by rw [hs.low he.pend]; exact unroll_ok (Nat.le_refl _))
  refine this.then fun s' h' => ?_
  have := h2 h' (.inr ⟨rfl, rfl, rfl⟩) he hfo (by simp at hf ⊢; omega) hu
  simpa using this

theorem PartG.more {tt f1 f2 n t1 toks1 g t2 toks2} (h1 : PartG tt f1 (n + 1) t1 toks1) (hg : Block.Gap f1 n g) (h2 : PartG tt f2 (n + 1) t2 toks2) (hs : Starts t2) :
    PartG tt f2 (n + 1) (t1 ++ (g ++ t2)) (toks1 ++ toks2) := PartN.more h1.next hg h2 hs

/-- a collection -/
theorem PartG.node {tt f p c t toks} (h : PartG tt f c t toks) : NodeG true f p c t (tt :: (toks ++ [.blockEnd])) := by
  intro cfg s out I i i0 I0 w q c' al' I' i' k hh hal hx hb _ hi _ he hfo hf hu
  obtain rfl := hal rfl
  have := h hh (.inl ⟨hx, hb, hi, rfl⟩) (he.deeper hi) hfo hf (unroll_closeL he hi hu)
  simpa [List.replicate_succ] using this

theorem BCtx.le {I i i0 I0} (h : BCtx I i i0 I0) : i ≤ i0 + 1 := by
  rcases h with ⟨-, rfl⟩ | ⟨-, rfl⟩ <;> omega

/-- an indicator without a node -/
theorem lead_absentN {tt c0 tok e c} (h : LeadG tt c0 tok e) : PartN tt none c [c0] [tok] := by
  intro cfg s out I i i0 I0 w q c' I' i' k b hh ho he hfo hw hf hu
  obtain ⟨I1, i1, hx, hg⟩ := h (c' := c') (w := w) (q := q) hh ho he.1 he.head he.blank (fun h => absurd h hw) (fun hq m _ => (he.col hq m).1) hf
  exact hg I' i' k ((hx.unroll he.low).trans hu)

theorem lead_absent {tt c0 tok c} (h : LeadG tt c0 tok true) : PartG tt none c [c0] [tok] := by
  intro cfg s out I i i0 I0 w q c' I' i' k b hh ho he hfo hf hu
  obtain ⟨I1, i1, hx, hg⟩ := h (c' := c') (w := w) (q := q) hh ho he.1 he.head he.blank (fun _ => rfl) (fun hq m _ => (he.col hq m).1) hf
  exact hg I' i' k ((hx.unroll he.low).trans hu)

theorem lowCol_deep {q c} (hq : q ≠ []) (hc : c ≠ 1) : lowCol q c = c := by
  unfold lowCol
  rw [if_neg]
  rintro (h | ⟨h, -⟩)
  · exact hq h
  · exact hc h

theorem head_ne {g : List Byte} (h : g.head? = some 32 ∨ g.head? = some 10) : g ≠ [] := by
  rintro rfl
  simp at h

/-- an indicator with a node -/
theorem lead_node {tt c0 tok e f c g t toks c2} (hl : LeadG tt c0 tok e) (hg : ∀ q, Lay g q) (hb : g.head? = some 32 ∨ g.head? = some 10)
    (hcol : ∀ m : Marker, m.col = c + 1 → (gapMark m g).col = c2) (h1 : 1 ≤ c) (hc : c < c2)
    (h : NodeG true f c c2 t toks) (hs : Starts t) : PartG tt f c (c0 :: (g ++ t)) (tok :: toks) := by
  intro cfg s out I i i0 I0 w q c' I' i' k b hh ho he hfo hf hu
  have e : (c0 :: (g ++ t)) ++ (w ++ q) = c0 :: (g ++ (t ++ (w ++ q))) := by simp
  rw [e] at hh hf ⊢
  have hne : t ++ (w ++ q) ≠ [] := by simp [hs.1]
  obtain ⟨I1, i1, hx, hgo⟩ := hl (c' := c2) (w := g) (q := t ++ (w ++ q)) hh ho (hg _) (hs.2 _ he.pend).1 (.inr hb) (fun h => absurd h (head_ne hb)) (fun _ => hcol) hf
  have := hgo I1 i1 0 (by rw [lowCol_deep hne (by omega)]; exact unroll_ok (by have := hx.le; omega))
  refine this.then fun s' h' => ?_
  have := h h' (fun _ => rfl) hx (.inr ⟨_, _, rfl⟩) (fun h => absurd h (by omega)) hc rfl he hfo (by simp at hf ⊢; omega) hu
  simpa using this

/-- an indicator with a sequence in the same column -/
theorem lead_beside {c0 tok e f n g t toks} (hl : LeadG .blockMappingStart c0 tok e) (hg : Block.Break n g)
    (h : PartG .blockSequenceStart f (n + 1) t toks) (hs : Starts t) : PartG .blockMappingStart f (n + 1) (c0 :: (g ++ t)) (tok :: toks) := by
  intro cfg s out I i i0 I0 w q c' I' i' m b hh ho he hfo hf hu
  have e : (c0 :: (g ++ t)) ++ (w ++ q) = c0 :: (g ++ (t ++ (w ++ q))) := by simp
  rw [e] at hh hf ⊢
  obtain ⟨I1, i1, hx, hgo⟩ := hl (c' := n + 1) (w := g) (q := t ++ (w ++ q)) hh ho (break_lay hg) (hs.2 _ he.pend).1 (.inr (break_first hg)) (fun h => absurd h (head_ne (break_first hg)))
    (fun _ m hm => break_col hg m) hf
  have := hgo (⟨i0, true⟩ :: I0) (n + 1) 0 (by rw [hs.low he.pend, hx.unroll (Nat.le_refl _)]; exact unroll_ok (Nat.le_refl _))
  refine this.then fun s' h' => ?_
  have := h h' (.inr ⟨rfl, rfl, rfl⟩) he hfo (by simp at hf ⊢; omega) hu
  simpa using this

theorem spaces_first {m : Nat} {w : List Byte} : (Block.spaces (m + 1) ++ w).head? = some 32 := rfl

theorem spaces_mem {j : Nat} : ∀ x ∈ Block.spaces j, x = 32 := fun _ hx => List.eq_of_mem_replicate hx

theorem spaces_col (m : Marker) (n : Nat) : (gapMark m (Block.spaces n)).col = m.col + n := by
  show (gapMark m (List.replicate n 32)).col = _
  rw [gapMark_spaces]

theorem spaces_len (n : Nat) : (Block.spaces n).length = n := by simp [Block.spaces]

/-- an entry without a value -/
theorem entry_absent {c k tok j} (hk : LeafText k tok) (hj : k.length + j ≤ 1024) (h1 : 1 ≤ c) :
    PartG .blockMappingStart none c (k ++ (Block.spaces j ++ [58])) [.key, tok, .value] := by
  intro cfg s out I i i0 I0 w q c' I' i' n b hh ho he hfo hf hu
  have e : (k ++ (Block.spaces j ++ [58])) ++ (w ++ q) = k ++ (Block.spaces j ++ (58 :: (w ++ q))) := by simp
  rw [e] at hh hf ⊢
  obtain ⟨I1, i1, hx, hg⟩ := pair_lay (c' := c') (w := w) (q := q) hh hk spaces_mem (by rw [spaces_len]; exact hj) h1 ho he.1 he.head he.blank (fun hq m _ => (he.col hq m).1) hf
  have := hg I' i' n ((hx.unroll he.low).trans hu)
  by_cases hq : q = []
  · subst hq
    obtain ⟨m, s', f, h', hb⟩ := this
    exact ⟨m, s', f, h'.nil _, hb⟩
  · rw [(he.col hq ⟨0, 0, 0⟩).2.2] at this
    exact this

/-- an entry with a value -/
theorem entry_node {f c k tok j g t toks c2} (hk : LeafText k tok) (hj : k.length + j ≤ 1024) (h1 : 1 ≤ c) (hg : ∀ q, Lay g q) (hb : g.head? = some 32 ∨ g.head? = some 10)
    (hcol : ∀ m : Marker, m.col = c + k.length + j + 1 → (gapMark m g).col = c2) (hc : c < c2)
    (h : NodeG (g.contains 10) f c c2 t toks) (hs : Starts t) : PartG .blockMappingStart f c (k ++ (Block.spaces j ++ 58 :: (g ++ t))) (.key :: tok :: .value :: toks) := by
  intro cfg s out I i i0 I0 w q c' I' i' n b hh ho he hfo hf hu
  have e : (k ++ (Block.spaces j ++ 58 :: (g ++ t))) ++ (w ++ q) = k ++ (Block.spaces j ++ (58 :: (g ++ (t ++ (w ++ q))))) := by simp
  rw [e] at hh hf ⊢
  have hne : t ++ (w ++ q) ≠ [] := by simp [hs.1]
  obtain ⟨I1, i1, hx, hgo⟩ := pair_lay (c' := c2) (w := g) (q := t ++ (w ++ q)) hh hk spaces_mem (by rw [spaces_len]; exact hj) h1 ho (hg _) (hs.2 _ he.pend).1 (.inr hb)
    (fun _ m hm => hcol m (by rw [hm, spaces_len])) hf
  have := hgo I1 i1 0 (by rw [lowCol_deep hne (by omega)]; exact unroll_ok (by have := hx.le; omega))
  refine this.then fun s' h' => ?_
  have := h h' (fun hx => hx) hx (.inr ⟨_, _, rfl⟩) (fun h => absurd h (by omega)) hc rfl he hfo (by simp at hf ⊢; omega) hu
  simpa using this

/-- an entry whose value is a sequence in the same column -/
theorem entry_beside {f n k tok j g t toks} (hk : LeafText k tok) (hj : k.length + j ≤ 1024) (hg : Block.Break n g)
    (h : PartG .blockSequenceStart f (n + 1) t toks) (hs : Starts t) :
    PartG .blockMappingStart f (n + 1) (k ++ (Block.spaces j ++ 58 :: (g ++ t))) (.key :: tok :: .value :: toks) := by
  intro cfg s out I i i0 I0 w q c' I' i' m b hh ho he hfo hf hu
  have e : (k ++ (Block.spaces j ++ 58 :: (g ++ t))) ++ (w ++ q) = k ++ (Block.spaces j ++ (58 :: (g ++ (t ++ (w ++ q))))) := by simp
  rw [e] at hh hf ⊢
  obtain ⟨I1, i1, hx, hgo⟩ := pair_lay (c' := n + 1) (w := g) (q := t ++ (w ++ q)) hh hk spaces_mem (by rw [spaces_len]; exact hj) (by omega) ho (break_lay hg) (hs.2 _ he.pend).1 (.inr (break_first hg))
    (fun _ m hm => break_col hg m) hf
  have := hgo (⟨i0, true⟩ :: I0) (n + 1) 0 (by rw [hs.low he.pend, hx.unroll (Nat.le_refl _)]; exact unroll_ok (Nat.le_refl _))
  rw [break_newline hg] at this
  refine this.then fun s' h' => ?_
  have := h h' (.inr ⟨rfl, rfl, rfl⟩) he hfo (by simp at hf ⊢; omega) hu
  simpa using this
/-! ## Events and trees -/

theorem scalar_value {fo : FloatOps F} {t x} (h : Block.Resolves false fo t x) : Scalar.valueFromCowAndMetadata fo t .plain none = .scalar x := by
  cases h with
  | null h => exact (Props.C07_null_spellings_partial fo t).2 h
  | true h => exact (Props.C41_bool_exact fo t true).2 h
  | false h => exact (Props.C41_bool_exact fo t false).2 h
  | int h1 h2 => exact (Props.C05_int_exact fo t _).2 ⟨.inl h1, h2⟩
  | special h =>
    cases h with
    | inf h => simp at h; rcases h with rfl | rfl | rfl | rfl | rfl | rfl <;> rfl
    | ninf h => simp at h; rcases h with rfl | rfl | rfl <;> rfl
    | nan h => simp at h; rcases h with rfl | rfl | rfl <;> rfl
  | float h1 h2 h3 =>
    refine (Props.C41_float_exact fo t _).2 ⟨?_, .inr ⟨?_, h3.1, h3.2⟩⟩
    · rintro i ⟨h | h, hf⟩
      · exact h1 i h hf
      · exact h2 rfl i h hf
    · obtain ⟨⟨c, hc, hd⟩, -⟩ := h3
      rintro g (⟨h, -⟩ | ⟨h, -⟩ | ⟨h, -⟩)
      · simp at h
        rcases h with rfl | rfl | rfl | rfl | rfl | rfl <;> simp at hc <;> omega
      · simp at h
        rcases h with rfl | rfl | rfl <;> simp at hc <;> omega
      · simp at h
        rcases h with rfl | rfl | rfl <;> simp at hc <;> omega
  | str h1 h2 h3 h4 h5 h6 h7 =>
    obtain ⟨⟨x, hx⟩, hs⟩ := Props.C41_string_is_text fo t
    rw [hx]
    cases x with
    | null => exact absurd ((Props.C07_null_spellings_partial fo t).1 hx) h1
    | bool b =>
      have := (Props.C41_bool_exact fo t b).1 hx
      cases b
      · exact absurd this h3
      · exact absurd this h2
    | int i =>
      obtain ⟨h | h, hf⟩ := (Props.C05_int_exact fo t i).1 hx
      · exact absurd hf (h4 i h)
      · exact absurd hf (h5 rfl i h)
    | float f =>
      obtain ⟨-, h | ⟨-, h, hp⟩⟩ := (Props.C41_float_exact fo t f).1 hx
      · rcases h with ⟨h, rfl⟩ | ⟨h, rfl⟩ | ⟨h, rfl⟩
        · exact absurd (.inf h) (h6 _)
        · exact absurd (.ninf h) (h6 _)
        · exact absurd (.nan h) (h6 _)
      · exact absurd ⟨h, hp⟩ (h7 f)
    | str u => rw [hs u hx]

theorem leaf_text {fo : FloatOps F} {t x} (h : Block.Leaf false fo t x) : ∃ st v, LeafText t (.scalar st v) ∧ Scalar.valueFromCowAndMetadata fo v st none = x := by
  obtain ⟨h, hn⟩ := h
  cases h with
  | plain h1 h2 h3 =>
    obtain ⟨h4, rfl⟩ := lines_flat h2 hn
    exact ⟨_, _, .plain (words_pwords h4) (plain_first h1), scalar_value h3⟩
  | @double w s h =>
    have hm : ∀ b ∈ w, b ≠ 10 := fun b hb hx => hn (by subst hx; simp [hb])
    exact ⟨_, _, .double ((double_flow h).oneLine hm) hm, rfl⟩
  | @single w s h =>
    have hm : ∀ b ∈ w, b ≠ 10 := fun b hb hx => hn (by subst hx; simp [hb])
    exact ⟨_, _, .single ((single_flow h).oneLine hm) hm, rfl⟩

theorem tall_text {fo : FloatOps F} {p t x} (h : Block.Tall false fo p t x) : ∃ st v, TallText p t (.scalar st v) ∧ Scalar.valueFromCowAndMetadata fo v st none = x := by
  cases h with
  | plain h1 h2 h3 => exact ⟨_, _, .plain (lines_flow h2) (plain_first h1), scalar_value h3⟩
  | double h => exact ⟨_, _, .double (double_flow h), rfl⟩
  | single h => exact ⟨_, _, .single (single_flow h), rfl⟩

theorem scalar_tree {fo : FloatOps F} (st v A) : Tree UntaggedKey fo A [.scalar ⟨v, st, 0, none⟩] (Scalar.valueFromCowAndMetadata fo v st none) A := by
  have := Tree.scalar (okKey := UntaggedKey) (fo := fo) (A := A) ⟨v, st, 0, none⟩
  simpa only [bind_zero] using this

theorem leaf_untagged {fo : FloatOps F} {t x} (h : Block.Leaf false fo t x) : UntaggedKey x := by
  cases h.1 <;> exact ⟨by simp, by simp⟩

/-- the value of a missing node -/
abbrev emptyStr : Yaml F := .scalar (.str [])

end Verif.Scanner
