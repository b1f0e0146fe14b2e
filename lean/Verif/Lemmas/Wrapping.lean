import Verif.Lemmas.ScanFolded
import Verif.Lemmas.RoundTrip
import Verif.Spec.Wrapping
/-!
# What the serialiser writes for a string is read as the string
-/
namespace Verif.Ser
open Verif Verif.CharUtils Verif.Spec Verif.Scanner

/-- `m` is `v` with some spaces replaced by line feeds -/
inductive Wrapped : List Byte → List Byte → Prop
  | nil : Wrapped [] []
  | same (b) {m v} : Wrapped m v → Wrapped (b :: m) (b :: v)
  | brk {m v} : Wrapped m v → Wrapped (10 :: m) (32 :: v)

theorem Wrapped.pre {m v} (h : Wrapped m v) : ∀ a, Wrapped (a ++ m) (a ++ v)
  | [] => h
  | b :: a => .same b (h.pre a)

theorem Wrapped.refl (a) : Wrapped a a := by simpa using Wrapped.nil.pre a

theorem last_split {buff : List Byte} (h : isLastCharSplittableWs buff = true) (hn : 10 ∉ buff) : ∃ b', buff = b' ++ [32] := by
  rcases List.eq_nil_or_concat buff with rfl | ⟨b', c, rfl⟩
  · cases h
  · refine ⟨b', ?_⟩
    simp [isLastCharSplittableWs] at h
    simp at hn
    have : c = 32 := by omega
    simp [this]

theorem multi_wrapped (fm : Formatter) : ∀ (words : List (List Byte × Nat)) (buff : List Byte) (len : Nat), (∀ w ∈ words, w.1 ≠ []) →
    SingleBlanks (buff ++ (words.map (·.1)).flatten) → 10 ∉ buff ++ (words.map (·.1)).flatten →
    Wrapped (multiLoop fm 0 words buff len) (buff ++ (words.map (·.1)).flatten) := by
  intro words
  induction words with
  | nil => intro buff len _ _ _; simpa [multiLoop] using Wrapped.refl buff
  | cons w ws ih =>
    obtain ⟨word, n⟩ := w
    intro buff len hne hs hn
    simp only [List.map_cons, List.flatten_cons] at hs hn ⊢
    have hs' : SingleBlanks (word ++ (ws.map (·.1)).flatten) := fun x y hx hy h => hs x y hx hy (h.trans (List.suffix_append _ _).isInfix)
    have hne' : ∀ w ∈ ws, w.1 ≠ [] := fun w hw => hne w (by simp [hw])
    have joined : Wrapped (multiLoop fm 0 ws (buff ++ word) (len + n)) (buff ++ (word ++ (ws.map (·.1)).flatten)) := by
      have := ih (buff ++ word) (len + n) hne' (by simpa using hs) (by simpa using hn)
      simpa using this
    rw [multiLoop]
    split
    · split
      · rename_i h1 h2
        obtain ⟨b', rfl⟩ := last_split h2 (fun h => hn (by simp [h]))
        have := ih word n hne' hs' (fun h => hn (by simp at h ⊢; simp [h]))
        have := (Wrapped.brk this).pre b'
        simpa [lineSplitAt] using this
      · split
        · rename_i h1 h2 h3
          have hw : word = [32] := by
            simp [isSplittableWs] at h3
            have h32 : ∀ b ∈ word, b = 32 := by
              intro b hb
              rcases h3 b hb with h | h
              · exact h
              · subst h; exact absurd (by simp [hb]) hn
            have hwn : word ≠ [] := hne (word, n) (by simp)
            clear joined h3 hne
            match word, hwn, h32, hs' with
            | [a], _, h32, _ => rw [h32 a (by simp)]
            | a :: b :: r, _, h32, hs' =>
              refine absurd ?_ (hs' a b (.inl (h32 a (by simp))) (.inl (h32 b (by simp))))
              exact ⟨[], r ++ (ws.map (·.1)).flatten, by simp⟩
          subst hw
          have hs2 : SingleBlanks ([] ++ (ws.map (·.1)).flatten) := fun x y hx hy h => hs' x y hx hy (h.trans (List.suffix_append _ _).isInfix)
          have := ih [] 0 hne' hs2 (fun h => hn (by simp at h ⊢; simp [h]))
          have := (Wrapped.brk this).pre buff
          simpa [lineSplitAt] using this
        · exact joined
    · exact joined

theorem multi_short (fm : Formatter) : ∀ (words : List (List Byte × Nat)) (buff : List Byte) (len : Nat), len + totalLength words ≤ fm.prefStringLength →
    multiLoop fm 0 words buff len = buff ++ (words.map (·.1)).flatten := by
  intro words
  induction words with
  | nil => intro buff len _; simp [multiLoop]
  | cons w ws ih =>
    obtain ⟨word, n⟩ := w
    intro buff len h
    simp [totalLength] at h
    rw [multiLoop, if_neg (by omega), ih _ _ (by simp [totalLength]; omega)]
    simp

theorem ordinary_of {b} (h : b ≠ 34 ∧ b ≠ 92 ∧ b ≠ 10 ∧ b ≠ 13 ∧ b ≠ 0) (hb : ¬ Blank b) : Ordinary b := by
  unfold Blank at hb
  simp [Ordinary, isBlankOrBreakz, isBlank, isBreak]
  omega

theorem not_white {b} (h : b ≠ 10 ∧ b ≠ 13) (hb : ¬ Blank b) : isBlank b = false ∧ isBreak b = false := by
  unfold Blank at hb
  simp [isBlank, isBreak]
  omega

theorem wrapped_folded {m v} (h : Wrapped m v) : NoSpecials v → SingleBlanks v → NoMarkers v → Folded m v := by
  induction h with
  | nil => intros; exact .stop .nil
  | @same b m v h ih =>
    intro h1 h2 h3
    have hb := h1 b (by simp)
    have ihF := ih (fun x hx => h1 x (by simp [hx])) (fun x y hx hy hh => h2 x y hx hy (hh.trans (List.suffix_cons _ _).isInfix))
      (fun d c hd hc hh => h3 d c hd hc (hh.trans (List.suffix_cons _ _).isInfix))
    by_cases hbl : Blank b
    · have ink : InkHead m := by
        intro c hc
        cases h with
        | nil => cases hc
        | @same a m' v' h' =>
          simp at hc
          subst hc
          have := h1 a (by simp)
          exact not_white ⟨this.2.2.1, this.2.2.2.1⟩ fun hx => h2 b a hbl hx ⟨[], v', by simp⟩
        | @brk m' v' h' => exact absurd ⟨[], v', by simp⟩ (h2 b 32 hbl (.inl rfl))
      exact .gap (w := []) (u := []) (g := [b]) .nil (by simp) (by rcases hbl with rfl | rfl <;> simp [isBlank]) ink ihF
    · exact ihF.cons (ordinary_of hb hbl)
  | @brk m v h ih =>
    intro h1 h2 h3
    have ihF := ih (fun x hx => h1 x (by simp [hx])) (fun x y hx hy hh => h2 x y hx hy (hh.trans (List.suffix_cons _ _).isInfix))
      (fun d c hd hc hh => h3 d c hd hc (hh.trans (List.suffix_cons _ _).isInfix))
    have ink : InkHead m := by
      intro c hc
      cases h with
      | nil => cases hc
      | @same a m' v' h' =>
        simp at hc
        subst hc
        have := h1 a (by simp)
        exact not_white ⟨this.2.2.1, this.2.2.2.1⟩ fun hx => h2 32 a (.inl rfl) hx ⟨[], v', by simp⟩
      | @brk m' v' h' => exact absurd ⟨[], v', by simp⟩ (h2 32 32 (.inl rfl) (.inl rfl))
    have mark : NotDocMark m := by
      intro d c r hd hm
      subst hm
      have hd10 : d ≠ 10 := by omega
      have step : ∀ {m v}, Wrapped (d :: m) v → ∃ v', v = d :: v' ∧ Wrapped m v' := by
        intro m v h
        cases h with
        | same _ h => exact ⟨_, rfl, h⟩
        | brk _ => exact absurd rfl hd10
      obtain ⟨v1, rfl, h'⟩ := step h
      obtain ⟨v2, rfl, h''⟩ := step h'
      obtain ⟨v3, rfl, h3'⟩ := step h''
      cases h3' with
      | @same _ m' v' hh =>
        have hc := h1 c (by simp)
        by_cases hbl : Blank c
        · exact absurd ⟨[], v', by simp⟩ (h3 d c hd hbl)
        · exact (ordinary_of hc hbl).1
      | @brk m' v' hh => exact absurd ⟨[], v', by simp⟩ (h3 d 32 hd (.inl rfl))
    exact .line (w := []) (u := []) (n := 0) .nil ink mark ihF

theorem Folded.blank {b m v} (h : Folded m v) (hb : isBlank b = true) (hm : m.head? ≠ some 10) : Folded (b :: m) (b :: v) := by
  have new : InkHead m → Folded (b :: m) (b :: v) := fun hi => .gap (w := []) (u := []) (g := [b]) .nil (by simp) (by simp [hb]) hi h
  cases h with
  | stop h1 =>
    cases h1 with
    | nil => exact new (by intro c hc; cases hc)
    | same hx h2 => exact new (by simpa using (Chars.same hx h2).ink (by simp) [])
    | esc hx h2 =>
      refine new ?_
      obtain ⟨e', rfl, -⟩ := esc_bytes hx
      simpa using (Chars.esc hx h2).ink (by simp) []
    | piece hx h2 =>
      refine new ?_
      obtain ⟨e', rfl⟩ := hx.1
      simpa using (Chars.piece hx h2).ink (by simp) []
  | @gap w u g m' v' h1 h2 h3 h4 h5 =>
    by_cases hw : w = []
    · subst hw
      generalize hw : ([] : List Byte) = w at h1
      cases h1 with
      | nil => exact .gap (w := []) (u := []) (g := b :: g) .nil (by simp) (by simpa [hb] using h3) h4 h5
      | same => cases hw
      | esc hx =>
        obtain ⟨e', rfl, -⟩ := esc_bytes hx
        cases hw
      | piece hx =>
        obtain ⟨e', rfl⟩ := hx.1
        cases hw
    · exact new (h1.ink hw _)
  | @line w u n m' v' h1 h2 h3 h4 =>
    by_cases hw : w = []
    · subst hw
      exact absurd (by simp [List.replicate_succ]) hm
    · exact new (h1.ink hw _)

theorem folded_refl {v} (h : NoSpecials v) : Folded v v := by
  induction v with
  | nil => exact .stop .nil
  | cons b v ih =>
    have ihF := ih (fun x hx => h x (by simp [hx]))
    by_cases hb : Blank b
    · refine Folded.blank ihF (by rcases hb with rfl | rfl <;> simp [isBlank]) ?_
      intro hx
      cases v with
      | nil => cases hx
      | cons a v =>
        simp at hx
        subst hx
        exact (h 10 (by simp)).2.2.1 rfl
    · exact ihF.cons (ordinary_of (h b (by simp)) hb)

theorem folded_loads {F} (fo : FloatOps F) {m v q} (h : Folded m v) (hq : Trails q) : LoadsAs fo (34 :: (m ++ 34 :: q)) v := by
  refine ⟨m.length + 6, fun cfg n hf hn => ?_⟩
  obtain ⟨toks, h3, h4⟩ := scan_folded (cfg := cfg) (N := n) h hq (by omega) (by omega)
  unfold Loader.loadFrom Loader.loadSingle Loader.parserOn
  simp only [h3]
  exact Emitter.load_bare (tts := [.scalar .doubleQuote v]) (evs := [.scalar ⟨v, .doubleQuote, 0, none⟩]) h4 (.bare .scalar) (.scalar ⟨v, .doubleQuote, 0, none⟩) _ _

end Verif.Ser
