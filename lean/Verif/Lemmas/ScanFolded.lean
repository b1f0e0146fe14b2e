import Verif.Lemmas.ScanTree
/-!
# Scanning double-quoted scalars without escapes, over several lines
-/
namespace Verif.Scanner
open Verif Verif.CharUtils Verif.Source Verif.Emitter

/-- a byte that stands for itself and is not white space -/
def Ordinary (b : Byte) : Prop := isBlankOrBreakz b = false ∧ b ≠ 34 ∧ b ≠ 92

/-- the next byte is not white space -/
def InkHead (m : List Byte) : Prop := ∀ c, m.head? = some c → isBlank c = false ∧ isBreak c = false

/-- no document marker at the beginning -/
def NotDocMark (m : List Byte) : Prop := ∀ d c r, (d = 45 ∨ d = 46) → m = d :: d :: d :: c :: r → isBlankOrBreakz c = false

/-- what `n + 1` line feeds stand for -/
def folds (n : Nat) : List Byte := if n = 0 then [32] else List.replicate n 10

/-- an escape that stands for the bytes `v` -/
def Piece (e v : List Byte) : Prop := (∃ e', e = 92 :: e') ∧ (∀ x ∈ e, x ≠ 10) ∧ ∀ start str (s : SSt) r, s.src.rest = e ++ r →
  flowCharsBody false start str s = (.ok (.next (str ++ v)), on s e.length)

/-- bytes that stand for themselves, and escapes -/
inductive Chars : List Byte → List Byte → Prop
  | nil : Chars [] []
  | same {b w u} : Ordinary b → Chars w u → Chars (b :: w) (b :: u)
  | esc {b e w u} : escapeOf b = some e → Chars w u → Chars (e ++ w) (b :: u)
  | piece {e v w u} : Piece e v → Chars w u → Chars (e ++ w) (v ++ u)

/-- `m`, between double quotes, is read as `v`: white space within a line stands for itself, a single line feed for a space, and
`n + 1` line feeds for `n` -/
inductive Folded : List Byte → List Byte → Prop
  | stop {w u} : Chars w u → Folded w u
  | gap {w u g m v} : Chars w u → g ≠ [] → (∀ b ∈ g, isBlank b = true) → InkHead m → Folded m v → Folded (w ++ (g ++ m)) (u ++ (g ++ v))
  | line {w u n m v} : Chars w u → InkHead m → NotDocMark m → Folded m v →
      Folded (w ++ (List.replicate (n + 1) 10 ++ m)) (u ++ (folds n ++ v))

theorem Folded.cons {b m v} (h : Folded m v) (hb : Ordinary b) : Folded (b :: m) (b :: v) := by
  cases h with
  | stop h => exact .stop (.same hb h)
  | gap h1 h2 h3 h4 h5 => exact .gap (.same hb h1) h2 h3 h4 h5
  | line h1 h2 h3 h4 => exact .line (.same hb h1) h2 h3 h4

theorem esc_bytes {b e} (h : escapeOf b = some e) : ∃ e', e = 92 :: e' ∧ ∀ x ∈ e, x ≠ 10 := by
  obtain ⟨h1, -⟩ := escapeOf_len h
  refine ⟨e.tail, h1, ?_⟩
  have hd : ∀ n, hexDigit n ≠ 10 := by intro n; unfold hexDigit; split <;> omega
  unfold escapeOf at h
  repeat' split at h
  all_goals cases h
  all_goals simp
  exact ⟨hd _, hd _⟩

theorem Chars.noBreak {w u} (h : Chars w u) : ∀ b ∈ w, b ≠ 10 := by
  induction h with
  | nil => simp
  | @same b w u hb _ ih =>
    intro x hx
    rcases List.mem_cons.1 hx with rfl | hx
    · have := hb.1
      rintro rfl
      simp [isBlankOrBreakz, isBreak] at this
    · exact ih x hx
  | @esc b e w u he _ ih =>
    intro x hx
    rcases List.mem_append.1 hx with hx | hx
    · obtain ⟨_, -, h⟩ := esc_bytes he
      exact h x hx
    · exact ih x hx
  | piece he _ ih =>
    intro x hx
    rcases List.mem_append.1 hx with hx | hx
    · exact he.2.1 x hx
    · exact ih x hx

theorem Chars.ink {w u} (h : Chars w u) (hn : w ≠ []) (q) : InkHead (w ++ q) := by
  intro c hc
  cases h with
  | nil => exact absurd rfl hn
  | @same b w u hb _ =>
    simp at hc
    subst hc
    have := hb.1
    simp [isBlankOrBreakz] at this
    exact ⟨this.1.2, this.2⟩
  | @esc b e w u he _ =>
    obtain ⟨e', rfl, -⟩ := esc_bytes he
    simp at hc
    subst hc
    decide
  | piece he _ =>
    obtain ⟨⟨e', rfl⟩, -⟩ := he
    simp at hc
    subst hc
    decide

theorem gapMark_col {b} (m : Marker) (hb : b ≠ 10) : gapMark m [b] = { m with pos := m.pos + 1, col := m.col + 1 } := by
  rw [gapMark, if_neg hb, gapMark]

theorem gapMark_pos (m : Marker) (w : List Byte) (h : 1 ≤ m.col) : 1 ≤ (gapMark m w).col := by
  induction w generalizing m with
  | nil => exact h
  | cons b w ih =>
    rw [gapMark]
    split
    · exact ih _ (by simp)
    · exact ih _ (by simp)

theorem skipNonBlank_pass {s : SSt} {b} (hb : b ≠ 10) : skipNonBlank s = (.ok (), pass s [b] false) := by
  simp [skipNonBlank, upd, pass, gapMark_col _ hb]

theorem skipBlank_pass {s : SSt} {b} (hb : b ≠ 10) : skipBlank s = (.ok (), pass s [b] s.leadingWhitespace) := by
  simp [skipBlank, upd, pass, gapMark_col _ hb]

theorem gapMark_flat (x : List Byte) (mk : Marker) (h : ∀ b ∈ x, b ≠ 10) : gapMark mk x = { mk with pos := mk.pos + x.length, col := mk.col + x.length } := by
  induction x generalizing mk with
  | nil => rfl
  | cons y x ih =>
    rw [gapMark, if_neg (h y (by simp)), ih _ (fun z hz => h z (by simp [hz]))]
    simp [Nat.add_comm, Nat.add_left_comm]

theorem ordinary_run {start} {c r} (hc : isBlankOrBreakz c = true ∨ c = 34) {w u} (hw : Chars w u) : ∀ {k s str},
    s.src.rest = w ++ c :: r → w.length < k → ∃ l, loopM (flowCharsBody false start) k str s = (.ok (str ++ u, false), pass s w l) := by
  induction hw with
  | nil =>
    intro k s str hr hk
    obtain ⟨k, rfl⟩ : ∃ j, k = j + 1 := ⟨k - 1, by omega⟩
    refine ⟨s.leadingWhitespace, ?_⟩
    rw [loop_done (flowChars_stop hr hc), pass_nil]
    simp
  | @same b w u hb hw ih =>
    intro k s str hr hk
    obtain ⟨k, rfl⟩ : ∃ j, k = j + 1 := ⟨k - 1, by omega⟩
    obtain ⟨hb1, hb2, hb3⟩ := hb
    have h10 : b ≠ 10 := by rintro rfl; simp [isBlankOrBreakz, isBreak] at hb1
    have hstep : flowCharsBody false start str s = (.ok (.next (str ++ [b])), pass s [b] false) := by
      have := flowChars_plain (str := str) (start := start) hr hb1 hb2 hb3
      rw [this]
      simp [on, pass, gapMark_col _ h10]
    obtain ⟨l, hl⟩ := ih (k := k) (s := pass s [b] false) (str := str ++ [b]) (pass_rest (a := [b]) (by simp [hr])) (by simp at hk; omega)
    refine ⟨l, ?_⟩
    rw [loop_next hstep, hl, pass_pass]
    simp
  | @esc b e w u he hw ih =>
    intro k s str hr hk
    obtain ⟨k, rfl⟩ : ∃ j, k = j + 1 := ⟨k - 1, by omega⟩
    obtain ⟨e', he', h10⟩ := esc_bytes he
    have hlen : 1 ≤ e.length := by rw [he']; simp
    have hstep : flowCharsBody false start str s = (.ok (.next (str ++ [b])), pass s e false) := by
      rw [flowChars_esc he (r := w ++ c :: r) (by simp [hr])]
      simp [on, pass, gapMark_flat _ _ h10]
    obtain ⟨l, hl⟩ := ih (k := k) (s := pass s e false) (str := str ++ [b]) (pass_rest (a := e) (by simp [hr])) (by simp at hk; omega)
    refine ⟨l, ?_⟩
    rw [loop_next hstep, hl, pass_pass]
    simp
  | @piece e v w u he hw ih =>
    intro k s str hr hk
    obtain ⟨k, rfl⟩ : ∃ j, k = j + 1 := ⟨k - 1, by omega⟩
    obtain ⟨⟨e', he'⟩, h10, hs⟩ := he
    have hlen : 1 ≤ e.length := by rw [he']; simp
    have hstep : flowCharsBody false start str s = (.ok (.next (str ++ v)), pass s e false) := by
      rw [hs _ _ _ (w ++ c :: r) (by simp [hr])]
      simp [on, pass, gapMark_flat _ _ h10]
    obtain ⟨l, hl⟩ := ih (k := k) (s := pass s e false) (str := str ++ v) (pass_rest (a := e) (by simp [hr])) (by simp at hk; omega)
    refine ⟨l, ?_⟩
    rw [loop_next hstep, hl, pass_pass]
    simp

theorem white_run {c r} (hc : isBlank c = false ∧ isBreak c = false) : ∀ {g k s p}, (∀ b ∈ g, isBlank b = true) → p.leadingBlanks = false →
    s.src.rest = g ++ c :: r → g.length < k →
    ∃ l, loopM flowBlankBody k p s = (.ok { p with whitespaces := p.whitespaces ++ g }, pass s g l) := by
  intro g
  induction g with
  | nil =>
    intro k s p _ hp hr hk
    obtain ⟨k, rfl⟩ : ∃ j, k = j + 1 := ⟨k - 1, by omega⟩
    have h0 : s.src.peekz 0 = c := peekz_cons hr
    refine ⟨s.leadingWhitespace, ?_⟩
    rw [loop_done (b := p) (s1 := s) (by unfold flowBlankBody; ev [h0, hc]), pass_nil]
    simp
  | cons b g ih =>
    intro k s p hg hp hr hk
    obtain ⟨k, rfl⟩ : ∃ j, k = j + 1 := ⟨k - 1, by omega⟩
    have h0 : s.src.peekz 0 = b := peekz_cons hr
    have hb := hg b (by simp)
    have h10 : b ≠ 10 := by rintro rfl; simp [isBlank] at hb
    have hs : flowBlankBody p s = (.ok (.next { p with whitespaces := p.whitespaces ++ [b] }), pass s [b] s.leadingWhitespace) := by
      unfold flowBlankBody
      ev [h0, hp]
      rw [if_pos hb, bind_run (skipBlank_pass h10)]
      ev []
    obtain ⟨l, hl⟩ := ih (k := k) (s := pass s [b] s.leadingWhitespace) (p := { p with whitespaces := p.whitespaces ++ [b] }) (fun x hx => hg x (by simp [hx])) hp
      (pass_rest (a := [b]) (by simp [hr])) (by simp at hk; omega)
    refine ⟨l, ?_⟩
    rw [loop_next hs, hl, pass_pass]
    simp

theorem breaks_run {c r} (hc : isBlank c = false ∧ isBreak c = false) : ∀ {n k s} {p : FlowSt}, p.leadingBlanks = true →
    s.src.rest = List.replicate n 10 ++ c :: r → n < k →
    ∃ l, loopM flowBlankBody k p s = (.ok { p with trailingBreaks := p.trailingBreaks ++ List.replicate n 10 }, pass s (List.replicate n 10) l) := by
  intro n
  induction n with
  | zero =>
    intro k s p hp hr hk
    obtain ⟨k, rfl⟩ : ∃ j, k = j + 1 := ⟨k - 1, by omega⟩
    have h0 : s.src.peekz 0 = c := peekz_cons hr
    refine ⟨s.leadingWhitespace, ?_⟩
    rw [loop_done (b := p) (s1 := s) (by unfold flowBlankBody; ev [h0, hc])]
    simp [pass_nil]
  | succ n ih =>
    intro k s p hp hr hk
    obtain ⟨k, rfl⟩ : ∃ j, k = j + 1 := ⟨k - 1, by omega⟩
    rw [List.replicate_succ] at hr
    have h0 : s.src.peekz 0 = 10 := peekz_cons hr
    have hs : flowBlankBody p s = (.ok (.next { p with trailingBreaks := p.trailingBreaks ++ [10] }), pass s [10] true) := by
      unfold flowBlankBody readBreak
      ev [h0, hp]
      rw [if_neg (by decide), if_pos (by decide)]
      have : skipLinebreak s = (.ok (), pass s [10] true) := by
        simp [skipLinebreak, upd, h0, pass, gapMark]
      rw [bind_run this]
      ev []
    obtain ⟨l, hl⟩ := ih (k := k) (s := pass s [10] true) (p := { p with trailingBreaks := p.trailingBreaks ++ [10] }) hp
      (pass_rest (a := [10]) (by simp [hr])) (by omega)
    refine ⟨l, ?_⟩
    rw [loop_next hs, hl, pass_pass]
    simp [List.replicate_succ]

theorem break_run {c r} (hc : isBlank c = false ∧ isBreak c = false) {n k s} {p : FlowSt} (hp : p.leadingBlanks = false)
    (hr : s.src.rest = List.replicate (n + 1) 10 ++ c :: r) (hk : n + 1 < k) :
    ∃ l, loopM flowBlankBody k p s = (.ok { p with whitespaces := [], leadingBreak := p.leadingBreak ++ [10], trailingBreaks := p.trailingBreaks ++ List.replicate n 10, leadingBlanks := true }, pass s (List.replicate (n + 1) 10) l) := by
  obtain ⟨k, rfl⟩ : ∃ j, k = j + 1 := ⟨k - 1, by omega⟩
  rw [List.replicate_succ] at hr
  have h0 : s.src.peekz 0 = 10 := peekz_cons hr
  have hs : flowBlankBody p s = (.ok (.next { p with whitespaces := [], leadingBreak := p.leadingBreak ++ [10], leadingBlanks := true }), pass s [10] true) := by
    unfold flowBlankBody readBreak
    ev [h0, hp]
    rw [if_neg (by decide), if_pos (by decide)]
    have : skipLinebreak s = (.ok (), pass s [10] true) := by
      simp [skipLinebreak, upd, h0, pass, gapMark]
    rw [bind_run this]
    ev []
  obtain ⟨l, hl⟩ := breaks_run hc (n := n) (k := k) (s := pass s [10] true) (p := { p with whitespaces := [], leadingBreak := p.leadingBreak ++ [10], leadingBlanks := true }) rfl
    (pass_rest (a := [10]) (r := List.replicate n 10 ++ c :: r) hr) (by omega)
  refine ⟨l, ?_⟩
  rw [loop_next hs, hl, pass_pass]
  simp [List.replicate_succ]

theorem docMark_false {s : SSt} {m r} (hr : s.src.rest = m ++ 34 :: r) (h : NotDocMark m) : s.src.nextIsDocumentIndicator = false := by
  have key : ∀ d, (d = 45 ∨ d = 46) → (s.src.nextIsThree d && isBlankOrBreakz (s.src.peekz 3)) = false := by
    intro d hd
    rw [Bool.eq_false_iff]
    intro hx
    rw [Bool.and_eq_true] at hx
    obtain ⟨h3, h4⟩ := hx
    have hd34 : d ≠ 34 := by omega
    simp [Src.nextIsThree, Src.peekz, hr] at h3
    simp [Src.peekz, hr] at h4
    match m with
    | [] => simp at h3; omega
    | [a] => simp at h3; omega
    | [a, b] => simp at h3; omega
    | [a, b, c] => simp [isBlankOrBreakz, isBlank, isBreak] at h4
    | a :: b :: c :: e :: m =>
      simp at h3 h4
      obtain ⟨⟨rfl, rfl⟩, rfl⟩ := h3
      have := h _ _ _ hd rfl
      rw [this] at h4
      cases h4
  have k1 := key 45 (.inl rfl)
  have k2 := key 46 (.inr rfl)
  unfold Src.nextIsDocumentIndicator
  cases h1 : s.src.nextIsThree 45 <;> cases h2 : s.src.nextIsThree 46 <;> simp_all

theorem folded_run {cfg : Cfg} {start r} {m v} (h : Folded m v) : ∀ {k s str lb}, s.src.rest = m ++ 34 :: r → m.length < k → m.length < cfg.fuel →
    1 ≤ s.mark.col → (s.indent ≤ 1 ∨ ((∀ b ∈ m, b ≠ 10) ∧ s.indent ≤ s.mark.col)) → (s.mark.col = 1 → NotDocMark m) →
    ∃ l, loopM (flowBody cfg false start) k ⟨str, [], [], [], lb⟩ s = (.ok ⟨str ++ v, [], [], [], false⟩, pass s m l) := by
  have pre : ∀ {s : SSt} {m}, s.src.rest = m ++ 34 :: r → (s.indent ≤ 1 ∨ ((∀ b ∈ m, b ≠ 10) ∧ s.indent ≤ s.mark.col)) → 1 ≤ s.mark.col → (s.mark.col = 1 → NotDocMark m) →
      s.src.bufIsEmpty = false ∧ (s.mark.col == 1 && s.src.nextIsDocumentIndicator) = false ∧ decide (s.mark.col < s.indent) = false := by
    intro s m hr hi hc hd
    refine ⟨by simp [Src.bufIsEmpty, hr], ?_, by simp; omega⟩
    by_cases h1 : s.mark.col = 1
    · simp [docMark_false hr (hd h1)]
    · simp [h1]
  induction h with
  | @stop w u hw =>
    intro k s str lb hr hk hf hc hi hd
    obtain ⟨k, rfl⟩ : ∃ j, k = j + 1 := ⟨k - 1, by omega⟩
    obtain ⟨p1, p2, p3⟩ := pre hr hi hc hd
    obtain ⟨l, hl⟩ := ordinary_run (start := start) (str := str) (.inr rfl) hw hr hf
    refine ⟨l, loop_done ?_⟩
    unfold flowBody
    ev [p1, p2, p3]
    rw [bind_run hl]
    have h0 : (pass s w l).src.peekz 0 = 34 := peekz_cons (pass_rest hr)
    ev [h0]
    simp
  | @gap w u g m v hw hg hgb hm _ ih =>
    intro k s str lb hr hk hf hc hi hd
    obtain ⟨k, rfl⟩ : ∃ j, k = j + 1 := ⟨k - 1, by omega⟩
    obtain ⟨p1, p2, p3⟩ := pre hr hi hc hd
    obtain ⟨b, g', rfl⟩ : ∃ b g', g = b :: g' := by cases g with | nil => exact absurd rfl hg | cons b g' => exact ⟨b, g', rfl⟩
    have hb : isBlank b = true := hgb b (by simp)
    have hbb : isBlankOrBreakz b = true := by simp [isBlankOrBreakz, hb]
    simp at hk hf
    obtain ⟨l, hl⟩ := ordinary_run (start := start) (str := str) (s := s) (k := cfg.fuel) (c := b) (r := g' ++ m ++ 34 :: r) (.inl hbb) hw (by simp [hr]) (by omega)
    have hr1 : (pass s w l).src.rest = (b :: g') ++ (m ++ 34 :: r) := pass_rest (by simp [hr])
    obtain ⟨c, r', hcr, hcc⟩ : ∃ c r', m ++ 34 :: r = c :: r' ∧ (isBlank c = false ∧ isBreak c = false) := by
      cases m with
      | nil => exact ⟨34, r, rfl, by decide⟩
      | cons c m => exact ⟨c, m ++ 34 :: r, rfl, hm c rfl⟩
    obtain ⟨l1, hl1⟩ := white_run hcc (k := cfg.fuel) (s := pass s w l) (p := ⟨str ++ u, [], [], [], false⟩) hgb rfl (by rw [hr1, hcr]) (by simp; omega)
    have hstep : flowBody cfg false start ⟨str, [], [], [], lb⟩ s = (.ok (.next ⟨str ++ u ++ (b :: g'), [], [], [], false⟩), pass s (w ++ (b :: g')) l1) := by
      unfold flowBody
      ev [p1, p2, p3]
      rw [bind_run hl]
      have h0 : (pass s w l).src.peekz 0 = b := peekz_cons hr1
      have hb34 : b ≠ 34 := by rintro rfl; simp [isBlank] at hb
      ev [h0]
      simp only [hb34, and_false, false_and, or_self, if_false]
      rw [bind_run hl1]
      ev [pass_pass]
      simp [flowJoin]
    have hcle : s.mark.col + 1 ≤ (pass s (w ++ (b :: g')) l1).mark.col := by
      show s.mark.col + 1 ≤ (gapMark s.mark (w ++ (b :: g'))).col
      rw [gapMark_flat]
      · simp; omega
      · intro y hy h10
        subst h10
        rcases List.mem_append.1 hy with hy | hy
        · exact hw.noBreak _ hy rfl
        · have := hgb _ hy; simp [isBlank] at this
    have hc2 : 2 ≤ (pass s (w ++ (b :: g')) l1).mark.col := by omega
    replace hcle : s.mark.col ≤ (pass s (w ++ (b :: g')) l1).mark.col := by omega
    obtain ⟨l2, hl2⟩ := ih (k := k) (s := pass s (w ++ (b :: g')) l1) (str := str ++ u ++ (b :: g')) (lb := false) (pass_rest (by simp [hr])) (by omega) (by omega)
      (by omega) (hi.imp (fun h => h) (fun h => ⟨fun b hb => h.1 b (by simp only [List.mem_append]; exact .inr (.inr hb)), Nat.le_trans h.2 hcle⟩)) (fun h => by omega)
    refine ⟨l2, ?_⟩
    rw [loop_next hstep, hl2, pass_pass]
    simp
  | @line w u n m v hw hm hd' _ ih =>
    intro k s str lb hr hk hf hc hi hd
    obtain ⟨k, rfl⟩ : ∃ j, k = j + 1 := ⟨k - 1, by omega⟩
    obtain ⟨p1, p2, p3⟩ := pre hr hi hc hd
    simp at hk hf
    obtain ⟨l, hl⟩ := ordinary_run (start := start) (str := str) (s := s) (k := cfg.fuel) (c := 10) (r := List.replicate n 10 ++ (m ++ 34 :: r)) (.inl (by decide)) hw
      (by simp [hr, List.replicate_succ]) (by omega)
    have hr1 : (pass s w l).src.rest = List.replicate (n + 1) 10 ++ (m ++ 34 :: r) := pass_rest (by simp [hr])
    obtain ⟨c, r', hcr, hcc⟩ : ∃ c r', m ++ 34 :: r = c :: r' ∧ (isBlank c = false ∧ isBreak c = false) := by
      cases m with
      | nil => exact ⟨34, r, rfl, by decide⟩
      | cons c m => exact ⟨c, m ++ 34 :: r, rfl, hm c rfl⟩
    obtain ⟨l1, hl1⟩ := break_run hcc (n := n) (k := cfg.fuel) (s := pass s w l) (p := ⟨str ++ u, [], [], [], false⟩) rfl (by rw [hr1, hcr]) (by omega)
    have hstep : flowBody cfg false start ⟨str, [], [], [], lb⟩ s = (.ok (.next ⟨str ++ u ++ folds n, [], [], [], true⟩), pass s (w ++ List.replicate (n + 1) 10) l1) := by
      unfold flowBody
      ev [p1, p2, p3]
      rw [bind_run hl]
      have h0 : (pass s w l).src.peekz 0 = 10 := peekz_cons (by rw [hr1, List.replicate_succ]; rfl)
      ev [h0]
      rw [if_neg (by decide), bind_run hl1]
      ev [pass_pass]
      cases n <;> simp [flowJoin, folds, List.replicate_succ]
    obtain ⟨l2, hl2⟩ := ih (k := k) (s := pass s (w ++ List.replicate (n + 1) 10) l1) (str := str ++ u ++ folds n) (lb := true) (pass_rest (by simp [hr])) (by omega) (by omega)
      (gapMark_pos _ _ hc) (.inl (hi.elim id (fun h => absurd rfl (h.1 10 (by simp))))) (fun _ => hd')
    refine ⟨l2, ?_⟩
    rw [loop_next hstep, hl2, pass_pass]
    simp

/-- nothing, or a comment -/
def Trails (q : List Byte) : Prop := (∀ b ∈ q, b ≠ 10) ∧ ∃ r, wsToEol true q false false = (q.length, .ok r)

theorem scanFlowScalar_folded {cfg : Cfg} {s m v q} (h : Folded m v) (hq : Trails q) (hr : s.src.rest = 34 :: (m ++ 34 :: q)) (hf : m.length < cfg.fuel) (hc : 1 ≤ s.mark.col)
    (hi : s.indent ≤ 1) : ∃ sp, scanFlowScalar cfg false s = (.ok ⟨sp, .scalar .doubleQuote v⟩, pass s (34 :: (m ++ 34 :: q)) false) := by
  unfold scanFlowScalar
  ev []
  have e0 : skipNonBlank s = (.ok (), pass s [34] false) := skipNonBlank_pass (by decide)
  rw [bind_run e0]
  have e1 : (pass s [34] false).src.rest = m ++ 34 :: q := pass_rest (by simpa using hr)
  have hcol : (pass s [34] false).mark.col = s.mark.col + 1 := by simp [pass, gapMark]
  obtain ⟨l, hl⟩ := folded_run (start := s.mark) (str := []) (lb := false) h e1 hf hf (by omega) (.inl hi) (by omega)
  rw [bind_run hl]
  have e2 : skipNonBlank (pass (pass s [34] false) m l) = (.ok (), pass s (34 :: (m ++ [34])) false) := by
    rw [skipNonBlank_pass (b := 34) (by decide), pass_pass, pass_pass]
    simp
  rw [bind_run e2]
  have e3 : (pass s (34 :: (m ++ [34])) false).src.rest = q := pass_rest (by simpa using hr)
  obtain ⟨hq1, r, hq2⟩ := hq
  have e4 : skipWsToEol true false (pass s (34 :: (m ++ [34])) false) = (.ok r, pass s (34 :: (m ++ 34 :: q)) false) := by
    unfold skipWsToEol Src.skipWsToEol
    simp only [e3, hq2]
    have : pass s (34 :: (m ++ 34 :: q)) false = pass (pass s (34 :: (m ++ [34])) false) q false := by rw [pass_pass]; simp
    rw [this]
    simp [pass, gapMark_flat q _ hq1]
  rw [bind_run e4]
  have e3 : (pass s (34 :: (m ++ 34 :: q)) false).src.rest = [] := pass_rest (by simpa using hr)
  have hok : flowTrailingOk (pass s (34 :: (m ++ 34 :: q)) false) s.mark = true := by
    have : (pass s (34 :: (m ++ 34 :: q)) false).src.peekz 0 = 0 := by simp [Src.peekz, e3]
    simp [flowTrailingOk, this, isBreakz]
  ev [hok, Bool.not_true]
  simp

/-- a text that is one quoted scalar, perhaps with a comment -/
theorem scan_folded {cfg : Cfg} {m v q N} (h : Folded m v) (hq : Trails q) (hf : m.length + 5 < cfg.fuel) (hN : 3 < N) :
    ∃ toks, Spec.scanInput cfg (34 :: (m ++ 34 :: q)) N = (toks, .ended) ∧ toks.map (·.tt) = [.streamStart, .scalar .doubleQuote v, .streamEnd] := by
  generalize hS : (fetchStreamStart (Scanner.new (34 :: (m ++ 34 :: q)))).2 = S
  have hr : S.src.rest = 34 :: (m ++ 34 :: q) := by rw [← hS]; rfl
  have hst : S.streamStartProduced = true := by rw [← hS]; rfl
  have hk : S.simpleKeys = [SimpleKey.new Marker.default] := by rw [← hS]; rfl
  have hi : S.indent = 0 := by rw [← hS]; rfl
  have hI : S.indents = [] := by rw [← hS]; rfl
  have hc : S.mark = ⟨0, 1, 1⟩ := by rw [← hS]; rfl
  have hl : S.flowLevel = 0 := by rw [← hS]; rfl
  have ht : types S = [.streamStart] := by rw [← hS]; rfl
  have hp : S.tokensParsed = 0 := by rw [← hS]; rfl
  have him : S.implicitFlowMappingStates = [] := by rw [← hS]; rfl
  have hal : S.simpleKeyAllowed = true := by rw [← hS]; rfl
  have hfit : Fit S.src := by rw [← hS]; simp [Fit, fetchStreamStart, Scanner.new, Src.new, push, upd]
  have hH : Here cfg S [.streamStart] [] 0 (34 :: (m ++ 34 :: q)) 1 true := by
    refine ⟨S, 0, _, skip_nil (by simp [TokenHead]) hr (by omega), hr, fun _ => ⟨by rw [hc], hal⟩, ?_, by simp [ht], hk, by simp [SimpleKey.new],
      ⟨hl, him, hp, hst, hfit⟩, NP.last (a := []) ht rfl, hst⟩
    rw [hi, hI]
    exact unroll_ok (by omega)
  obtain ⟨s2, hpos, e1⟩ := fetch_here hH (by simp) (fun _ => ⟨34, _, rfl, by omega, by omega, by omega⟩)
  have hfetch : ∃ s3, fetchNextToken cfg S = (.ok (), s3) ∧ Here cfg s3 [.streamStart, .scalar .doubleQuote v] [] 0 [] 0 true := by
    rw [e1]
    have h0 : s2.src.peekz 0 = 34 := peekz_cons hpos.rest
    have hfm : fetchMain cfg s2 = fetchFlowScalar cfg false s2 := by
      unfold fetchMain
      ev [h0]
      simp
    rw [hfm]
    unfold fetchFlowScalar setAllowed
    rw [bind_run (save_run s2)]
    ev []
    generalize hA : ({ s2 with simpleKeys := savedKeys s2, simpleKeyAllowed := false } : SSt) = sC
    have c1 : sC.flowLevel = 0 := by rw [← hA]; exact hpos.calm.level
    have c2 : sC.mark.col = 1 := by rw [← hA]; exact hpos.col
    have c3 : sC.src.rest = 34 :: (m ++ 34 :: q) := by rw [← hA]; exact hpos.rest
    have c4 : sC.indent = 0 := by rw [← hA]; exact hpos.indent
    have c5 : sC.indents = [] := by rw [← hA]; exact hpos.indents
    have c6 : types sC = [.streamStart] := by rw [← hA]; exact hpos.toks
    have c7 : sC.simpleKeys = [keyHere s2] := by
      rw [← hA]
      obtain ⟨k, hk, -⟩ := hpos.keys
      simp [savedKeys, hpos.al, hk]
    have c9 : Calm sC := ⟨c1, by rw [← hA]; exact hpos.calm.impl, by rw [← hA]; exact hpos.calm.parsed, by rw [← hA]; exact hpos.calm.started, by rw [← hA]; exact hpos.calm.fit⟩
    obtain ⟨sp, hscan⟩ := scanFlowScalar_folded h hq c3 (by omega : m.length < cfg.fuel) (by omega) (by omega)
    rw [bind_run hscan]
    have hr3 : (pass sC (34 :: (m ++ 34 :: q)) false).src.rest = [] := pass_rest (by simpa using c3)
    rw [bind_run (skip_nil (q := []) (by simp [TokenHead]) hr3 (by omega))]
    ev []
    unfold pushTok push
    refine ⟨_, rfl, ?_⟩
    refine ⟨_, 0, keyHere s2, skip_nil (q := []) (by simp [TokenHead]) hr3 (by omega), hr3, fun h => absurd rfl h, ?_, ?_, c7, ?_, ⟨c9.level, c9.impl, c9.parsed, c9.started, c9.fit.skip (by rw [c3]; simp)⟩, ?_, c9.started⟩
    · show unroll _ sC.indent sC.indents = _
      rw [c4, c5]; exact unroll_ok (by simp)
    · have : types sC = _ := c6
      simp only [types] at this ⊢
      simp [pass, this]
    · refine fun _ => ⟨?_, fun h => absurd rfl h⟩
      exact BCtx.notRequired (i0 := 0) (I0 := []) (.inl ⟨hpos.indents, hpos.indent⟩) hpos.col (by omega)
    · refine NP.last (a := [.streamStart]) (t := .scalar .doubleQuote v) ?_ rfl
      have : types sC = _ := c6
      simp only [types] at this ⊢
      simp [pass, this]
  obtain ⟨s3, e2, h3⟩ := hfetch
  obtain ⟨s4, e4, hk4, ht4⟩ := stream_end h3
  have hF : Fetches cfg (1 + 1) (fetchStreamStart (Scanner.new (34 :: (m ++ 34 :: q)))).2 s4 := by
    rw [hS]
    exact .step e2 (.step e4 .refl)
  have ht4' : s4.tokens.map (·.tt) = [.streamStart, .scalar .doubleQuote v, .streamEnd] := ht4
  refine ⟨s4.tokens, ?_, ht4'⟩
  match htk : s4.tokens with
  | [a, b, c] =>
    rw [htk] at ht4'
    simp at ht4'
    obtain ⟨h1, h2, h3⟩ := ht4'
    exact scan_of_fetches (body := [a, b]) hF hk4 htk (by simp [h1, h2]) h3 (by omega) (by simp; omega)
  | [] => simp [htk] at ht4'
  | [_] => simp [htk] at ht4'
  | [_, _] => simp [htk] at ht4'
  | _ :: _ :: _ :: _ :: _ => simp [htk] at ht4'

end Verif.Scanner
