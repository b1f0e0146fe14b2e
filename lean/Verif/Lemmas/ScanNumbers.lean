import Verif.Lemmas.ScanQuoted
import Verif.Lemmas.Utf8Text
import Verif.Spec.Numbers
/-!
# Version numbers and percent escapes
-/
namespace Verif.Scanner
open Verif Verif.CharUtils Verif.Source Verif.Spec

/-- value of digits after `v` -/
def decFrom (v : Nat) (l : List Byte) : Nat := l.foldl (fun v d => v * 10 + (d - 48)) v

theorem decFrom_mono (l : List Byte) (v : Nat) : v ≤ decFrom v l := by
  induction l generalizing v with
  | nil => simp [decFrom]
  | cons d l ih =>
    have := ih (v * 10 + (d - 48))
    simp only [decFrom, List.foldl_cons] at this ⊢
    omega

theorem decFrom_mod (l : List Byte) (v w : Nat) (h : v % 256 = w % 256) : decFrom v l % 256 = decFrom w l % 256 := by
  induction l generalizing v w with
  | nil => simpa [decFrom] using h
  | cons d l ih =>
    simp only [decFrom, List.foldl_cons]
    exact ih _ _ (by omega)

theorem peekz_stop {s : SSt} {post} (h : s.src.rest = post) (hp : ∀ c, post.head? = some c → ¬ (48 ≤ c ∧ c ≤ 57)) :
    isAsciiDigit (s.src.peekz 0) = false := by
  cases post with
  | nil => simp [Src.peekz, h, isAsciiDigit]
  | cons c r =>
    have := hp c rfl
    simp [Src.peekz, h, isAsciiDigit]
    omega

/-- skipping `n` non blanks -/
theorem on_app {s : SSt} {c r} (h : s.src.rest = c :: r) : (on s 1).src.rest = r := on_rest (w := [c]) h rfl

/-- the loop over digits, when nothing overflows or the build wraps -/
theorem version_run {cfg : Cfg} {m post} (hp : ∀ c, post.head? = some c → ¬ (48 ≤ c ∧ c ≤ 57)) :
    ∀ {ds k s v n}, Digits ds → s.src.rest = ds ++ post → ds.length < k → n + ds.length ≤ 9 →
      (cfg.debug = true → decFrom v ds < 256) → v < 256 →
      ∃ s', loopM (versionBody cfg m) k (v, n) s = (.ok (decFrom v ds % 256, n + ds.length), s') ∧ s'.src.rest = post ∧
        (ds ≠ [] ∨ s.leadingWhitespace = false → s' = on s ds.length) := by
  intro ds
  induction ds with
  | nil =>
    intro k s v n _ hr hk _ _ hv
    obtain ⟨k, rfl⟩ : ∃ j, k = j + 1 := ⟨k - 1, by simp at hk; omega⟩
    have : versionBody cfg m (v, n) s = (.ok (.done (v, n)), s) := by
      unfold versionBody
      ev [peekz_stop hr hp]
    refine ⟨s, ?_, by simpa using hr, fun h => ?_⟩
    · rw [loop_done this]; simp [decFrom, Nat.mod_eq_of_lt hv]
    · simp at h; simp [on_zero h]
  | cons d ds ih =>
    intro k s v n hd hr hk hn hdb hv
    simp only [List.length_cons] at hk hn
    obtain ⟨k, rfl⟩ : ∃ j, k = j + 1 := ⟨k - 1, by omega⟩
    have h1 := hd d (by simp)
    have e1 : s.src.peekz 0 = d := peekz_cons hr
    have e2 : isAsciiDigit d = true := by simp [isAsciiDigit]; omega
    have hno : ¬ (cfg.debug = true ∧ v * 10 + (d - 48) > 255) := by
      rintro ⟨h, h'⟩
      have := hdb h
      have h2 := decFrom_mono ds (v * 10 + (d - 48))
      simp only [decFrom, List.foldl_cons] at this h2
      omega
    have e3 : versionBody cfg m (v, n) s = (.ok (.next ((v * 10 + (d - 48)) % 256, n + 1)), on s 1) := by
      unfold versionBody
      have : decide (n + 1 > 9) = false := by simp; omega
      ev [e1, e2, this]
      rw [if_neg hno]
      rfl
    obtain ⟨s', h2, h3, h4⟩ := ih (k := k) (s := on s 1) (v := (v * 10 + (d - 48)) % 256) (n := n + 1)
      (fun x hx => hd x (by simp [hx])) (on_app hr) (by omega) (by omega)
      (fun h => by
        have := hdb h
        simp only [decFrom, List.foldl_cons] at this ⊢
        have h' : ¬ v * 10 + (d - 48) > 255 := fun h' => hno ⟨h, h'⟩
        rwa [Nat.mod_eq_of_lt (by omega)]) (by omega)
    refine ⟨s', ?_, h3, fun _ => ?_⟩
    · rw [loop_next e3, h2, decFrom_mod ds _ (v * 10 + (d - 48)) (by omega)]
      simp [decFrom]
      omega
    · rw [h4 (.inr rfl), on_on]; simp [Nat.add_comm]

theorem version_number {cfg : Cfg} {m post ds s} (hp : ∀ c, post.head? = some c → ¬ (48 ≤ c ∧ c ≤ 57)) (hd : Digits ds)
    (hr : s.src.rest = ds ++ post) (hk : ds.length < cfg.fuel) (h1 : ds ≠ []) (hn : ds.length ≤ 9)
    (hdb : cfg.debug = true → decimal ds < 256) :
    scanVersionNumber cfg m s = (.ok (decimal ds % 256), on s ds.length) ∧ (on s ds.length).src.rest = post := by
  obtain ⟨s', h2, h3, h4⟩ := version_run (cfg := cfg) (m := m) hp (k := cfg.fuel) (s := s) (v := 0) (n := 0) hd hr hk (by omega) hdb (by omega)
  obtain rfl := h4 (.inl h1)
  refine ⟨?_, h3⟩
  unfold scanVersionNumber
  rw [bind_run h2]
  have : (0 + ds.length == 0) = false := by cases ds <;> simp at h1 ⊢
  ev [this]
  rfl

/-- a panic stops a loop -/
theorem loop_stop {σ α} {body : σ → SM (Loop σ α)} {n a s s1} (e : body a s = (.panic, s1)) :
    loopM body (n + 1) a s = (.panic, s1) := by
  rw [loopM]; simp only [Bind.bind]; rw [e]

theorem loop_err {σ α} {body : σ → SM (Loop σ α)} {n a s s1 x} (e : body a s = (.err x, s1)) :
    loopM body (n + 1) a s = (.err x, s1) := by
  rw [loopM]; simp only [Bind.bind]; rw [e]

/-- a debug build panics when a number does not fit eight bits -/
theorem version_panics {cfg : Cfg} {m post} (hc : cfg.debug = true) :
    ∀ {ds k s v n}, Digits ds → s.src.rest = ds ++ post → ds.length < k → n + ds.length ≤ 9 → 256 ≤ decFrom v ds → v < 256 →
      (loopM (versionBody cfg m) k (v, n) s).1 = .panic := by
  intro ds
  induction ds with
  | nil => intro k s v n _ _ _ _ h hv; simp [decFrom] at h; omega
  | cons d ds ih =>
    intro k s v n hd hr hk hn hdb hv
    simp only [List.length_cons] at hk hn
    obtain ⟨k, rfl⟩ : ∃ j, k = j + 1 := ⟨k - 1, by omega⟩
    have h1 := hd d (by simp)
    have e1 : s.src.peekz 0 = d := peekz_cons hr
    have e2 : isAsciiDigit d = true := by simp [isAsciiDigit]; omega
    have this : decide (n + 1 > 9) = false := by simp; omega
    by_cases hv' : v * 10 + (d - 48) > 255
    · have e3 : versionBody cfg m (v, n) s = (.panic, s) := by
        unfold versionBody
        ev [e1, e2, this]
        rw [if_pos ⟨hc, hv'⟩]
        rfl
      rw [loop_stop e3]
    · have e3 : versionBody cfg m (v, n) s = (.ok (.next ((v * 10 + (d - 48)) % 256, n + 1)), on s 1) := by
        unfold versionBody
        ev [e1, e2, this]
        rw [if_neg (by omega)]
        rfl
      rw [loop_next e3]
      refine ih (fun x hx => hd x (by simp [hx])) (on_app hr) (by omega) (by omega) ?_ (by omega)
      rw [Nat.mod_eq_of_lt (by omega)]
      simpa [decFrom] using hdb

/-- more than nine digits -/
theorem version_long {cfg : Cfg} {m post} :
    ∀ {ds k s v n}, Digits ds → s.src.rest = ds ++ post → ds.length < k → 9 < n + ds.length → n ≤ 9 →
      ∀ r, (loopM (versionBody cfg m) k (v, n) s).1 ≠ .ok r := by
  intro ds
  induction ds with
  | nil => intro k s v n _ _ _ h h'; simp at h; omega
  | cons d ds ih =>
    intro k s v n hd hr hk hn hn' r
    simp only [List.length_cons] at hk hn
    obtain ⟨k, rfl⟩ : ∃ j, k = j + 1 := ⟨k - 1, by omega⟩
    have h1 := hd d (by simp)
    have e1 : s.src.peekz 0 = d := peekz_cons hr
    have e2 : isAsciiDigit d = true := by simp [isAsciiDigit]; omega
    by_cases hn9 : n = 9
    · have this : decide (n + 1 > 9) = true := by simp; omega
      have e3 : ∃ x, versionBody cfg m (v, n) s = (.err x, s) := by
        refine ⟨.scanner m "while scanning a YAML directive, found extremely long version number", ?_⟩
        unfold versionBody
        ev [e1, e2, this]
        rfl
      obtain ⟨x, e3⟩ := e3
      rw [loop_err e3]; simp
    · have this : decide (n + 1 > 9) = false := by simp; omega
      by_cases hv' : cfg.debug = true ∧ v * 10 + (d - 48) > 255
      · have e3 : versionBody cfg m (v, n) s = (.panic, s) := by
          unfold versionBody
          ev [e1, e2, this]
          rw [if_pos hv']
          rfl
        rw [loop_stop e3]; simp
      · have e3 : versionBody cfg m (v, n) s = (.ok (.next ((v * 10 + (d - 48)) % 256, n + 1)), on s 1) := by
          unfold versionBody
          ev [e1, e2, this]
          rw [if_neg hv']
          rfl
        rw [loop_next e3]
        exact ih (fun x hx => hd x (by simp [hx])) (on_app hr) (by omega) (by omega) (by omega) r

/-! ## Percent escapes -/

theorem hexChar_ok (up : Bool) (n : Nat) (h : n < 16) : isAsciiHexdigit (hexChar up n) = true ∧ asHex (hexChar up n) = some n := by
  cases up <;> revert n <;> decide

theorem percent_cons (up : Bool) (b : Byte) (bs : List Byte) :
    percent up (b :: bs) = 37 :: hexChar up (b / 16) :: hexChar up (b % 16) :: percent up bs := rfl

/-- one `%XX` -/
theorem uri_one {m up b r s x} (hb : b < 256) (h : s.src.rest = 37 :: hexChar up (b / 16) :: hexChar up (b % 16) :: r) :
    uriBody m x s = (if x.1 = 0 then
      match utf8Width b with
      | none => fail m "while parsing a tag, found an incorrect leading UTF-8 byte"
      | some w => uriStep w b
    else if 0x80 ≤ b ∧ b < 0xC0 then uriStep x.1 (x.2 * 256 + b)
    else fail m "while parsing a tag, found an incorrect trailing UTF-8 byte") s := by
  have h0 : s.src.peekz 0 = 37 := by simp [Src.peekz, h]
  have h1 : s.src.peekz 1 = hexChar up (b / 16) := by simp [Src.peekz, h]
  have h2 : s.src.peekz 2 = hexChar up (b % 16) := by simp [Src.peekz, h]
  have i1 := hexChar_ok up (b / 16) (by omega)
  have i2 := hexChar_ok up (b % 16) (by omega)
  unfold uriBody
  ev [h0, h1, h2, i1.1, i1.2, i2.1, i2.2, Bool.and_true, beq_self_eq_true, Bool.not_true]
  have : b / 16 * 16 + b % 16 = b := by omega
  simp only [this]
  rfl

theorem skipN_on (s : SSt) (n : Nat) : skipN n s = (.ok (), on s n) := rfl

theorem uriStep_on {w code s} (hw : w ≠ 0) : uriStep w code s =
    (.ok (if w = 1 then .done code else .next (w - 1, code)), on s 3) := by
  unfold uriStep
  rw [bind_run (skipN_on s 3)]
  ev [if_neg hw]
  by_cases h : w = 1
  · simp [h]
  · rw [if_neg (by omega), if_neg h]

theorem width_pos {b w} (h : utf8Width b = some w) : w ≠ 0 := by
  unfold utf8Width at h
  repeat' split at h
  all_goals simp at h; try omega

theorem uri_first {m up b r s} (hb : b < 256) (h : s.src.rest = percent up [b] ++ r) {w} (hw : utf8Width b = some w) :
    uriBody m (0, 0) s = (.ok (if w = 1 then .done b else .next (w - 1, b)), on s 3) ∧ (on s 3).src.rest = r := by
  refine ⟨?_, on_rest (w := percent up [b]) h rfl⟩
  rw [uri_one hb h]
  simp only [if_true, hw]
  exact uriStep_on (width_pos hw)

theorem uri_next {m up b r s w x} (hb : 0x80 ≤ b ∧ b < 0xC0) (h : s.src.rest = percent up [b] ++ r) (hx : w ≠ 0) :
    uriBody m (w, x) s = (.ok (if w = 1 then .done (x * 256 + b) else .next (w - 1, x * 256 + b)), on s 3) ∧
      (on s 3).src.rest = r := by
  refine ⟨?_, on_rest (w := percent up [b]) h rfl⟩
  rw [uri_one (by omega) h]
  simp only [if_neg hx, if_pos hb]
  exact uriStep_on hx

theorem uri_run1 {m up a r s k} (ha : a < 0x80) (h : s.src.rest = percent up [a] ++ r) :
    loopM (uriBody m) (k + 1) (0, 0) s = (.ok a, on s 3) := by
  have h1 := uri_first (m := m) (by omega) h (show utf8Width a = some 1 by simp [utf8Width, ha])
  exact loop_done h1.1

theorem uri_run2 {m up a b r s k} (ha : 0xC0 ≤ a ∧ a < 0xE0) (hb : 0x80 ≤ b ∧ b < 0xC0)
    (h : s.src.rest = percent up [a, b] ++ r) : loopM (uriBody m) (k + 2) (0, 0) s = (.ok (a * 256 + b), on s 6) := by
  have h1 := uri_first (m := m) (r := percent up [b] ++ r) (by omega) h
    (show utf8Width a = some 2 by unfold utf8Width; (repeat' split) <;> first | rfl | omega)
  have h2 := uri_next (m := m) (w := 1) (x := a) hb h1.2 (by simp)
  rw [loop_next h1.1, loop_done h2.1, on_on]

theorem uri_run3 {m up a b c r s k} (ha : 0xE0 ≤ a ∧ a < 0xF0) (hb : 0x80 ≤ b ∧ b < 0xC0) (hc : 0x80 ≤ c ∧ c < 0xC0)
    (h : s.src.rest = percent up [a, b, c] ++ r) :
    loopM (uriBody m) (k + 3) (0, 0) s = (.ok ((a * 256 + b) * 256 + c), on s 9) := by
  have h1 := uri_first (m := m) (r := percent up [b, c] ++ r) (by omega) h
    (show utf8Width a = some 3 by unfold utf8Width; (repeat' split) <;> first | rfl | omega)
  have h2 := uri_next (m := m) (w := 2) (x := a) (r := percent up [c] ++ r) hb h1.2 (by simp)
  have h3 := uri_next (m := m) (w := 1) (x := a * 256 + b) hc h2.2 (by simp)
  rw [loop_next h1.1, loop_next h2.1, loop_done h3.1, on_on, on_on]

theorem uri_run4 {m up a b c d r s k} (ha : 0xF0 ≤ a ∧ a < 0xF8) (hb : 0x80 ≤ b ∧ b < 0xC0) (hc : 0x80 ≤ c ∧ c < 0xC0)
    (hd : 0x80 ≤ d ∧ d < 0xC0) (h : s.src.rest = percent up [a, b, c, d] ++ r) :
    loopM (uriBody m) (k + 4) (0, 0) s = (.ok (((a * 256 + b) * 256 + c) * 256 + d), on s 12) := by
  have h1 := uri_first (m := m) (r := percent up [b, c, d] ++ r) (by omega) h
    (show utf8Width a = some 4 by unfold utf8Width; (repeat' split) <;> first | rfl | omega)
  have h2 := uri_next (m := m) (w := 3) (x := a) (r := percent up [c, d] ++ r) hb h1.2 (by simp)
  have h3 := uri_next (m := m) (w := 2) (x := a * 256 + b) (r := percent up [d] ++ r) hc h2.2 (by simp)
  have h4 := uri_next (m := m) (w := 1) (x := (a * 256 + b) * 256 + c) hd h3.2 (by simp)
  rw [loop_next h1.1, loop_next h2.1, loop_next h3.1, loop_done h4.1, on_on, on_on, on_on]

/-- what a run of percent escapes amounts to, once the loop has returned a code -/
theorem uri_code {cfg : Cfg} {m s code s'} (h : loopM (uriBody m) cfg.fuel (0, 0) s = (.ok code, s')) :
    scanUriEscapes cfg m s = (match Utf8.charFromU32 code with
      | some ch => pure (Utf8.encode ch)
      | none => fail m "while parsing a tag, found an invalid UTF-8 codepoint") s' := by
  unfold scanUriEscapes
  rw [bind_run h]
  rfl

end Verif.Scanner
