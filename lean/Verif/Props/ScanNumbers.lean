import Verif.Lemmas.ScanNumbers
import Verif.Spec.ScannerRuns
/-!
# C20 (percent escapes) and C37 (version numbers)
-/
namespace Verif.Props
open Verif Verif.Scanner Verif.Spec

/-! ## C37 -/

/-- the text of a version: blanks, digits, a dot, digits, and something that is not a digit -/
structure VersionText (text a b post : List Byte) : Prop where
  text : ∃ n, text = List.replicate n 32 ++ (a ++ 46 :: (b ++ post))
  major : Digits a ∧ a ≠ []
  minor : Digits b ∧ b ≠ []
  stop : ∀ c, post.head? = some c → ¬ (48 ≤ c ∧ c ≤ 57)

/-- C37 in full: for every `%YAML` version text, the directive holds exactly the two numbers written, or an error is reported. -/
def C37_full : Prop := ∀ (cfg : Cfg) (m : Marker) (s : SSt) (a b post : List Byte), VersionText s.src.rest a b post →
  s.src.rest.length < cfg.fuel →
  (∃ e, (scanVersionDirective cfg m s).1 = .ok ⟨⟨m, e⟩, .versionDirective (decimal a) (decimal b)⟩) ∨
  (∃ e, (scanVersionDirective cfg m s).1 = .err e)

/-- the directive up to the second number -/
theorem version_text {cfg : Cfg} {m : Marker} {s : SSt} {a b post : List Byte} (h : VersionText s.src.rest a b post)
    (hf : s.src.rest.length < cfg.fuel) (ha : a.length ≤ 9) (hda : cfg.debug = true → decimal a < 256) :
    ∃ s1, s1.src.rest = b ++ post ∧
      scanVersionDirective cfg m s = (scanVersionNumber cfg m >>= fun minor => getMark >>= fun e =>
        pure ⟨⟨m, e⟩, .versionDirective (decimal a % 256) minor⟩) s1 := by
  obtain ⟨⟨n, hr⟩, hda', hdb', hp⟩ := h
  have ht : (s.src.rest.takeWhile CharUtils.isBlank).length = n := by
    rw [hr]
    obtain ⟨h1, h2⟩ := hda'
    cases a with
    | nil => simp at h2
    | cons d a =>
      have := h1 d (by simp)
      have hb : CharUtils.isBlank d = false := by simp [CharUtils.isBlank]; omega
      rw [List.takeWhile_append_of_pos (by simp [CharUtils.isBlank]), List.cons_append, List.takeWhile_cons_of_neg (by simp [hb])]
      simp
  have hs : ∃ s0, skipCounted Source.Src.skipWhileBlank s = (.ok (), s0) ∧ s0.src.rest = a ++ 46 :: (b ++ post) := by
    refine ⟨_, rfl, ?_⟩
    simp only [Source.Src.skipWhileBlank, ht, Source.Src.skip]
    rw [hr]; simp
  obtain ⟨s0, e0, r0⟩ := hs
  have hl : a.length < cfg.fuel := by rw [hr] at hf; simp at hf; omega
  obtain ⟨e1, r1⟩ := version_number (cfg := cfg) (m := m) (post := 46 :: (b ++ post)) (by simp) hda'.1 r0 hl hda'.2 ha hda
  refine ⟨on (on s0 a.length) 1, on_app r1, ?_⟩
  unfold scanVersionDirective
  rw [bind_run e0, bind_run e1]
  have : (on s0 a.length).src.peekz 0 = 46 := peekz_cons r1
  ev [this, show (46 != 46) = false by decide]
  rw [bind_run (skipNonBlank_on _)]

/-- C37, the part that holds: for every version text with numbers below 256 written with at most nine digits each, in debug and release
builds, the directive holds exactly the two numbers. Missing: larger numbers. -/
theorem C37_version_exact_partial (cfg : Cfg) (m : Marker) (s : SSt) (a b post : List Byte) (h : VersionText s.src.rest a b post)
    (hf : s.src.rest.length < cfg.fuel) (ha : a.length ≤ 9 ∧ decimal a < 256) (hb : b.length ≤ 9 ∧ decimal b < 256) :
    ∃ s', scanVersionDirective cfg m s = (.ok ⟨⟨m, s'.mark⟩, .versionDirective (decimal a) (decimal b)⟩, s') ∧ s'.src.rest = post := by
  obtain ⟨s1, r1, e1⟩ := version_text (m := m) h hf ha.1 (fun _ => ha.2)
  have hl : b.length < cfg.fuel := by
    obtain ⟨⟨n, hr⟩, _⟩ := h
    rw [hr] at hf; simp at hf; omega
  obtain ⟨e2, r2⟩ := version_number (cfg := cfg) (m := m) h.stop h.minor.1 r1 hl h.minor.2 hb.1 (fun _ => hb.2)
  refine ⟨_, ?_, r2⟩
  rw [e1, bind_run e2]
  ev []
  rw [Nat.mod_eq_of_lt ha.2, Nat.mod_eq_of_lt hb.2]

/-- C37, what happens otherwise in a release build: up to nine digits are reduced modulo 256. -/
theorem C37_release_wraps (fuel : Nat) (m : Marker) (s : SSt) (a b post : List Byte) (h : VersionText s.src.rest a b post)
    (hf : s.src.rest.length < fuel) (ha : a.length ≤ 9) (hb : b.length ≤ 9) :
    ∃ e, (scanVersionDirective ⟨fuel, false⟩ m s).1 = .ok ⟨⟨m, e⟩, .versionDirective (decimal a % 256) (decimal b % 256)⟩ := by
  obtain ⟨s1, r1, e1⟩ := version_text (cfg := ⟨fuel, false⟩) (m := m) h hf ha (by simp)
  have hl : b.length < fuel := by
    obtain ⟨⟨n, hr⟩, _⟩ := h
    rw [hr] at hf; simp at hf; omega
  obtain ⟨e2, r2⟩ := version_number (cfg := ⟨fuel, false⟩) (m := m) h.stop h.minor.1 r1 hl h.minor.2 hb (by simp)
  refine ⟨(on s1 b.length).mark, ?_⟩
  rw [e1, bind_run e2]
  ev []

/-- C37: a number of ten or more digits is never accepted. -/
theorem C37_long_numbers_rejected (cfg : Cfg) (m : Marker) (s : SSt) (ds post : List Byte) (hd : Digits ds)
    (hr : s.src.rest = ds ++ post) (hl : 9 < ds.length) (hf : ds.length < cfg.fuel) :
    ∀ v, (scanVersionNumber cfg m s).1 ≠ .ok v := by
  intro v h
  have h1 := version_long (cfg := cfg) (m := m) (post := post) (n := 0) (v := 0) hd hr hf (by omega) (by omega)
  unfold scanVersionNumber at h
  simp only [Bind.bind] at h
  rcases hx : loopM (versionBody cfg m) cfg.fuel (0, 0) s with ⟨r | e | _ | _, s'⟩
  · exact h1 r (by rw [hx])
  all_goals rw [hx] at h; simp at h

/-- C37: in a debug build a number of at most nine digits that does not fit eight bits is a panic. -/
theorem C37_debug_panics (fuel : Nat) (m : Marker) (s : SSt) (ds post : List Byte) (hd : Digits ds) (hr : s.src.rest = ds ++ post)
    (hl : ds.length ≤ 9) (hv : 256 ≤ decimal ds) (hf : ds.length < fuel) :
    (scanVersionNumber ⟨fuel, true⟩ m s).1 = .panic := by
  have h1 := version_panics (cfg := ⟨fuel, true⟩) (m := m) (post := post) (n := 0) (v := 0) rfl hd hr hf (by omega) hv (by omega)
  unfold scanVersionNumber
  simp only [Bind.bind]
  rcases hx : loopM (versionBody ⟨fuel, true⟩ m) fuel (0, 0) s with ⟨r | e | _ | _, s'⟩
  all_goals simp [hx] at h1 ⊢

/-- C37 is false: `%YAML 1.256` is accepted by a release build as version 1.0. -/
theorem C37_version_exact_false : ¬ C37_full := by
  intro h
  have := h ⟨20, false⟩ ⟨0, 1, 1⟩ (Scanner.new bs!" 1.256\n") bs!"1" bs!"256" bs!"\n"
    ⟨⟨1, rfl⟩, ⟨by unfold Digits; decide, by simp⟩, ⟨by unfold Digits; decide, by simp⟩, by simp⟩ (by decide)
  obtain ⟨e, h1⟩ := C37_release_wraps 20 ⟨0, 1, 1⟩ (Scanner.new bs!" 1.256\n") bs!"1" bs!"256" bs!"\n"
    ⟨⟨1, rfl⟩, ⟨by unfold Digits; decide, by simp⟩, ⟨by unfold Digits; decide, by simp⟩, by simp⟩ (by decide) (by decide) (by decide)
  rw [h1] at this
  simp [decimal] at this

/-- the same for whole inputs, and a version that is read exactly -/
example : (scanInput ⟨40, false⟩ bs!"%YAML 1.256\n--- a" 20).1.map (·.tt) =
      [.streamStart, .versionDirective 1 0, .documentStart, .scalar .plain bs!"a", .streamEnd] ∧
    (scanInput ⟨40, true⟩ bs!"%YAML 1.256\n--- a" 20).2 = .panicked ∧
    (scanInput ⟨40, true⟩ bs!"%YAML 001.255\n--- a" 20).1.map (·.tt) =
      [.streamStart, .versionDirective 1 255, .documentStart, .scalar .plain bs!"a", .streamEnd] := by decide +kernel

example : VersionText bs!" 001.255 # c" bs!"001" bs!"255" bs!" # c" :=
  ⟨⟨1, rfl⟩, ⟨by unfold Digits; decide, by simp⟩, ⟨by unfold Digits; decide, by simp⟩, by simp⟩

/-! ## C20 -/

/-- C20 in full: `%XX` escapes spelling the UTF-8 bytes of a character are read as that character. -/
def C20_full : Prop := ∀ (cfg : Cfg) (m : Marker) (s : SSt) (up : Bool) (c : Char) (post : List Byte),
  s.src.rest = percent up (utf8 [c]) ++ post → 4 ≤ cfg.fuel → (scanUriEscapes cfg m s).1 = .ok (utf8 [c])

/-- C20, the part that holds: the escape of an ASCII character, in either case, is read as that character, and only it is consumed.
Missing: all other characters. -/
theorem C20_ascii_escapes_partial (cfg : Cfg) (m : Marker) (s : SSt) (up : Bool) (c : Char) (post : List Byte)
    (hr : s.src.rest = percent up (utf8 [c]) ++ post) (hf : 4 ≤ cfg.fuel) (hc : c.toNat < 0x80) :
    ∃ s', scanUriEscapes cfg m s = (.ok (utf8 [c]), s') ∧ s'.src.rest = post := by
  obtain ⟨k, hk⟩ : ∃ k, cfg.fuel = k + 1 := ⟨cfg.fuel - 1, by omega⟩
  have e : utf8 [c] = [c.toNat] := by simp [Utf8.utf8_cons, Utf8.utf8_nil, Utf8.encode, hc]
  rw [e] at hr ⊢
  refine ⟨on s 3, ?_, on_rest hr rfl⟩
  rw [uri_code (by rw [hk]; exact uri_run1 hc hr), Utf8.charFromU32_char]
  simp only [Utf8.encode, if_pos hc]
  rfl

/-- C20 is false of every other character: its escapes are never read as that character, in any state, with any number of loop
iterations. (Two bytes give a different character or an error, three and four bytes an error.) -/
theorem C20_other_escapes_always_wrong (cfg : Cfg) (m : Marker) (s : SSt) (up : Bool) (c : Char) (post : List Byte)
    (hr : s.src.rest = percent up (utf8 [c]) ++ post) (hf : 4 ≤ cfg.fuel) (hc : 0x80 ≤ c.toNat) :
    (scanUriEscapes cfg m s).1 ≠ .ok (utf8 [c]) := by
  have e : utf8 [c] = Utf8.encode c.toNat := by simp [Utf8.utf8_cons, Utf8.utf8_nil]
  have hcu := Utf8.charFromU32_char c
  rw [e] at hr ⊢
  generalize c.toNat = v at hr hc hcu
  have hv : v < 0x110000 := by
    unfold Utf8.charFromU32 at hcu; split at hcu
    · omega
    · simp at hcu
  obtain ⟨k, hk⟩ : ∃ k, cfg.fuel = k + 4 := ⟨cfg.fuel - 4, by omega⟩
  by_cases h2 : v < 0x800
  · have e2 : Utf8.encode v = [0xC0 + v / 64, 0x80 + v % 64] := by simp only [Utf8.encode]; rw [if_neg (by omega), if_pos h2]
    rw [e2] at hr ⊢
    have hx := uri_run2 (m := m) (k := k + 2) (by omega) (by omega) hr
    rw [uri_code (by rw [hk]; exact hx)]
    by_cases hin : (192 + v / 64) * 256 + (128 + v % 64) < 55296
    all_goals unfold Utf8.charFromU32
    · rw [if_pos (.inl hin)]
      intro hh
      · have : Utf8.encode ((192 + v / 64) * 256 + (128 + v % 64)) = [192 + v / 64, 128 + v % 64] := by
          simpa [pure] using hh
        have hl := congrArg List.length this
        simp only [Utf8.encode] at hl
        rw [if_neg (by omega), if_neg (by omega), if_pos (by omega)] at hl
        simp at hl
    · rw [if_neg (by omega)]
      simp [fail]
  · by_cases h3 : v < 0x10000
    · have e2 : Utf8.encode v = [0xE0 + v / 4096, 0x80 + v / 64 % 64, 0x80 + v % 64] := by
        simp only [Utf8.encode]; rw [if_neg (by omega), if_neg h2, if_pos h3]
      rw [e2] at hr ⊢
      have hx := uri_run3 (m := m) (k := k + 1) (by omega) (by omega) (by omega) hr
      rw [uri_code (by rw [hk]; exact hx)]
      unfold Utf8.charFromU32
      rw [if_neg (by omega)]
      simp [fail]
    · have e2 : Utf8.encode v = [0xF0 + v / 262144, 0x80 + v / 4096 % 64, 0x80 + v / 64 % 64, 0x80 + v % 64] := by
        simp only [Utf8.encode]; rw [if_neg (by omega), if_neg h2, if_neg h3]
      rw [e2] at hr ⊢
      have hx := uri_run4 (m := m) (k := k) (by omega) (by omega) (by omega) (by omega) hr
      rw [uri_code (by rw [hk]; exact hx)]
      unfold Utf8.charFromU32
      rw [if_neg (by omega)]
      simp [fail]

/-- C20 is false: `%C3%A9` is not read as é. -/
theorem C20_percent_utf8_false : ¬ C20_full := fun h =>
  C20_other_escapes_always_wrong ⟨4, false⟩ ⟨0, 1, 1⟩ (Scanner.new bs!"%C3%A9") true 'é' [] (by decide +kernel) (by decide) (by decide)
    (h ⟨4, false⟩ ⟨0, 1, 1⟩ (Scanner.new bs!"%C3%A9") true 'é' [] (by decide +kernel) (by decide))

/-- the same for whole inputs: é turns into U+C3A9, and `%41` is read as `A` -/
example : (scanInput ⟨40, false⟩ bs!"!%C3%A9 a" 20).1.map (·.tt) =
      [.streamStart, .tag bs!"!" (utf8 [Char.ofNat 0xC3A9]), .scalar .plain bs!"a", .streamEnd] ∧
    (scanInput ⟨40, false⟩ bs!"!%41 a" 20).1.map (·.tt) =
      [.streamStart, .tag bs!"!" bs!"A", .scalar .plain bs!"a", .streamEnd] := by decide +kernel

end Verif.Props
