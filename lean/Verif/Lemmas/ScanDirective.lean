import Verif.Lemmas.ScanBlockText
/-!
# Reading directives
-/
namespace Verif.Scanner
open Verif Verif.Spec Verif.CharUtils Verif.Source Verif.Emitter

theorem ascii_run : ∀ {w : List Byte}, (∀ b ∈ w, b < 128) → Utf8.run .start w = some .start := by
  intro w
  induction w with
  | nil => intro _; rfl
  | cons a w ih =>
    intro h
    have : Utf8.step .start a = some .start := if_pos (h a (by simp))
    simp [Utf8.run, this, ih fun b hb => h b (by simp [hb])]

theorem ascii_valid {w : List Byte} (h : ∀ b ∈ w, b < 128) : Utf8.valid w = true := by
  simp [Utf8.valid, ascii_run h]

theorem handle_ascii {b : Byte} (h : Block.HandleByte b) : b < 128 := by
  unfold Block.HandleByte at h
  omega

theorem uri_ascii {b : Byte} (h : isUriChar b = true) : b < 128 := by
  unfold isUriChar isWordChar isAsciiAlphanumeric at h
  simp at h
  omega

theorem blanks_on {s : SSt} {n r} (h : s.leadingWhitespace = false) (hr : s.src.rest = Block.spaces n ++ r) (hh : ∀ c, r.head? = some c → isBlank c = false) :
    skipCounted Src.skipWhileBlank s = (.ok (), on s n) := by
  have ht : (s.src.rest.takeWhile isBlank).length = n := by
    rw [hr, List.takeWhile_append_of_pos (by intro b hb; rw [(spaces_mem b hb)]; rfl)]
    cases r with
    | nil => simp [spaces_len]
    | cons c r => simp [hh c rfl, spaces_len]
  simp [skipCounted, upd, Src.skipWhileBlank, ht, on, ← h]

theorem alpha_on {s : SSt} {w r} (h : s.leadingWhitespace = false) (hr : s.src.rest = w ++ r) (hw : ∀ b ∈ w, isAlpha b = true) (hh : ∀ c, r.head? = some c → isAlpha c = false) :
    fetchAlpha s = (.ok w, on s w.length) := by
  have ht : s.src.rest.takeWhile isAlpha = w := by
    rw [hr, List.takeWhile_append_of_pos hw]
    cases r with
    | nil => simp
    | cons c r => simp [hh c rfl]
  simp [fetchAlpha, Src.fetchWhileIsAlpha, ht, on, ← h]

theorem line_on {s : SSt} {w r} (h : s.leadingWhitespace = false) (hr : s.src.rest = w ++ r) (hw : ∀ b ∈ w, isBreakz b = false) (hh : ∀ c, r.head? = some c → isBreakz c = true) :
    skipCounted Src.skipWhileNonBreakz s = (.ok (), on s w.length) := by
  have ht : (s.src.rest.takeWhile (!isBreakz ·)).length = w.length := by
    rw [hr, List.takeWhile_append_of_pos (by intro b hb; simp [hw b hb])]
    cases r with
    | nil => simp
    | cons c r => simp [hh c rfl]
  simp [skipCounted, upd, Src.skipWhileNonBreakz, ht, on, ← h]

theorem uri_run {cfg : Cfg} {m post} (hs : ∀ c, post.head? = some c → isUriChar c = false) : ∀ {w : List Byte} {k str s}, (∀ b ∈ w, isUriChar b = true ∧ b ≠ 37) →
    s.src.rest = w ++ post → w.length < k → loopM (uriCharsBody cfg m) k str s = (.ok (str ++ w), if w = [] then s else on s w.length) := by
  intro w
  induction w with
  | nil =>
    intro k str s _ hr hk
    obtain ⟨k, rfl⟩ : ∃ j, k = j + 1 := ⟨k - 1, by omega⟩
    have : isUriChar (s.src.peekz 0) = false := by
      rw [peekz_head hr]
      cases post with
      | nil => rfl
      | cons c post => exact hs c rfl
    rw [loop_done (b := str) (s1 := s) (by unfold uriCharsBody; ev [this])]
    simp
  | cons a w ih =>
    intro k str s hw hr hk
    obtain ⟨k, rfl⟩ : ∃ j, k = j + 1 := ⟨k - 1, by omega⟩
    have h0 : s.src.peekz 0 = a := peekz_cons hr
    have hpk : s.src.peekChecked 0 = some a := by simp [Src.peekChecked, hr]
    obtain ⟨h1, h2⟩ := hw a (by simp)
    have hu : uriScansOrNonBlank cfg str m s = (.ok (str ++ [a]), on s 1) := by
      unfold uriScansOrNonBlank
      ev [hpk, h2]
      rw [bind_run (skipNonBlank_on _)]
      rfl
    rw [loop_next (b := str ++ [a]) (s1 := on s 1) (by unfold uriCharsBody; ev [h0, h1]; rw [bind_run hu]; rfl)]
    rw [ih (fun b hb => hw b (by simp [hb])) (s := on s 1) (on_rest (w := [a]) hr rfl) (by simp at hk; omega)]
    by_cases hw0 : w = []
    · subst hw0; simp
    · rw [if_neg hw0, if_neg (by simp), on_on]
      simp [Nat.add_comm 1]

/-- the rest of a line: nothing, or something that begins with a space, and its end -/
def LineEnds (r : List Byte) : Prop := ∃ c r', r = c :: r' ∧ (c = 32 ∨ c = 10)

theorem LineEnds.blank {r} (h : LineEnds r) : isBlankOrBreak (r.headD 0) = true := by
  obtain ⟨c, r', rfl, rfl | rfl⟩ := h <;> rfl

theorem LineEnds.head {r} (h : LineEnds r) (f : Byte → Bool) (h1 : f 32 = false) (h2 : f 10 = false) : ∀ c, r.head? = some c → f c = false := by
  obtain ⟨c, r', rfl, rfl | rfl⟩ := h <;> simp [h1, h2]

theorem ends_spaces {n r} : LineEnds (Block.spaces (n + 1) ++ r) := ⟨32, _, rfl, .inl rfl⟩

/-- the name of a directive -/
theorem name_run {s : SSt} {n r} (h : s.leadingWhitespace = false) (hr : s.src.rest = n ++ r) (hn : n ≠ []) (hw : ∀ b ∈ n, isAlpha b = true) (he : LineEnds r) :
    scanDirectiveName s = (.ok n, on s n.length) := by
  unfold scanDirectiveName
  rw [getMark_bind, bind_run (alpha_on h hr hw (he.head _ (by decide) (by decide)))]
  have h1 : n.isEmpty = false := by simpa using hn
  have h2 : isBlankOrBreak ((on s n.length).src.peekz 0) = true := by rw [peekz_head (on_rest hr rfl)]; exact he.blank
  ev [h1, h2, Bool.not_true]

theorem number_run {cfg : Cfg} {s : SSt} {m d r} (hr : s.src.rest = d :: r) (hd : 48 ≤ d ∧ d ≤ 57) (hh : ∀ c, r.head? = some c → isAsciiDigit c = false) (hf : 1 < cfg.fuel) :
    scanVersionNumber cfg m s = (.ok (d - 48), on s 1) := by
  obtain ⟨k, hk⟩ : ∃ j, cfg.fuel = j + 1 + 1 := ⟨cfg.fuel - 2, by omega⟩
  have h0 : s.src.peekz 0 = d := peekz_cons hr
  have h1 : isAsciiDigit d = true := by simp [isAsciiDigit]; exact hd
  have hv : ¬ (cfg.debug = true ∧ 0 * 10 + (d - 48) > 255) := by omega
  have hb : versionBody cfg m (0, 0) s = (.ok (.next ((0 * 10 + (d - 48)) % 256, 1)), on s 1) := by
    unfold versionBody
    ev [h0, h1]
    rw [bind_run (show failIf _ _ _ s = (.ok (), s) from rfl), ite_run, if_neg hv, bind_run (skipNonBlank_on _)]
    rfl
  have h2 : isAsciiDigit ((on s 1).src.peekz 0) = false := by
    rw [peekz_head (on_rest (n := 1) (w := [d]) hr rfl)]
    cases r with
    | nil => rfl
    | cons c r => exact hh c rfl
  unfold scanVersionNumber
  rw [show (0 * 10 + (d - 48)) % 256 = d - 48 by omega] at hb
  have : loopM (versionBody cfg m) cfg.fuel (0, 0) s = (.ok (d - 48, 1), on s 1) := by
    rw [hk, loop_next hb]
    exact loop_done (by unfold versionBody; ev [h2])
  rw [bind_run this]
  rfl

/-- the token of a directive -/
inductive AimTok : Block.Aim → TokenType → Prop
  | version {a b} : AimTok .version (.versionDirective a b)
  | tag {h p} : h ≠ [] → AimTok (.tag h p) (.tagDirective h p)
  | other : AimTok .other (.tagDirective [] [])

theorem on_lw (s : SSt) (n : Nat) : (on s n).leadingWhitespace = false := rfl

theorem versionDirective_run {cfg : Cfg} {s : SSt} {m n d r} (h : s.leadingWhitespace = false) (hr : s.src.rest = Block.spaces (n + 1) ++ (bs!"1." ++ ([d] ++ r))) (hd : 48 ≤ d ∧ d ≤ 57) (he : LineEnds r)
    (hf : 1 < cfg.fuel) : ∃ sp, scanVersionDirective cfg m s = (.ok ⟨sp, .versionDirective 1 (d - 48)⟩, on s (n + 1 + 3)) := by
  have r1 : (on s (n + 1)).src.rest = 49 :: 46 :: d :: r := on_rest (w := Block.spaces (n + 1)) hr (by simp [spaces_len])
  have ha := number_run (cfg := cfg) (m := m) r1 (by omega) (by simp; decide) hf
  have r2 : (on s (n + 1 + 1)).src.rest = 46 :: d :: r := on_rest (w := Block.spaces (n + 1) ++ [49]) (by simpa using hr) (by simp [spaces_len])
  have r3 : (on s (n + 1 + 2)).src.rest = d :: r := on_rest (w := Block.spaces (n + 1) ++ bs!"1.") (by simpa using hr) (by simp [spaces_len])
  have hb := number_run (cfg := cfg) (m := m) r3 hd (he.head _ (by decide) (by decide)) hf
  refine ⟨⟨m, (on s (n + 1 + 3)).mark⟩, ?_⟩
  unfold scanVersionDirective
  rw [bind_run (blanks_on h hr (by simp; decide)), bind_run ha, on_on, peekz_bind, peekz_cons r2]
  rw [bind_run (show failIf _ _ _ (on s (n + 1 + 1)) = (.ok (), on s (n + 1 + 1)) from rfl), bind_run (skipNonBlank_on _), on_on, bind_run hb, on_on]
  rfl

theorem handle_run {s : SSt} {m h r} (hh : Block.Handle h) (hr : s.src.rest = h ++ r) (he : LineEnds r) : scanTagHandle true m s = (.ok h, on s h.length) := by
  have key : ∀ al r', (∀ b ∈ al, isAlpha b = true) → s.src.rest = 33 :: (al ++ r') → (∀ c, r'.head? = some c → isAlpha c = false) →
      scanTagHandle true m s = (do
        let c ← peekz 0
        if c = b%'!' then do
          skipNonBlank
          pure ((33 :: al) ++ [b%'!'])
        else do
          failIf (true && (33 :: al) != [b%'!']) m "while parsing a tag directive, did not find expected '!'"
          pure (33 :: al)) (on s (1 + al.length)) := by
    intro al r' h1 h2 h3
    unfold scanTagHandle
    rw [peekz_bind, peekz_cons h2, bind_run (show failIf _ _ _ s = (.ok (), s) from rfl), bind_run (skipNonBlank_on _),
      bind_run (alpha_on (on_lw _ _) (on_rest (n := 1) (w := [33]) h2 rfl) h1 h3), on_on]
  rcases hh with rfl | ⟨n, hn, rfl⟩
  · rw [key [] r (by simp) hr (he.head _ (by decide) (by decide)), peekz_bind, peekz_head (on_rest (n := 1 + ([] : List Byte).length) (w := [33]) hr rfl)]
    have : r.headD 0 ≠ 33 := by obtain ⟨c, r', rfl, rfl | rfl⟩ := he <;> simp
    rw [ite_run, if_neg this]
    rfl
  · have hr' : s.src.rest = 33 :: (n ++ (33 :: r)) := by simpa using hr
    rw [key n (33 :: r) (fun b hb => handleByte (hn b hb)) hr' (by simp; decide), peekz_bind,
      peekz_cons (on_rest (w := 33 :: n) (r := 33 :: r) (by simpa using hr') (by simp [Nat.add_comm])), ite_run, if_pos rfl, bind_run (skipNonBlank_on _), on_on]
    simp only [pure_run]
    rw [show 1 + n.length + 1 = (33 :: (n ++ [33])).length by simp; omega]
    rfl

theorem handle_valid {h} (hh : Block.Handle h) : Utf8.valid h = true := by
  refine ascii_valid ?_
  rcases hh with rfl | ⟨n, hn, rfl⟩
  · simp
  · intro b hb
    simp only [List.mem_cons, List.mem_append, List.not_mem_nil, or_false] at hb
    rcases hb with rfl | hb | rfl
    · decide
    · exact handle_ascii (hn b hb)
    · decide

theorem prefix_bytes {p} (h : Block.Prefix p) : ∃ c r, p = c :: r ∧ (c = 33 ∨ (isTagChar c = true ∧ c ≠ 37)) ∧ (∀ b ∈ r, isUriChar b = true ∧ b ≠ 37) ∧ ∀ b ∈ p, b < 128 ∧ b ≠ 10 := by
  obtain ⟨⟨c, r, rfl, hc, hr⟩, -⟩ := h
  have hr' : ∀ b ∈ r, isUriChar b = true ∧ b ≠ 37 := by
    intro b hb
    rcases hr b hb with h | rfl | rfl
    · exact tagByte_uri h
    · decide
    · decide
  refine ⟨c, r, rfl, ?_, hr', ?_⟩
  · rcases hc with h | rfl
    · exact .inr (tagByte_iff.1 h)
    · exact .inl rfl
  · intro b hb
    have hu : isUriChar b = true := by
      rcases List.mem_cons.1 hb with rfl | hb
      · rcases hc with h | rfl
        · exact (tagByte_uri h).1
        · decide
      · exact (hr' b hb).1
    exact ⟨uri_ascii hu, by rintro rfl; exact absurd hu (by decide)⟩

theorem prefix_run {cfg : Cfg} {s : SSt} {m p r} (hp : Block.Prefix p) (hr : s.src.rest = p ++ r) (he : LineEnds r) (hf : p.length < cfg.fuel) :
    scanTagPrefix cfg m s = (.ok p, on s p.length) := by
  obtain ⟨c, q, rfl, hc, hq, -⟩ := prefix_bytes hp
  have h0 : s.src.peekz 0 = c := peekz_cons hr
  have hpk : s.src.peekChecked 0 = some c := by simp [Src.peekChecked, hr]
  have hst : scanPrefixStart cfg m s = (.ok [c], on s 1) := by
    unfold scanPrefixStart
    rw [peekz_bind, h0]
    rcases hc with rfl | ⟨h1, h2⟩
    · rw [ite_run, if_pos rfl, bind_run (skipNonBlank_on _)]
      rfl
    · have h3 : c ≠ 33 := by rintro rfl; exact absurd h1 (by decide)
      rw [ite_run, if_neg h3, ite_run, if_neg (by simp [h1])]
      unfold uriScansOrNonBlank
      ev [hpk, h2]
      rw [bind_run (skipNonBlank_on _)]
      rfl
  unfold scanTagPrefix
  rw [bind_run hst, uri_run (he.head _ (by decide) (by decide)) hq (on_rest (n := 1) (w := [c]) hr rfl) (by simp at hf; omega)]
  by_cases hx : q = []
  · subst hx; rfl
  · rw [if_neg hx, on_on]
    simp [Nat.add_comm]

theorem tagDirective_run {cfg : Cfg} {s : SSt} {m n k h p r} (hl : s.leadingWhitespace = false) (hh : Block.Handle h) (hp : Block.Prefix p)
    (hr : s.src.rest = Block.spaces (n + 1) ++ (h ++ (Block.spaces (k + 1) ++ (p ++ r)))) (he : LineEnds r) (hf : p.length < cfg.fuel) :
    ∃ sp, scanTagDirective cfg m s = (.ok ⟨sp, .tagDirective h p⟩, on s (n + 1 + h.length + (k + 1) + p.length)) := by
  have r1 : (on s (n + 1)).src.rest = h ++ (Block.spaces (k + 1) ++ (p ++ r)) := on_rest (w := Block.spaces (n + 1)) hr (by simp [spaces_len])
  have r2 : (on s (n + 1 + h.length)).src.rest = Block.spaces (k + 1) ++ (p ++ r) := on_rest (w := Block.spaces (n + 1) ++ h) (by rw [hr]; simp) (by simp [spaces_len])
  have r3 : (on s (n + 1 + h.length + (k + 1))).src.rest = p ++ r := on_rest (w := Block.spaces (n + 1) ++ (h ++ Block.spaces (k + 1))) (by rw [hr]; simp) (by simp [spaces_len]; omega)
  have r4 : (on s (n + 1 + h.length + (k + 1) + p.length)).src.rest = r := on_rest (w := Block.spaces (n + 1) ++ (h ++ (Block.spaces (k + 1) ++ p))) (by rw [hr]; simp) (by simp [spaces_len]; omega)
  refine ⟨⟨m, (on s (n + 1 + h.length + (k + 1) + p.length)).mark⟩, ?_⟩
  unfold scanTagDirective
  have hb1 : ∀ c, (h ++ (Block.spaces (k + 1) ++ (p ++ r))).head? = some c → isBlank c = false := by
    rcases hh with rfl | ⟨x, -, rfl⟩ <;> (simp; decide)
  have hb2 : ∀ c, (p ++ r).head? = some c → isBlank c = false := by
    obtain ⟨c, q, rfl, hc, -⟩ := prefix_bytes hp
    intro d hd
    simp at hd
    subst hd
    rcases hc with rfl | ⟨h1, -⟩
    · rfl
    · cases hx : isBlank c with
      | false => rfl
      | true =>
        simp [isBlank] at hx
        rcases hx with rfl | rfl <;> exact absurd h1 (by decide)
  have hv : Utf8.valid p = true := ascii_valid fun b hb => by obtain ⟨c, q, rfl, -, -, h⟩ := prefix_bytes hp; exact (h b hb).1
  have h2 : isBlankOrBreak ((on s (n + 1 + h.length + (k + 1) + p.length)).src.peekz 0) = true := by rw [peekz_head r4]; exact he.blank
  rw [bind_run (blanks_on hl hr hb1), bind_run (handle_run hh r1 ends_spaces), on_on]
  ev [handle_valid hh, Bool.not_true]
  rw [bind_run (blanks_on (on_lw _ _) r2 hb2), on_on, bind_run (prefix_run hp r3 he hf), on_on]
  ev [hv, h2, Bool.not_true]

theorem directive_head {t d} (h : Block.Directive t d) : ∃ r, t = 37 :: r ∧ 0 < r.length := by
  cases h with
  | version => exact ⟨_, rfl, by simp⟩
  | tag => exact ⟨_, rfl, by simp⟩
  | other hn => exact ⟨_, rfl, by have := List.length_pos_iff.2 hn; simp; omega⟩

/-- the state after the end of a line -/
def brk (s : SSt) : SSt := { s with src := s.src.skip 1, mark := ⟨s.mark.pos + 1, 1, s.mark.line + 1⟩, leadingWhitespace := true }

theorem eol_bytes {e} (h : Block.Eol e) : ∀ b ∈ e, b ≠ 10 ∧ isBreakz b = false := by
  have hs : ∀ n, ∀ b ∈ Block.spaces n, b ≠ 10 ∧ isBreakz b = false := fun n b hb => by rw [List.eq_of_mem_replicate hb]; decide
  rcases h with ⟨n, rfl⟩ | ⟨n, k, ⟨k, rfl, hk⟩, rfl⟩
  · exact hs n
  · intro b hb
    rcases List.mem_append.1 hb with hb | hb
    · exact hs _ b hb
    · rcases List.mem_cons.1 hb with rfl | hb
      · decide
      · obtain ⟨h1, h2, h3⟩ := hk b hb
        exact ⟨h1, by simp [isBreakz, h1, h2, h3]⟩

/-- the end of the line of a directive -/
theorem line_run {s : SSt} {n e r m} (he : Block.Eol e) (hr : (on s n).src.rest = e ++ 10 :: r) (tok : Token) :
    (skipWsToEol true false >>= fun _ => peekz 0 >>= fun c => failIf (!(isBreak c || c == b%'#')) m "while scanning a directive, did not find expected comment or line break" >>=
      fun _ => skipLinebreak >>= fun _ => pure tok) (on s n) = (.ok tok, brk (on s (n + e.length))) := by
  obtain ⟨x, hw⟩ := eol_run he hr (.inr ⟨r, rfl⟩)
  have hp : pass (on s n) e (on s n).leadingWhitespace = on s (n + e.length) := by
    rw [← on_on]
    simp [pass, gapMark_flat _ _ (fun b hb => (eol_bytes he b hb).1), on]
  have hr2 := pass_rest (l := (on s n).leadingWhitespace) hr
  rw [hp] at hw hr2
  have h0 : (on s (n + e.length)).src.peekz 0 = 10 := peekz_cons hr2
  rw [bind_run hw, peekz_bind, h0, bind_run (show failIf _ _ _ (on s (n + e.length)) = (.ok (), on s (n + e.length)) from rfl)]
  have hl : skipLinebreak (on s (n + e.length)) = (.ok (), brk (on s (n + e.length))) := by
    unfold skipLinebreak upd
    simp only [h0]
    rfl
  rw [bind_run hl]
  rfl

/-- a directive, with the rest of its line, is read as `tok` -/
def DirG (t : List Byte) (tok : TokenType) : Prop :=
  ∀ {cfg : Cfg} {s : SSt} {e r}, Block.Eol e → s.src.rest = t ++ (e ++ 10 :: r) → t.length < cfg.fuel →
    ∃ sp, scanDirective cfg s = (.ok ⟨sp, tok⟩, brk (on s (t.length + e.length)))

/-- the text of a directive, and its token -/
inductive DirTok : List Byte → TokenType → Prop
  | version {n d} : 48 ≤ d → d ≤ 57 → DirTok (bs!"%YAML" ++ (Block.spaces (n + 1) ++ (bs!"1." ++ [d]))) (.versionDirective 1 (d - 48))
  | tag {n m h p} : Block.Handle h → Block.Prefix p → DirTok (bs!"%TAG" ++ (Block.spaces (n + 1) ++ (h ++ (Block.spaces (m + 1) ++ p)))) (.tagDirective h p)
  | other {n r} : n ≠ [] → (∀ b ∈ n, Block.HandleByte b) → n ≠ bs!"YAML" → n ≠ bs!"TAG" → (r = [] ∨ r.head? = some b%' ') → (∀ b ∈ r, b ≠ b%'\n' ∧ b ≠ b%'\r' ∧ b ≠ 0) →
      DirTok (b%'%' :: (n ++ r)) (.tagDirective [] [])

/-- a directive has a token -/
theorem directive_tok {t d} (ht : Block.Directive t d) : ∃ tok, AimTok d tok ∧ DirTok t tok := by
  cases ht with
  | version h1 h2 => exact ⟨_, .version, .version h1 h2⟩
  | tag hh hp => exact ⟨_, .tag (by rcases hh with rfl | ⟨x, -, rfl⟩ <;> simp), .tag hh hp⟩
  | other hn hw hy ht hq hb => exact ⟨_, .other, .other hn hw hy ht hq hb⟩

/-- a directive and the rest of its line -/
theorem directive_run {t tok} (ht : DirTok t tok) : DirG t tok := by
  intro cfg s e r he hr hf
  have hend : LineEnds (e ++ 10 :: r) := by
    rcases eol_first he with rfl | h | h
    · exact ⟨10, r, rfl, .inr rfl⟩
    · cases e <;> simp at h; subst h; exact ⟨_, _, rfl, .inl rfl⟩
    · cases e <;> simp at h; subst h; exact ⟨_, _, rfl, .inr rfl⟩
  have hrt : (on s t.length).src.rest = e ++ 10 :: r := on_rest hr rfl
  unfold scanDirective
  cases ht with
  | @version n d h1 h2 =>
    have hr1 : (on s 1).src.rest = bs!"YAML" ++ (Block.spaces (n + 1) ++ (bs!"1." ++ ([d] ++ (e ++ 10 :: r)))) := on_rest (w := [37]) (by rw [hr]; simp) rfl
    obtain ⟨sp, hv⟩ := versionDirective_run (cfg := cfg) (m := s.mark) (n := n) (d := d) (r := e ++ 10 :: r) (on_lw s (1 + (bs!"YAML").length)) (on_rest (n := 1 + (bs!"YAML").length) (w := bs!"%YAML") (by rw [hr]; simp) rfl) ⟨h1, h2⟩ hend (by simp at hf; omega)
    rw [on_on, show 1 + (bs!"YAML").length + (n + 1 + 3) = (bs!"%YAML" ++ (Block.spaces (n + 1) ++ (bs!"1." ++ [d]))).length by simp [spaces_len]; omega] at hv
    refine ⟨sp, ?_⟩
    rw [getMark_bind, bind_run (skipNonBlank_on _), bind_run (name_run (on_lw _ _) hr1 (by simp) (by decide) ends_spaces), on_on, if_pos rfl]
    rw [bind_run hv, line_run he hrt]
  | @tag n m h p hh hp =>
    have hr1 : (on s 1).src.rest = bs!"TAG" ++ (Block.spaces (n + 1) ++ (h ++ (Block.spaces (m + 1) ++ (p ++ (e ++ 10 :: r))))) := on_rest (w := [37]) (by rw [hr]; simp) rfl
    obtain ⟨sp, hv⟩ := tagDirective_run (cfg := cfg) (m := s.mark) (n := n) (k := m) (r := e ++ 10 :: r) (on_lw s (1 + (bs!"TAG").length)) hh hp (on_rest (n := 1 + (bs!"TAG").length) (w := bs!"%TAG") (by rw [hr]; simp) rfl) hend (by simp at hf; omega)
    rw [on_on, show 1 + (bs!"TAG").length + (n + 1 + h.length + (m + 1) + p.length) = (bs!"%TAG" ++ (Block.spaces (n + 1) ++ (h ++ (Block.spaces (m + 1) ++ p)))).length by simp [spaces_len]; omega] at hv
    refine ⟨sp, ?_⟩
    rw [getMark_bind, bind_run (skipNonBlank_on _), bind_run (name_run (on_lw _ _) hr1 (by simp) (by decide) ends_spaces), on_on, if_neg (by decide), if_pos rfl]
    rw [bind_run hv, line_run he hrt]
  | @other n q hn hw hy ht hq hb =>
    have hr1 : (on s 1).src.rest = n ++ (q ++ (e ++ 10 :: r)) := on_rest (w := [37]) (by rw [hr]; simp) rfl
    have hq' : LineEnds (q ++ (e ++ 10 :: r)) := by
      rcases hq with rfl | hq
      · exact hend
      · cases q <;> simp at hq; subst hq; exact ⟨_, _, rfl, .inl rfl⟩
    have hr2 : (on s (1 + n.length)).src.rest = (q ++ e) ++ 10 :: r := on_rest (w := 37 :: n) (by rw [hr]; simp) (by simp [Nat.add_comm])
    have hl := line_on (on_lw s (1 + n.length)) hr2 (by
      intro b hx
      rcases List.mem_append.1 hx with hx | hx
      · obtain ⟨h1, h2, h3⟩ := hb b hx
        simp [isBreakz, h1, h2, h3]
      · exact (eol_bytes he b hx).2) (by simp; decide)
    rw [on_on] at hl
    have hlen : 1 + n.length + (q ++ e).length = (37 :: (n ++ q)).length + e.length := by simp; omega
    rw [hlen] at hl
    refine ⟨⟨s.mark, (on s ((37 :: (n ++ q)).length + e.length)).mark⟩, ?_⟩
    rw [getMark_bind, bind_run (skipNonBlank_on _), bind_run (name_run (on_lw _ _) hr1 hn (fun b hb => handleByte (hw b hb)) hq'), on_on, if_neg hy, if_neg ht]
    unfold scanOtherDirective
    simp only [bind_assoc_run, pure_bind_run]
    rw [bind_run hl]
    simp only [getMark_bind]
    have hr3 : (on s ((37 :: (n ++ q)).length + e.length)).src.rest = [] ++ 10 :: r := on_rest (w := (37 :: (n ++ q)) ++ e) (by rw [hr]; simp) (by simp; omega)
    rw [line_run (e := []) (.inl ⟨0, rfl⟩) hr3]
    rfl

/-- a directive is read -/
theorem directive_indented {cfg : Cfg} {s out t d tok e ls q al j} (h : Here cfg s out [] 0 (t ++ (e ++ 10 :: (ls ++ (Block.spaces j ++ q)))) 1 al) (ha : al = true ∨ Quiet cfg s) (ht : Block.Directive t d) (htok : DirG t tok) (he : Block.Eol e)
    (hl : Block.IdleLines ls) (hq : TokenHead q) (hf : (t ++ (e ++ 10 :: (ls ++ (Block.spaces j ++ q)))).length < cfg.fuel) :
    ∃ s' al', fetchNextToken cfg s = (.ok (), s') ∧ Here cfg s' (out ++ [tok]) [] 0 q (j + 1) al' ∧ Quiet cfg s' := by
  obtain ⟨t', rfl, ht'⟩ := directive_head ht
  obtain ⟨S, k, e1, r1, c1, hc, hk, hkp, n, hu, rfl⟩ := at_first (by simp) h ha
  generalize hU : ({ S with indents := [], indent := 0, tokens := S.tokens ++ List.replicate n ⟨Span.empty S.mark, .blockEnd⟩ } : SSt) = U at hu
  have hUk : U.simpleKeys = [k] := by rw [← hU]; exact hk
  have hUr : U.src.rest = (37 :: t') ++ (e ++ 10 :: (ls ++ (Block.spaces j ++ q))) := by rw [← hU]; exact r1
  have hUt : types U = types S ++ List.replicate n .blockEnd := by rw [← hU]; simp [types]
  have hUc : Calm U := by rw [← hU]; exact ⟨hc.level, hc.impl, hc.parsed, hc.started, hc.fit⟩
  have hUi : U.indent = 0 ∧ U.indents = [] := by rw [← hU]; exact ⟨rfl, rfl⟩
  generalize hV : ({ U with simpleKeyAllowed := false } : SSt) = V
  have hVr : V.src.rest = (37 :: t') ++ (e ++ 10 :: (ls ++ (Block.spaces j ++ q))) := by rw [← hV]; exact hUr
  obtain ⟨sp, hd⟩ := htok (cfg := cfg) he hVr (by simp at hf ⊢; omega)
  generalize hW : brk (on V ((37 :: t').length + e.length)) = W at hd
  have hWr : W.src.rest = ls ++ (Block.spaces j ++ q) := by
    have : (on V ((37 :: t').length + e.length)).src.rest = 10 :: (ls ++ (Block.spaces j ++ q)) := on_rest (w := (37 :: t') ++ e) (by rw [hVr]; simp) (by simp; omega)
    rw [← hW]
    show (on V ((37 :: t').length + e.length)).src.rest.drop 1 = _
    rw [this]
    rfl
  have hWm : W.mark.col = 1 := by rw [← hW]; rfl
  have hWk : W.simpleKeys = [k] := by rw [← hW, ← hV]; exact hUk
  have hWc : Calm W := by
    rw [← hW, ← hV]
    refine ⟨hUc.level, hUc.impl, hUc.parsed, hUc.started, ?_⟩
    show Fit ((U.src.skip _).skip 1)
    refine (hUc.fit.skip (by rw [hUr]; simp; omega)).skip ?_
    simp [Src.skip, hUr]
    omega
  have hWi : W.indent = 0 ∧ W.indents = [] := by rw [← hW, ← hV]; exact hUi
  have hWt : types W = types S ++ List.replicate n .blockEnd := by rw [← hW, ← hV]; exact hUt
  generalize hP : ({ W with tokens := W.tokens ++ [⟨sp, tok⟩] } : SSt) = P
  have hrun : fetchNextToken cfg s = (.ok (), P) := by
    rw [e1]
    have p0 : S.src.peekz 0 = 37 := peekz_cons r1
    have hcol : (S.mark.col == 1) = true := by rw [c1]; rfl
    unfold fetchAtToken
    ev [hcol, p0, Bool.true_and, beq_self_eq_true, if_pos]
    unfold fetchDirective setAllowed
    rw [bind_run hu, bind_run (remove_run hUk hkp), upd_bind, hV, bind_run hd, ← hP]
    rfl
  refine ⟨P, (ls ++ Block.spaces j).contains 10, hrun, ?_, ?_⟩
  · have := here_lay (cfg := cfg) (s := P) (w := ls ++ Block.spaces j) (q := q) (c := j + 1) (k := k) (I := []) (i := 0) (n := 0) (idles_lay hl spaces_lay') (by rw [← hP]; show W.src.rest = _; rw [hWr]; simp) hq
      (by simp at hf ⊢; omega) (by rw [← hP]; exact ⟨hWc.level, hWc.impl, hWc.parsed, hWc.started, hWc.fit⟩)
      (fun _ => by
        have : P.mark.col = 1 := by rw [← hP]; exact hWm
        rcases idles_end hl with rfl | ⟨l', rfl⟩
        · rw [List.nil_append, spaces_col, this]; exact Nat.add_comm _ _
        · rw [List.append_assoc]; exact gapMark_after _ l' j)
      (by rw [← hP]; show unroll _ W.indent W.indents = _; rw [hWi.1, hWi.2]; exact unroll_ok (by omega)) (by rw [← hP]; exact hWk) (fun hx => by rw [hkp] at hx; cases hx)
      (fun _ _ _ _ => .inr rfl)
    have hPt : types P = types S ++ List.replicate n .blockEnd ++ [tok] := by rw [← hP, ← hWt]; simp [types]
    have hPa : P.simpleKeyAllowed = false := by rw [← hP, ← hW, ← hV]; rfl
    rw [hPt, hPa] at this
    simpa using this
  · refine ⟨gap P (ls ++ Block.spaces j), lay_run (idles_lay hl spaces_lay') hq (by rw [← hP]; show W.src.rest = _; rw [hWr]; simp) (by simp at hf ⊢; omega) (by rw [← hP]; exact hWc.level), ?_⟩
    show ∀ k ∈ P.simpleKeys, _
    have : P.simpleKeys = [k] := by rw [← hP]; exact hWk
    rw [this]
    simpa using hkp

theorem directive_step {cfg : Cfg} {s out t d tok e ls q al} (h : Here cfg s out [] 0 (t ++ (e ++ 10 :: (ls ++ q))) 1 al) (ha : al = true ∨ Quiet cfg s) (ht : Block.Directive t d) (htok : DirG t tok) (he : Block.Eol e)
    (hl : Block.IdleLines ls) (hq : TokenHead q) (hf : (t ++ (e ++ 10 :: (ls ++ q))).length < cfg.fuel) :
    ∃ s' al', fetchNextToken cfg s = (.ok (), s') ∧ Here cfg s' (out ++ [tok]) [] 0 q 1 al' ∧ Quiet cfg s' :=
  directive_indented (j := 0) h ha ht htok he hl hq hf

/-- the tokens of directives -/
inductive AimToks : List Block.Aim → List TokenType → Prop
  | nil : AimToks [] []
  | cons {d tok ds toks} : AimTok d tok → AimToks ds toks → AimToks (d :: ds) (tok :: toks)

theorem directives_head {t ds q} (h : Block.Directives t ds) (hq : TokenHead q) : TokenHead (t ++ q) := by
  cases h with
  | nil => exact hq
  | cons h => obtain ⟨r, rfl, -⟩ := directive_head h; simp [TokenHead]

/-- directives are read as `toks` -/
theorem directives_run {t ds} (h : Block.Directives t ds) : ∃ toks, AimToks ds toks ∧ ∀ {cfg s out al q}, TokenHead q → Here cfg s out [] 0 (t ++ q) 1 al → al = true ∨ Quiet cfg s → (t ++ q).length < cfg.fuel →
    ∃ m s' al', Fetches cfg m s s' ∧ Here cfg s' (out ++ toks) [] 0 q 1 al' ∧ (al' = true ∨ Quiet cfg s') ∧ m ≤ t.length := by
  induction h with
  | nil => exact ⟨[], .nil, fun {cfg s out al q} _ hh ha _ => ⟨0, s, al, .refl, by simpa using hh, ha, by simp⟩⟩
  | @cons t d e ls r ds h1 h2 h3 h4 ih =>
    obtain ⟨toks, h5, ih⟩ := ih
    obtain ⟨tok, htok, htt⟩ := directive_tok h1
    refine ⟨tok :: toks, .cons htok h5, fun {cfg s out al q} hq hh ha hf => ?_⟩
    have e1 : t ++ (e ++ 10 :: (ls ++ r)) ++ q = t ++ (e ++ 10 :: (ls ++ (r ++ q))) := by simp
    rw [e1] at hh hf
    obtain ⟨s1, al1, hf1, hh1, hq1⟩ := directive_step hh ha h1 (directive_run htt) h2 h3 (directives_head h4 hq) hf
    obtain ⟨m, s', al', h6, h7, h8, h9⟩ := ih hq hh1 (.inr hq1) (by simp at hf ⊢; omega)
    refine ⟨_, s', al', .step hf1 h6, by simpa using h7, h8, ?_⟩
    simp
    omega

/-! ## The handles that are declared -/

theorem readsAs_mono {lk lk' : List Byte → Option (List Byte)} (hl : ∀ h, h ≠ [] → lk' h = lk h) (h0 : lk [] = none) (h1 : lk' [] = none ∨ lk' [] = some []) {h sf t}
    (h' : ReadsAs lk h sf t) : ReadsAs lk' h sf t := by
  cases h' with
  | declared h' =>
    by_cases hh : h = []
    · subst hh; rw [h0] at h'; cases h'
    · exact .declared (by rw [hl h hh, h'])
  | secondary h' => exact .secondary (by rw [hl _ (by simp), h'])
  | other h' h2 h3 =>
    by_cases hh : h = []
    · subst hh
      rcases h1 with h1 | h1
      · exact .other h1 h2 h3
      · exact .declared h1
    · exact .other (by rw [hl h hh, h']) h2 h3

theorem properties_mono {lk lk' : List Byte → Option (List Byte)} (hl : ∀ {h sf t}, ReadsAs lk h sf t → ReadsAs lk' h sf t) {ns q a t ns'} (h : Properties lk ns q a t ns') :
    Properties lk' ns q a t ns' := by
  cases h with
  | anchor => exact .anchor
  | tag h => exact .tag (hl h)
  | anchorTag h => exact .anchorTag (hl h)
  | tagAnchor h => exact .tagAnchor (hl h)

theorem derives_mono {loose} {lk lk' : List Byte → Option (List Byte)} (hl : ∀ {h sf t}, ReadsAs lk h sf t → ReadsAs lk' h sf t) {nt ns toks evs ns'} (h : DerivesL loose lk nt ns toks evs ns') :
    DerivesL loose lk' nt ns toks evs ns' := by
  induction h with
  | props h _ ih => exact .props (properties_mono hl h) ih
  | propsOnly h => exact .propsOnly (properties_mono hl h)
  | alias h => exact .alias h
  | bare _ ih => exact .bare ih
  | absent => exact .absent
  | present _ ih => exact .present ih
  | scalar => exact .scalar
  | blockSeq h _ ih => exact .blockSeq h ih
  | indentless h _ ih => exact .indentless h ih
  | blockMap h _ ih => exact .blockMap h ih
  | flowSeq _ ih => exact .flowSeq ih
  | flowMap _ ih => exact .flowMap ih
  | noItems => exact .noItems
  | item _ _ h1 h2 => exact .item h1 h2
  | noEntries => exact .noEntries
  | keyValue _ _ _ h1 h2 h3 => exact .keyValue h1 h2 h3
  | keyOnly _ _ h h1 h2 => exact .keyOnly h1 h2 h
  | valueOnly _ _ h1 h2 => exact .valueOnly h1 h2
  | noFlowItems => exact .noFlowItems
  | flowItem _ _ h h1 h2 => exact .flowItem h1 h2 h
  | flowPair _ _ _ h h1 h2 h3 => exact .flowPair h1 h2 h3 h
  | flowPairKey _ _ h h1 h2 => exact .flowPairKey h1 h2 h
  | oddPair a b _ _ h h1 h2 => exact .oddPair a b h1 h2 h
  | oddPairKey a b _ h h1 => exact .oddPairKey a b h1 h
  | noFlowEntries => exact .noFlowEntries
  | flowSingle _ _ h h1 h2 => exact .flowSingle h1 h2 h
  | flowKeyValue _ _ _ h h1 h2 h3 => exact .flowKeyValue h1 h2 h3 h
  | flowKeyOnly _ _ h h1 h2 => exact .flowKeyOnly h1 h2 h
  | flowValueOnly _ _ h h1 h2 => exact .flowValueOnly h1 h2 h

/-- the parser knows the declared handles -/
theorem declared_reads {ds : List Block.Aim} {toks} (h : AimToks ds toks) {hd sf t} (hr : ReadsAs (@tagTable ⟨Block.declares ds⟩) hd sf t) : ReadsAs (declaredBy toks) hd sf t := by
  refine readsAs_mono (lk := @tagTable ⟨Block.declares ds⟩) ?_ (by simp [tagTable]) ?_ hr
  · clear hr
    intro h' hne
    show _ = if h' = [] then none else Block.declares ds h'
    rw [if_neg hne]
    induction h with
    | nil => rfl
    | cons h1 _ ih =>
      cases h1 with
      | version => exact ih
      | tag =>
        simp only [declaredBy, Block.declares]
        split
        · rfl
        · exact ih
      | other =>
        simp only [declaredBy, Block.declares]
        rw [if_neg (Ne.symm hne)]
        exact ih
  · clear hr
    induction h with
    | nil => exact .inl rfl
    | cons h1 _ ih =>
      cases h1 with
      | version => exact ih
      | tag h2 =>
        simp only [declaredBy]
        rw [if_neg h2]
        exact ih
      | other => exact .inr (by simp [declaredBy])

end Verif.Scanner
