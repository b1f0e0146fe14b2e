import Verif.Lemmas.ScanFaults
import Verif.Lemmas.ScanDirective
/-!
# Wrong directives are refused
-/
namespace Verif.Scanner
open Verif Verif.CharUtils Verif.Source Verif.Spec Verif.Spec.Faults

/-! ## Bytes -/

theorem stops_head {p : Byte → Prop} {r : List Byte} (h : Stops p r) (h0 : ¬ p 0) : ¬ p (r.headD 0) := by
  cases r with
  | nil => exact h0
  | cons b r => exact h b rfl

theorem _root_.Verif.Spec.Faults.Stops.mono {p q : Byte → Prop} {r : List Byte} (h : Stops p r) (hq : ∀ b, q b → p b) : Stops q r := fun b hb hx => h b hb (hq b hx)

theorem alpha_iff {b : Byte} : isAlpha b = true ↔ Block.HandleByte b := by
  simp only [isAlpha, Block.HandleByte, Bool.or_eq_true, Bool.and_eq_true, decide_eq_true_eq, beq_iff_eq]
  omega

theorem dec_iff {b : Byte} : isAsciiDigit b = true ↔ Dec b := by
  simp [isAsciiDigit, Dec]

theorem blank_iff {b : Byte} : isBlank b = true ↔ Sp b := by
  simp [isBlank, Sp]

theorem break_iff {b : Byte} : isBreak b = true ↔ Lb b := by
  simp [isBreak, Lb, or_comm]

theorem blankBreak_iff {b : Byte} : isBlankOrBreak b = true ↔ Sp b ∨ Lb b := by
  simp only [isBlankOrBreak, Sp, Lb, Bool.or_eq_true, beq_iff_eq]
  omega

theorem uri_iff {b : Byte} : isUriChar b = true ↔ PrefixByte b := by
  simp only [isUriChar, isWordChar, isAsciiAlphanumeric, PrefixByte, Block.UriByte, List.contains_iff_mem, Bool.or_eq_true, Bool.and_eq_true, decide_eq_true_eq, beq_iff_eq, List.mem_cons, List.not_mem_nil, or_false]
  omega

theorem tag_iff {b : Byte} : isTagChar b = true ↔ Block.UriByte b ∨ b = 37 := by
  by_cases h : b = 37
  · subst h; simp; decide
  · have := tagByte_iff (b := b)
    simp only [h, not_false_eq_true, and_true, ne_eq] at this
    rw [← this]
    simp only [h, or_false]
    rfl

/-- a byte-wise test that a text does not meet at its beginning -/
theorem head_false {f : Byte → Bool} {p : Byte → Prop} {r : List Byte} (hi : ∀ {b}, f b = true ↔ p b) (h0 : f 0 = false) (h : Stops p r) : f (r.headD 0) = false := by
  have : ¬ p (r.headD 0) := stops_head h (by rw [← hi, h0]; simp)
  rw [← hi] at this
  simpa using this

theorem head_some {f : Byte → Bool} {p : Byte → Prop} {r : List Byte} (hi : ∀ {b}, f b = true ↔ p b) (h : Stops p r) : ∀ c, r.head? = some c → f c = false := by
  intro c hc
  have := h c hc
  rw [← hi] at this
  simpa using this

theorem take_run {f : Byte → Bool} {w r : List Byte} (hw : ∀ b ∈ w, f b = true) (hr : ∀ c, r.head? = some c → f c = false) : (w ++ r).takeWhile f = w := by
  rw [List.takeWhile_append_of_pos hw]
  cases r with
  | nil => simp
  | cons c r => simp [hr c rfl]

/-! ## The parts of directives -/

theorem tri_alpha {w r : List Byte} (hw : ∀ b ∈ w, Block.HandleByte b) (hr : Stops Block.HandleByte r) : Tri (fun u => u = w ++ r) fetchAlpha fun a u => u = r ∧ a = w := by
  intro s hs
  have ht : s.src.rest.takeWhile isAlpha = w := by rw [hs]; exact take_run (fun b hb => alpha_iff.2 (hw b hb)) (head_some alpha_iff hr)
  refine ⟨trivial, fun a s' e => ?_⟩
  unfold fetchAlpha Src.fetchWhileIsAlpha at e
  rw [ht] at e
  cases e
  exact ⟨by show (s.src.skip w.length).rest = r; rw [rest_skip, hs]; simp, rfl⟩

theorem tri_blanks {w r : List Byte} (hw : ∀ b ∈ w, Sp b) (hr : Stops Sp r) : Tri (fun u => u = w ++ r) (skipCounted Src.skipWhileBlank) fun _ u => u = r := by
  refine tri_upd fun s hs => ?_
  have ht : s.src.rest.takeWhile isBlank = w := by rw [hs]; exact take_run (fun b hb => blank_iff.2 (hw b hb)) (head_some blank_iff hr)
  show (s.src.skipWhileBlank).2.rest = r
  unfold Src.skipWhileBlank
  rw [ht, rest_skip, hs]
  simp

theorem tri_false {α} {m : SM α} {Q : α → List Byte → Prop} : Tri (fun _ => False) m Q := fun _ h => h.elim

theorem tri_falseAnd {α} {φ : Prop} {m : SM α} {Q : α → List Byte → Prop} : Tri (fun _ => False ∧ φ) m Q := fun _ h => h.1.elim

/-- the name of a directive -/
theorem tri_name {n r : List Byte} (hn : ∀ b ∈ n, Block.HandleByte b) (hr : Stops Block.HandleByte r) : Tri (fun u => u = n ++ r) scanDirectiveName fun a u => u = r ∧ a = n := by
  unfold scanDirectiveName
  refine tri_bind tri_any fun _ => tri_bind (tri_alpha hn hr) fun a => tri_and fun ha => ?_
  refine tri_bind (tri_failIf (by decide)) fun _ => tri_look ?_
  exact tri_bind (tri_failIf (by decide)) fun _ => tri_pure fun u hu => ⟨hu, ha⟩

theorem tri_noName {r : List Byte} (hr : Stops Block.HandleByte r) : Tri (fun u => u = r) scanDirectiveName fun _ _ => False := by
  unfold scanDirectiveName
  refine tri_bind tri_any fun _ => tri_bind (tri_alpha (w := []) (by simp) hr) fun a => tri_and fun ha => ?_
  exact tri_bind (tri_failTrue (by decide) (by rw [ha]; rfl)) fun _ => tri_false

theorem tri_badName {n r : List Byte} (hn : ∀ b ∈ n, Block.HandleByte b) (hr : Stops (fun b => Block.HandleByte b ∨ Sp b ∨ Lb b) r) : Tri (fun u => u = n ++ r) scanDirectiveName fun _ _ => False := by
  unfold scanDirectiveName
  refine tri_bind tri_any fun _ => tri_bind (tri_alpha hn (hr.mono fun _ h => .inl h)) fun a => tri_and fun ha => ?_
  refine tri_bind (tri_failIf (by decide)) fun _ => tri_look ?_
  refine tri_bind (tri_failTrue (by decide) ?_) fun _ => tri_false
  rw [head_false blankBreak_iff rfl (hr.mono fun _ h => .inr h)]
  rfl

/-- a number of a version -/
theorem tri_number {cfg : Cfg} {m} {ds r : List Byte} (hd : ∀ b ∈ ds, Dec b) (hr : Stops Dec r) : Tri (fun u => u = ds ++ r) (scanVersionNumber cfg m) fun _ u => u = r := by
  unfold scanVersionNumber
  refine tri_bind (Q := fun _ u => u = r) ?_ fun x => tri_bind (tri_failIf (by decide)) fun _ => tri_pure fun _ h => h
  refine tri_pre (P' := fun u => ∃ ds, (∀ b ∈ ds, Dec b) ∧ u = ds ++ r) (tri_loop (fun x => ?_) _ _) fun u hu => ⟨ds, hd, hu⟩
  intro s ⟨ds, hd, hs⟩
  revert hs
  refine fun hs => ?_
  have key : Tri (fun u => u = ds ++ r) (versionBody cfg m x) (Laps (fun u => ∃ ds, (∀ b ∈ ds, Dec b) ∧ u = ds ++ r) fun _ u => u = r) := by
    unfold versionBody
    refine tri_look ?_
    cases ds with
    | nil =>
      rw [if_neg (by rw [List.nil_append, head_false dec_iff rfl hr]; simp)]
      exact tri_pure fun _ h => h
    | cons b ds =>
      refine tri_ite (fun _ => ?_) fun h => absurd (dec_iff.2 (hd b (by simp))) h
      refine tri_bind (tri_failIf (by decide)) fun _ => tri_ite (fun _ => tri_panic) fun _ => tri_take (b := b) (t := ds ++ r) (tri_pure fun u hu => ⟨ds, fun b hb => hd b (by simp [hb]), hu⟩)
  exact key s hs

theorem tri_noNumber {cfg : Cfg} {m} {r : List Byte} (hr : Stops Dec r) : Tri (fun u => u = r) (scanVersionNumber cfg m) fun _ _ => False := by
  unfold scanVersionNumber
  refine tri_bind (Q := fun x u => u = r ∧ x.2 = 0) ?_ fun x => tri_and fun hx => tri_bind (tri_failTrue (by decide) (by rw [hx]; rfl)) fun _ => tri_false
  cases cfg.fuel with
  | zero => exact fun _ _ => ⟨trivial, fun _ _ e => by cases e⟩
  | succ n =>
    rw [loopM]
    refine tri_bind (Q := fun x u => u = r ∧ x = .done (0, 0)) ?_ fun x => tri_and fun hx => by rw [hx]; exact tri_pure fun u hu => ⟨hu, rfl⟩
    unfold versionBody
    refine tri_look ?_
    rw [if_neg (by rw [head_false dec_iff rfl hr]; simp)]
    exact tri_pure fun _ h => ⟨h, rfl⟩

/-- a handle -/
theorem tri_handle {m} {h r : List Byte} (hh : Block.Handle h) (hr : Stops (fun b => Block.HandleByte b ∨ b = 33) r) : Tri (fun u => u = h ++ r) (scanTagHandle true m) fun _ u => u = r := by
  unfold scanTagHandle
  refine tri_look (tri_bind (tri_failIf (by decide)) fun _ => ?_)
  rcases hh with rfl | ⟨n, hn, rfl⟩
  · refine tri_take (b := 33) (t := r) (tri_bind (tri_alpha (w := []) (by simp) (hr.mono fun _ h => .inl h)) fun a => tri_and fun ha => tri_look ?_)
    rw [if_neg (by simpa using stops_head (hr.mono (q := fun b => b = 33) fun _ h => .inr h) (by simp))]
    exact tri_bind (tri_failIf (by decide)) fun _ => tri_pure fun _ h => h
  · refine tri_pre (P' := fun u => u = 33 :: (n ++ 33 :: r)) ?_ fun u hu => by rw [hu]; simp
    refine tri_take (b := 33) (tri_bind (tri_alpha hn (by intro b hb; simp at hb; subst hb; unfold Block.HandleByte; omega)) fun a => tri_and fun ha => tri_look ?_)
    rw [if_pos (show (33 :: r).headD 0 = 33 from rfl)]
    exact tri_take (b := 33) (tri_pure fun _ h => h)

theorem tri_noHandle {m} {r : List Byte} (hr : Stops (fun b => b = 33) r) : Tri (fun u => u = r) (scanTagHandle true m) fun _ _ => False := by
  unfold scanTagHandle
  refine tri_look (tri_bind (tri_failTrue (by decide) ?_) fun _ => tri_false)
  have := stops_head hr (by simp)
  simpa using this

theorem tri_openHandle {m} {n r : List Byte} (h0 : n ≠ []) (hn : ∀ b ∈ n, Block.HandleByte b) (hr : Stops (fun b => Block.HandleByte b ∨ b = 33) r) :
    Tri (fun u => u = 33 :: (n ++ r)) (scanTagHandle true m) fun _ _ => False := by
  unfold scanTagHandle
  refine tri_look (tri_bind (tri_failIf (by decide)) fun _ => ?_)
  refine tri_take (b := 33) (tri_bind (tri_alpha hn (hr.mono fun _ h => .inl h)) fun a => tri_and fun ha => tri_look ?_)
  rw [if_neg (by simpa using stops_head (hr.mono (q := fun b => b = 33) fun _ h => .inr h) (by simp))]
  refine tri_bind (tri_failTrue (by decide) ?_) fun _ => tri_false
  rw [ha]
  simp [h0]

/-- a prefix -/
theorem tri_uri {cfg : Cfg} {m} {p r str : List Byte} (hp : ∀ b ∈ p, PrefixByte b ∧ b ≠ 37) (hr : Stops PrefixByte r) : Tri (fun u => u = p ++ r) (loopM (uriCharsBody cfg m) cfg.fuel str) fun _ u => u = r := by
  refine tri_pre (P' := fun u => ∃ p, (∀ b ∈ p, PrefixByte b ∧ b ≠ 37) ∧ u = p ++ r) (tri_loop (fun x => ?_) _ _) fun u hu => ⟨p, hp, hu⟩
  intro s ⟨p, hp, hs⟩
  have key : Tri (fun u => u = p ++ r) (uriCharsBody cfg m x) (Laps (fun u => ∃ p, (∀ b ∈ p, PrefixByte b ∧ b ≠ 37) ∧ u = p ++ r) fun _ u => u = r) := by
    unfold uriCharsBody
    refine tri_look ?_
    cases p with
    | nil =>
      rw [if_neg (by rw [List.nil_append, head_false uri_iff rfl hr]; simp)]
      exact tri_pure fun _ h => h
    | cons b p =>
      refine tri_ite (fun _ => ?_) fun h => absurd (uri_iff.2 (hp b (by simp)).1) h
      refine tri_bind (Q := fun _ u => u = p ++ r) ?_ fun _ => tri_pure fun u hu => ⟨p, fun b hb => hp b (by simp [hb]), hu⟩
      unfold uriScansOrNonBlank
      refine tri_bind (Q := fun c u => u = b :: (p ++ r) ∧ c = some b) (tri_gets fun s h => ⟨h, by simp [Src.peekChecked, h]⟩) fun c => tri_and fun hc => ?_
      rw [hc]
      dsimp only
      rw [if_neg (hp b (by simp)).2]
      exact tri_take (tri_pure fun _ h => h)
  exact key s hs

theorem tri_prefix {cfg : Cfg} {m} {c : Byte} {p r : List Byte} (hc : Block.UriByte c ∨ c = 33) (hp : ∀ b ∈ p, PrefixByte b ∧ b ≠ 37) (hr : Stops PrefixByte r) :
    Tri (fun u => u = c :: (p ++ r)) (scanTagPrefix cfg m) fun _ u => u = r := by
  unfold scanTagPrefix
  refine tri_bind (Q := fun _ u => u = p ++ r) ?_ fun _ => tri_uri hp hr
  unfold scanPrefixStart
  refine tri_look (tri_ite (fun _ => tri_take (tri_pure fun _ h => h)) fun h3 => tri_ite (fun _ => tri_fail (by decide)) fun _ => ?_)
  have h37 : c ≠ 37 := by rintro rfl; rcases hc with h | h <;> simp [Block.UriByte] at h
  unfold uriScansOrNonBlank
  refine tri_bind (Q := fun d u => u = c :: (p ++ r) ∧ d = some c) (tri_gets fun s h => ⟨h, by simp [Src.peekChecked, h]⟩) fun d => tri_and fun hd => ?_
  rw [hd]
  dsimp only
  rw [if_neg h37]
  exact tri_take (tri_pure fun _ h => h)

theorem tri_noPrefix {cfg : Cfg} {m} {r : List Byte} (hr : Stops (fun b => Block.UriByte b ∨ b = 33 ∨ b = 37) r) : Tri (fun u => u = r) (scanTagPrefix cfg m) fun _ _ => False := by
  unfold scanTagPrefix
  refine tri_bind (Q := fun _ _ => False) ?_ fun _ => tri_false
  unfold scanPrefixStart
  refine tri_look ?_
  rw [if_neg (by simpa using stops_head (hr.mono (q := fun b => b = 33) fun _ h => .inr (.inl h)) (by simp)),
    if_pos (by rw [head_false (p := fun b => Block.UriByte b ∨ b = 37) tag_iff rfl (hr.mono fun b h => by rcases h with h | h <;> simp [h])]; rfl)]
  exact tri_fail (by decide)

/-! ## The rest of the line -/

theorem ws_blanks {v r : List Byte} (hv : ∀ b ∈ v, Sp b) (t w : Bool) : ∃ t' w', wsToEol true (v ++ r) t w = ((wsToEol true r t' w').1 + v.length, (wsToEol true r t' w').2) ∧
    (v ≠ [] ∨ t = true ∨ w = true → t' = true ∨ w' = true) ∧ (v = [] → t' = t ∧ w' = w) := by
  induction v generalizing t w with
  | nil => exact ⟨t, w, rfl, fun h => by simpa using h, fun _ => ⟨rfl, rfl⟩⟩
  | cons b v ih =>
    rcases hv b (by simp) with rfl | rfl
    · obtain ⟨t', w', h1, h2, -⟩ := ih (fun b hb => hv b (by simp [hb])) t true
      refine ⟨t', w', ?_, fun _ => h2 (.inr (.inr rfl)), by simp⟩
      rw [List.cons_append, wsToEol, if_pos rfl, h1]
      rfl
    · obtain ⟨t', w', h1, h2, -⟩ := ih (fun b hb => hv b (by simp [hb])) true w
      refine ⟨t', w', ?_, fun _ => h2 (.inr (.inl rfl)), by simp⟩
      rw [List.cons_append, wsToEol, if_neg (by decide), if_pos ⟨rfl, rfl⟩, h1]
      rfl

/-- the end of the line of a directive -/
theorem tri_lineEnd {v r : List Byte} {start tok} (h : NoEnd v r) : Tri (fun u => u = v ++ r)
    (skipWsToEol true false >>= fun _ => peekz 0 >>= fun c => failIf (!(isBreak c || c == b%'#')) start "while scanning a directive, did not find expected comment or line break" >>=
      fun _ => skipLinebreak >>= fun _ => (pure tok : SM Token)) fun _ _ => False := by
  obtain ⟨hv, hr⟩ := h
  refine tri_bind (Q := fun _ u => Stops (fun b => Lb b ∨ b = 35) u) ?_ fun _ => ?_
  · intro s hs
    obtain ⟨t', w', e1, e2, e3⟩ := ws_blanks (r := r) hv false false
    unfold skipWsToEol Src.skipWsToEol
    rw [hs, e1]
    have hmsg : ∀ {c q}, r = c :: q → c = 35 → v = [] → (wsToEol true r t' w').2 = .error "comments must be separated from other tokens by whitespace" := by
      intro c q hq hc h0
      obtain ⟨rfl, rfl⟩ := e3 h0
      subst hq hc
      simp [wsToEol]
    have hplain : Stops (fun b => Sp b ∨ Lb b ∨ b = 35) r → (wsToEol true r t' w').1 = 0 ∧ ∃ x, (wsToEol true r t' w').2 = .ok x := by
      intro hst
      cases r with
      | nil => exact ⟨rfl, _, rfl⟩
      | cons c q =>
        have := hst c rfl
        have h1 : c ≠ 32 := fun h => this (.inl (.inl h))
        have h2 : c ≠ 9 := fun h => this (.inl (.inr h))
        have h3 : c ≠ 35 := fun h => this (.inr (.inr h))
        simp [wsToEol, h1, h2, h3]
    have hcom : ∀ {k}, v ≠ [] → r = 35 :: k → (wsToEol true r t' w') = ((k.takeWhile (!isBreakz ·)).length + 1, .ok (t', w')) := by
      intro k h0 hk
      have := e2 (.inl h0)
      subst hk
      rw [wsToEol, if_neg (by decide), if_neg (by decide), if_pos rfl, if_neg (by rintro ⟨rfl, rfl⟩; simp at this)]
    have hdone : ∀ (n : Nat) (q : List Byte), (v ++ r).drop n = q → (s.src.skip n).rest = q := fun n q h => by rw [rest_skip, hs, h]
    by_cases h0 : v = []
    · have hst : Stops (fun b => Sp b ∨ Lb b) r := by
        rcases hr with hr | ⟨hx, -⟩
        · exact hr.mono fun b h => by rcases h with h | h <;> simp [h]
        · exact absurd h0 hx
      by_cases hc : r.head? = some 35
      · cases r with
        | nil => simp at hc
        | cons c q =>
          simp at hc
          have := hmsg rfl hc h0
          rw [this]
          exact ⟨by show _ ≠ _; decide, fun a s' e => by cases e⟩
      · have hst' : Stops (fun b => Sp b ∨ Lb b ∨ b = 35) r := fun b hb hx => by
          rcases hx with h | h | rfl
          · exact hst b hb (.inl h)
          · exact hst b hb (.inr h)
          · exact hc hb
        obtain ⟨h1, x, h2⟩ := hplain hst'
        rw [h1, h2]
        refine ⟨trivial, fun a s' e => ?_⟩
        cases e
        show Stops _ (s.src.skip (0 + v.length)).rest
        rw [hdone _ r (by simp)]
        exact hst'.mono fun b h => .inr h
    · rcases hr with hr | ⟨-, k, hk, hb⟩
      · have hst' : Stops (fun b => Sp b ∨ Lb b ∨ b = 35) r := hr.mono fun b h => by rcases h with h | h | h <;> simp [h, h0]
        obtain ⟨h1, x, h2⟩ := hplain hst'
        rw [h1, h2]
        refine ⟨trivial, fun a s' e => ?_⟩
        cases e
        show Stops _ (s.src.skip (0 + v.length)).rest
        rw [hdone _ r (by simp)]
        exact hst'.mono fun b h => .inr h
      · rw [hcom h0 hk]
        refine ⟨trivial, fun a s' e => ?_⟩
        cases e
        show Stops _ (s.src.skip ((k.takeWhile (!isBreakz ·)).length + 1 + v.length)).rest
        rw [hdone _ (k.drop (k.takeWhile (!isBreakz ·)).length) (by
          subst hk
          rw [Nat.add_comm, ← List.drop_drop, List.drop_left]
          rfl)]
        intro b hx hy
        have hd : k.drop (k.takeWhile (!isBreakz ·)).length = k.dropWhile (!isBreakz ·) := by
          conv => lhs; arg 2; rw [← List.takeWhile_append_dropWhile (p := (!isBreakz ·)) (l := k)]
          rw [List.drop_left]
        rw [hd] at hx
        have h1 : b ∈ k := List.dropWhile_subset _ (List.mem_of_mem_head? hx)
        have h2 : isBreakz b = true := by
          have := List.head?_dropWhile_not (p := (!isBreakz ·)) (l := k)
          rw [hx] at this
          simpa using this
        rcases hy with hy | rfl
        · exact hb b h1 hy
        · exact absurd h2 (by decide)
  · intro s hs
    have h0 := stops_head hs (by simp [Lb])
    have key : Tri (fun u => u = s.src.rest) (peekz 0 >>= fun c => failIf (!(isBreak c || c == b%'#')) start "while scanning a directive, did not find expected comment or line break" >>=
        fun _ => skipLinebreak >>= fun _ => (pure tok : SM Token)) fun _ _ => False := by
      refine tri_look (tri_bind (tri_failTrue (by decide) ?_) fun _ => tri_false)
      have h1 : isBreak (s.src.rest.headD 0) = false := by
        cases hx : isBreak (s.src.rest.headD 0) with
        | false => rfl
        | true => exact absurd (.inl (break_iff.1 hx)) h0
      have h2 : s.src.rest.headD 0 ≠ 35 := fun h => h0 (.inr h)
      rw [h1]
      simpa using h2
    exact key s rfl

/-! ## Directives -/

theorem stops_sp {p : Byte → Prop} {w r : List Byte} (hw : ∀ b ∈ w, Sp b) (hp : ∀ b, Sp b → ¬ p b) (hr : w = [] → Stops p r) : Stops p (w ++ r) := by
  cases w with
  | nil => exact hr rfl
  | cons b w => intro c hc; simp at hc; subst hc; exact hp _ (hw _ (by simp))

theorem sp_handle (b : Byte) (h : Sp b) : ¬ Block.HandleByte b := by
  rcases h with rfl | rfl <;> simp [Block.HandleByte]

theorem lb_handle (b : Byte) (h : Lb b) : ¬ Block.HandleByte b := by
  rcases h with rfl | rfl <;> simp [Block.HandleByte]

theorem apart_name {w r : List Byte} (h : Apart w r) : Stops Block.HandleByte (w ++ r) := by
  refine stops_sp h.1 sp_handle fun h0 => ?_
  obtain ⟨b, r', rfl, hb⟩ := h.2 h0
  intro c hc
  simp at hc
  subst hc
  exact lb_handle _ hb

theorem sps_stop {p : Byte → Prop} {w : List Byte} (h : Sps w) (hp : ∀ b, Sp b → ¬ p b) (r : List Byte) : Stops p (w ++ r) := stops_sp h.2 hp fun h0 => absurd h0 h.1

theorem stops_cons {p : Byte → Prop} {b : Byte} {r : List Byte} (h : ¬ p b) : Stops p (b :: r) := fun c hc => by simp at hc; subst hc; exact h

theorem stops_app {p : Byte → Prop} {w r : List Byte} (hw : ∀ b ∈ w, ¬ p b) (hr : Stops p r) : Stops p (w ++ r) := by
  cases w with
  | nil => exact hr
  | cons b w => exact stops_cons (hw b (by simp))

theorem dec_sp (b : Byte) (h : Dec b) : ¬ Sp b := by
  unfold Dec at h
  unfold Sp
  omega

theorem sp_dec (b : Byte) (h : Sp b) : ¬ Dec b := fun hd => dec_sp b hd h

theorem uri_sp (b : Byte) (h : Block.UriByte b ∨ b = 33) : ¬ Sp b := by
  rintro (rfl | rfl) <;> simp [Block.UriByte] at h

theorem sp_prefix (b : Byte) (h : Sp b) : ¬ PrefixByte b := by
  rcases h with rfl | rfl <;> simp [PrefixByte, Block.UriByte]

theorem handle_start {h} (hh : Block.Handle h) : ∃ r, h = 33 :: r := by
  rcases hh with rfl | ⟨n, -, rfl⟩ <;> exact ⟨_, rfl⟩

/-- a wrong directive is not read -/
theorem tri_wrong {cfg : Cfg} {t : List Byte} (h : WrongDirective t) : Tri (fun u => u = t) (scanDirective cfg) fun _ _ => False := by
  have start : ∀ {n r : List Byte}, (∀ b ∈ n, Block.HandleByte b) → Stops Block.HandleByte r → (∀ m, Tri (fun u => u = r) (do
      let tok ← (if n = bs!"YAML" then scanVersionDirective cfg m else if n = bs!"TAG" then scanTagDirective cfg m else scanOtherDirective m)
      let _ ← skipWsToEol true false
      let c ← peekz 0
      failIf (!(isBreak c || c == b%'#')) m "while scanning a directive, did not find expected comment or line break"
      skipLinebreak
      pure tok) fun _ _ => False) → Tri (fun u => u = 37 :: (n ++ r)) (scanDirective cfg) fun _ _ => False := by
    intro n r hn hr hh
    unfold scanDirective
    exact tri_bind tri_any fun m => tri_take (tri_bind (tri_name hn hr) fun a => tri_and fun ha => by rw [ha]; exact hh m)
  have yaml : ∀ {r : List Byte}, Stops Block.HandleByte r → (∀ m, Tri (fun u => u = r) (scanVersionDirective cfg m) fun _ _ => False) →
      Tri (fun u => u = bs!"%YAML" ++ r) (scanDirective cfg) fun _ _ => False := by
    intro r hr hh
    refine start (n := bs!"YAML") (by simp [Block.HandleByte]) hr fun m => ?_
    rw [if_pos rfl]
    exact tri_bind (hh m) fun _ => tri_false
  have tag : ∀ {r : List Byte}, Stops Block.HandleByte r → (∀ m, Tri (fun u => u = r) (scanTagDirective cfg m) fun _ _ => False) →
      Tri (fun u => u = bs!"%TAG" ++ r) (scanDirective cfg) fun _ _ => False := by
    intro r hr hh
    refine start (n := bs!"TAG") (by simp [Block.HandleByte]) hr fun m => ?_
    rw [if_neg (by decide), if_pos rfl]
    exact tri_bind (hh m) fun _ => tri_false
  cases h with
  | noName hr =>
    unfold scanDirective
    exact tri_bind tri_any fun m => tri_take (tri_bind (tri_noName hr) fun _ => tri_false)
  | name hn hr =>
    unfold scanDirective
    exact tri_bind tri_any fun m => tri_take (tri_bind (tri_badName hn hr) fun _ => tri_false)
  | noMajor hw hr =>
    refine yaml (apart_name hw) fun m => ?_
    unfold scanVersionDirective
    exact tri_bind (tri_blanks hw.1 (hr.mono fun _ h => .inr h)) fun _ => tri_bind (tri_noNumber (hr.mono fun _ h => .inl h)) fun _ => tri_false
  | @noPoint w ds r hw h0 hd hr =>
    refine yaml (sps_stop hw sp_handle _) fun m => ?_
    unfold scanVersionDirective
    have hsp : Stops Sp (ds ++ r) := by
      cases ds with
      | nil => exact absurd rfl h0
      | cons b ds => exact stops_cons (dec_sp b (hd b (by simp)))
    refine tri_bind (tri_blanks hw.2 hsp) fun _ => tri_bind (tri_number hd (hr.mono fun _ h => .inl h)) fun _ => tri_look ?_
    refine tri_bind (tri_failTrue (by decide) ?_) fun _ => tri_false
    have := stops_head (hr.mono (q := fun b => b = 46) fun _ h => .inr h) (by simp)
    simpa using this
  | @noMinor w ds r hw hd hr =>
    refine yaml (sps_stop hw sp_handle _) fun m => ?_
    unfold scanVersionDirective
    refine tri_bind (tri_blanks hw.2 (stops_app (fun b hb => dec_sp b (hd b hb)) (stops_cons (by simp [Sp])))) fun _ => tri_bind (tri_number hd (stops_cons (by simp [Dec]))) fun _ => tri_look ?_
    exact tri_bind (tri_failIf (by decide)) fun _ => tri_take (tri_bind (tri_noNumber hr) fun _ => tri_false)
  | @afterVersion w ds es v r hw hd he hv hr =>
    refine start (n := bs!"YAML") (r := w ++ (ds ++ 46 :: (es ++ (v ++ r)))) (by simp [Block.HandleByte]) (sps_stop hw sp_handle _) fun m => ?_
    rw [if_pos rfl]
    refine tri_bind (Q := fun _ u => u = v ++ r) ?_ fun tok => tri_lineEnd hv
    unfold scanVersionDirective
    refine tri_bind (tri_blanks hw.2 (stops_app (fun b hb => dec_sp b (hd b hb)) (stops_cons (by simp [Sp])))) fun _ => tri_bind (tri_number hd (stops_cons (by simp [Dec]))) fun _ => tri_look ?_
    exact tri_bind (tri_failIf (by decide)) fun _ => tri_take (tri_bind (tri_number he (stops_sp hv.1 sp_dec hr)) fun _ => tri_bind tri_any fun _ => tri_pure fun _ h => h)
  | noHandle hw hr =>
    refine tag (apart_name hw) fun m => ?_
    unfold scanTagDirective
    exact tri_bind (tri_blanks hw.1 (hr.mono fun _ h => .inl h)) fun _ => tri_bind (tri_noHandle (hr.mono fun _ h => .inr h)) fun _ => tri_false
  | openHandle hw h0 hn hr =>
    refine tag (sps_stop hw sp_handle _) fun m => ?_
    unfold scanTagDirective
    exact tri_bind (tri_blanks hw.2 (stops_cons (by simp [Sp]))) fun _ => tri_bind (tri_openHandle h0 hn hr) fun _ => tri_false
  | @noPrefix w h v r hw hh hv hr =>
    refine tag (sps_stop hw sp_handle _) fun m => ?_
    unfold scanTagDirective
    obtain ⟨h', hh'⟩ := handle_start hh
    have hs : Stops (fun b => Block.HandleByte b ∨ b = 33) (v ++ r) := stops_sp hv (fun b hb hx => by
      rcases hx with hx | rfl
      · exact sp_handle b hb hx
      · simp [Sp] at hb) fun _ => hr.mono fun b hb => by
        rcases hb with hb | rfl
        · refine .inr (.inl ?_)
          unfold Block.HandleByte at hb
          unfold Block.UriByte
          simp
          omega
        · simp
    refine tri_bind (tri_blanks hw.2 (by rw [hh']; exact stops_cons (by simp [Sp]))) fun _ => tri_bind (tri_handle hh hs) fun _ => ?_
    refine tri_bind (tri_failIf (by decide)) fun _ => tri_bind (tri_blanks hv (hr.mono fun _ h => .inl h)) fun _ => ?_
    exact tri_bind (tri_noPrefix (hr.mono fun _ h => .inr h)) fun _ => tri_false
  | @afterPrefix w h v c p x r hw hh hv hc hp hx hr =>
    refine start (n := bs!"TAG") (r := w ++ (h ++ (v ++ c :: (p ++ (x ++ r))))) (by simp [Block.HandleByte]) (sps_stop hw sp_handle _) fun m => ?_
    rw [if_neg (by decide), if_pos rfl]
    refine tri_bind (Q := fun _ u => u = x ++ r) ?_ fun tok => tri_lineEnd hx
    unfold scanTagDirective
    obtain ⟨h', hh'⟩ := handle_start hh
    have hs : Stops (fun b => Block.HandleByte b ∨ b = 33) (v ++ c :: (p ++ (x ++ r))) := sps_stop hv (fun b hb hx => by
      rcases hx with hx | rfl
      · exact sp_handle b hb hx
      · simp [Sp] at hb) _
    refine tri_bind (tri_blanks hw.2 (by rw [hh']; exact stops_cons (by simp [Sp]))) fun _ => tri_bind (tri_handle hh hs) fun _ => ?_
    refine tri_bind (tri_failIf (by decide)) fun _ => tri_bind (tri_blanks hv.2 (stops_cons (uri_sp c hc))) fun _ => ?_
    refine tri_bind (tri_prefix hc hp (stops_sp hx.1 sp_prefix hr)) fun _ => tri_bind (tri_failIf (by decide)) fun _ => tri_look ?_
    exact tri_bind (tri_failIf (by decide)) fun _ => tri_bind tri_any fun _ => tri_pure fun _ h => h
  | @last n r hy ht hn hr hb =>
    refine start hn hr fun m => ?_
    rw [if_neg hy, if_neg ht]
    unfold scanOtherDirective
    refine tri_bind (Q := fun _ u => u = [] ∨ ∃ q, u = 0 :: q) (tri_bind (Q := fun _ u => u = [] ∨ ∃ q, u = 0 :: q) (tri_upd fun s hs => ?_) fun _ => tri_bind tri_any fun _ => tri_pure fun _ h => h) fun tok => ?_
    · show (s.src.skipWhileNonBreakz).2.rest = [] ∨ ∃ q, (s.src.skipWhileNonBreakz).2.rest = 0 :: q
      unfold Src.skipWhileNonBreakz
      have hd : r.drop (r.takeWhile (!isBreakz ·)).length = r.dropWhile (!isBreakz ·) := by
        conv => lhs; arg 2; rw [← List.takeWhile_append_dropWhile (p := (!isBreakz ·)) (l := r)]
        rw [List.drop_left]
      rw [rest_skip, hs, hd]
      cases hx : r.dropWhile (!isBreakz ·) with
      | nil => exact .inl rfl
      | cons b q =>
        have h1 : b ∈ r := List.dropWhile_subset (!isBreakz ·) (by rw [hx]; simp)
        have h2 := List.head?_dropWhile_not (p := (!isBreakz ·)) (l := r)
        rw [hx] at h2
        simp [isBreakz] at h2
        have h3 := hb b h1
        unfold Lb at h3
        exact .inr ⟨q, by rw [show b = 0 by omega]⟩
    · intro s hs
      have : NoEnd [] s.src.rest := ⟨by simp, .inl (by rcases hs with h | ⟨q, h⟩ <;> (rw [h]; intro b hb; simp at hb <;> (subst hb; simp [Sp, Lb])))⟩
      exact tri_lineEnd (v := []) this s rfl

/-- what is in the queue comes before the next token -/
theorem here_tokens {cfg s out I i t c al} (h : Here cfg s out I i t c al) : ∀ x ∈ s.tokens, x.tt ∈ out := by
  obtain ⟨s1, n, k, h1, -, -, -, rfl, -⟩ := h
  have : s1.tokens = s.tokens := by
    have := keepT_skip (cfg := cfg) s
    rw [h1] at this
    exact this
  intro x hx
  rw [← this] at hx
  exact List.mem_append_left _ (List.mem_map_of_mem hx)

theorem aims_end {ds toks} (h : AimToks ds toks) : .streamEnd ∉ toks := by
  induction h with
  | nil => simp
  | cons h _ ih => cases h <;> simpa using ih

theorem wrong_first {t : List Byte} (h : WrongDirective t) : ∃ r, t = 37 :: r := by
  cases h <;> exact ⟨_, rfl⟩

/-- a text with a wrong directive -/
theorem wrong_doomed {cfg : Cfg} {t : List Byte} (h : DirectiveText t) (hf : t.length < cfg.fuel) : Doomed cfg (fetchStreamStart (Scanner.new t)).2 := by
  obtain ⟨a, d, ds, r, ha, hd, hr, rfl⟩ := h
  obtain ⟨r', hr'⟩ := wrong_first hr
  have hq : TokenHead r := by rw [hr']; intro c hc; simp at hc; subst hc; decide
  have hq' : TokenHead (d ++ r) := directives_head hd hq
  have h0 := text_here (cfg := cfg) (n := 0) ha hq' (by simp [Block.spaces] at hf ⊢; omega)
  obtain ⟨toks, hk, hrun⟩ := directives_run hd
  obtain ⟨m, s', al', hfe, hh, hal, -⟩ := hrun hq h0 (.inl rfl) (by simp at hf ⊢; omega)
  obtain ⟨S, k, e1, r1, c1, hc, hk', hkp, n, hu, -⟩ := at_first (by rw [hr']; simp) hh hal
  refine ⟨m, s', hfe, ?_, fun x hx he => ?_⟩
  · rw [e1]
    have p0 : S.src.peekz 0 = 37 := peekz_cons (r1.trans hr')
    have hcol : (S.mark.col == 1) = true := by rw [c1]; rfl
    unfold fetchAtToken
    ev [hcol, p0, Bool.true_and, beq_self_eq_true, if_pos]
    unfold fetchDirective setAllowed
    rw [bind_run hu, bind_run (remove_run (k := k) (s := { S with indents := [], indent := 0, tokens := S.tokens ++ List.replicate n ⟨Span.empty S.mark, .blockEnd⟩ }) hk' hkp), upd_bind]
    exact (tri_bind (tri_wrong hr) fun _ => tri_false).refuses (P := fun u => u = r) r1
  · have := here_tokens hh x hx
    rw [he] at this
    simp at this
    exact aims_end hk this

end Verif.Scanner
