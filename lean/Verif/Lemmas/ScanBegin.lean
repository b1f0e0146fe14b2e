import Verif.Lemmas.ScanFaults
/-!
# A text that is one flow collection or one quoted scalar, not closed
-/
namespace Verif.Scanner
open Verif Verif.CharUtils Verif.Source Verif.Spec Verif.Spec.Faults

/-- a flow collection or a quoted scalar that is not closed -/
def LeftOpen (c : Byte) (u : List Byte) : Prop := (c = 91 ∨ c = 123) ∧ unclosed (c :: u) .start 0 0 = true ∨ c = 34 ∧ NoDouble u ∨ c = 39 ∧ NoSingle u

theorem LeftOpen.head {c u} (h : LeftOpen c u) : c = 91 ∨ c = 123 ∨ c = 34 ∨ c = 39 := by
  rcases h with ⟨h, -⟩ | ⟨h, -⟩ | ⟨h, -⟩ <;> omega

/-- white space, and then that -/
def Begins (r : List Byte) : Prop := ∃ w c u, r = w ++ c :: u ∧ (∀ x ∈ w, x = 32 ∨ x = 9 ∨ x = 10) ∧ LeftOpen c u

theorem begins_wsl : Wsl Begins where
  blank := by
    rintro c r hc ⟨w, d, u, h1, h2, h3⟩
    cases w with
    | nil => have := h3.head; simp at h1; omega
    | cons y w =>
      simp at h1
      exact ⟨w, d, u, h1.2, fun x hx => h2 x (by simp [hx]), h3⟩
  hash := by
    rintro r ⟨w, d, u, h1, h2, h3⟩
    cases w with
    | nil => have := h3.head; simp at h1; omega
    | cons y w => simp at h1; have := h2 y (by simp); omega
  line := by
    rintro r ⟨w, d, u, h1, h2, h3⟩
    cases w with
    | nil => have := h3.head; simp at h1; omega
    | cons y w =>
      simp at h1
      exact ⟨w, d, u, h1.2, fun x hx => h2 x (by simp [hx]), h3⟩
  cr := by
    rintro r ⟨w, d, u, h1, h2, h3⟩
    cases w with
    | nil => have := h3.head; simp at h1; omega
    | cons y w => simp at h1; have := h2 y (by simp); omega

/-- tokens before which no bracket was opened -/
def NoneYet (l : List TokenType) : Prop := ∀ t ∈ l, t = .streamStart ∨ t = .key ∨ t = .blockEnd

theorem NoneYet.counts {l} (h : NoneYet l) : sqOf l = 0 ∧ brOf l = 0 ∧ .streamEnd ∉ l := by
  have hz : ∀ x : TokenType, x ≠ .streamStart → x ≠ .key → x ≠ .blockEnd → l.count x = 0 := fun x h1 h2 h3 =>
    List.count_eq_zero.2 fun hm => by rcases h x hm with h | h | h <;> contradiction
  refine ⟨?_, ?_, fun hm => by rcases h _ hm with h | h | h <;> cases h⟩
  · unfold sqOf; rw [hz _ (by simp) (by simp) (by simp), hz _ (by simp) (by simp) (by simp)]; rfl
  · unfold brOf; rw [hz _ (by simp) (by simp) (by simp), hz _ (by simp) (by simp) (by simp)]; rfl

theorem NoneYet.ever {l t} (h : NoneYet l) (ht : t = .flowSequenceStart ∨ t = .flowMappingStart) : Ever (l ++ [t]) := by
  obtain ⟨h1, h2, -⟩ := h.counts
  have hx : Exceeds (l ++ [t]) := by
    unfold Exceeds
    rw [sqOf_append, brOf_append, h1, h2]
    rcases ht with rfl | rfl <;> decide
  refine ⟨fun d e hd => ?_, hx⟩
  rcases List.append_eq_append_iff.1 hd with ⟨x, h1, h2⟩ | ⟨x, h1, h2⟩
  · cases x with
    | nil => rw [List.append_nil] at h1; rw [h1]; exact .inl h
    | cons y x =>
      simp at h2
      obtain ⟨rfl, rfl, -⟩ := h2
      rw [h1]; exact .inr hx
  · exact .inl fun t ht => h t (by rw [h1]; simp [ht])

theorem unroll_keeps {c s a s'} (e : unrollIndent c s = (.ok a, s')) : s'.flowLevel = s.flowLevel ∧ s'.implicitFlowMappingStates = s.implicitFlowMappingStates := by
  unfold unrollIndent at e
  split at e
  · cases e; exact ⟨rfl, rfl⟩
  · split at e
    · cases e
    · cases e; exact ⟨rfl, rfl⟩

/-- the first fetch after the start of the stream gets into the collection -/
theorem fetch_begin [Pfx] {cfg s u s'} {pre : List TokenType} (hrun : Runs s) (hl : s.flowLevel = 0) (hi : insideOf s.implicitFlowMappingStates = 0)
    (hq : NoneYet (pre ++ typesOf s)) (hb : Begins s.src.rest) (e : fetchNextToken cfg s = (.ok u, s')) : Open pre s' := by
  unfold fetchNextToken at e
  rw [gets_bind, if_pos hrun.1] at e
  obtain ⟨_, s1, e1, e⟩ := bind_ok e
  obtain ⟨_, s2, e2, e⟩ := bind_ok e
  rw [getMark_bind] at e
  obtain ⟨_, s3, e3, e⟩ := bind_ok e
  rw [atEof_bind] at e
  obtain ⟨f2, g2, m2⟩ := stale_fr e2
  obtain ⟨n, n1, n2, n3, n4⟩ := unrollIndent_ok e3
  obtain ⟨f1, q1, q2⟩ := hd_skipToNextToken (lv := 0) begins_wsl _ _ _ (Nat.zero_le _) hb e1
  obtain ⟨w, c, r, h1, h2, ho⟩ := q1
  have hc4 := ho.head
  have hw : w = [] := by
    cases w with
    | nil => rfl
    | cons y w =>
      have := h2 y (by simp)
      rw [h1] at q2
      simp at q2
      omega
  subst hw
  have hr : s3.src.rest = c :: r := by rw [n3, g2, h1]; rfl
  have f := f1.trans f2
  have hrun3 : Runs s3 := hrun.of (by rw [n4, f.marks])
  have hq3 : NoneYet (pre ++ typesOf s3) := by
    rw [n1, f.types, ← List.append_assoc]
    intro t ht
    rcases List.mem_append.1 ht with ht | ht
    · exact hq t ht
    · exact .inr (.inr (List.mem_replicate.1 ht).2)
  have hpc : s3.src.peekz 0 = c := by unfold Src.peekz; rw [hr]; rfl
  obtain ⟨hl3, hi3⟩ := unroll_keeps e3
  have hl3 : s3.flowLevel = 0 := by rw [hl3, f.level, hl]
  have hi3 : insideOf s3.implicitFlowMappingStates = 0 := by rw [hi3, f.states, hi]
  rw [if_neg (by simp [Src.bufIsEmpty, hr])] at e
  unfold fetchAtToken at e
  rw [getMark_bind, gets_bind, gets_bind, gets_bind] at e
  have hmk : ∀ x, x = 45 ∨ x = 46 → (s3.mark.col == 1 && (s3.src.nextIsThree x && isBlankOrBreakz (s3.src.peekz 3))) = false := by
    intro x hx
    rw [← Bool.not_eq_true]
    intro hy
    simp only [Bool.and_eq_true] at hy
    have := document_marks (s := s3.src) (by
      unfold Src.nextIsDocumentIndicator
      rcases hx with rfl | rfl <;> simp [hy.2])
    rw [hr] at this
    rcases hc4 with rfl | rfl | rfl | rfl <;> simp [marks] at this
  have hpct : (s3.mark.col == 1 && s3.src.peekz 0 == 37) = false := by
    rw [hpc]
    rcases hc4 with rfl | rfl | rfl | rfl <;> simp
  rw [hpct, show (s3.mark.col == 1 && nextIsDocumentStart s3) = false from hmk 45 (.inl rfl), show (s3.mark.col == 1 && nextIsDocumentEnd s3) = false from hmk 46 (.inr rfl),
    if_neg Bool.false_ne_true, if_neg Bool.false_ne_true, if_neg Bool.false_ne_true, gets_bind] at e
  obtain ⟨_, s4, e4, e⟩ := bind_ok e
  obtain ⟨z, -⟩ := failIf_open e4
  rw [z] at e
  rcases ho with ⟨hc, hu⟩ | ⟨rfl, hu⟩ | ⟨rfl, hu⟩
  rotate_left
  · exact absurd e ((openQuote_refused (single := false) hr hu).1 _ _)
  · exact absurd e ((openQuote_refused (single := true) hr hu).1 _ _)
  have h0 := unclosed_clean (.inl rfl) hu
  have hmain : fetchMain cfg s3 = fetchFlowStart (if c = 91 then .flowSequenceStart else .flowMappingStart) s3 := by
    unfold fetchMain
    rw [peekz_bind, peekz_bind, gets_bind, gets_bind, hpc]
    rcases hc with rfl | rfl <;> rfl
  rw [hmain] at e
  obtain ⟨h1, h2, h3, h4, h5⟩ := flowStart_ok e
  obtain ⟨y1, y2, y3⟩ := hq3.counts
  rw [hi3] at h4
  rw [hl3] at h2
  rw [hr] at h5
  rw [unclosed_plain (.inl rfl), if_neg (by simpa [not_or] using h0)] at hu
  have hru := hrun3.of h3
  rcases hc with rfl | rfl
  · have hu : Faults.unclosed r .start 1 0 = true := hu
    refine .flow (sa := 1) (b := 0) ⟨?_, ?_, ?_, by rw [h2]; rfl, by omega, hru, fun _ => ?_⟩ (.inl (by rw [h5]; exact ws_drop wsl_start.toWsp _ _ _ hu)) <;>
      rw [h1, ← List.append_assoc]
    · simp [List.mem_append] at y3 ⊢; exact y3
    · rw [sqOf_append, y1]; decide
    · rw [brOf_append, y2, h4]; decide
    · exact hq3.ever (.inl rfl)
  · have hu : Faults.unclosed r .start 0 1 = true := hu
    refine .flow (sa := 0) (b := 1) ⟨?_, ?_, ?_, by rw [h2]; rfl, by omega, hru, fun _ => ?_⟩ (.inl (by rw [h5]; exact ws_drop wsl_start.toWsp _ _ _ hu)) <;>
      rw [h1, ← List.append_assoc]
    · simp [List.mem_append] at y3 ⊢; exact y3
    · rw [sqOf_append, y1]; decide
    · rw [brOf_append, y2, h4]; decide
    · exact hq3.ever (.inr rfl)

theorem loop_begin [Pfx] {cfg m s a s'} {pre : List TokenType} (hrun : Runs s) (hl : s.flowLevel = 0) (hi : insideOf s.implicitFlowMappingStates = 0)
    (ht : s.tokens = []) (hq : NoneYet pre) (hb : Begins s.src.rest) (e : loopM (fetchMoreBody cfg) m () s = (.ok a, s')) : Open pre s' := by
  cases m with
  | zero => cases e
  | succ m =>
    rw [loopM] at e
    obtain ⟨x, s1, e1, e⟩ := bind_ok e
    unfold fetchMoreBody at e1
    rw [gets_bind, ht, if_pos List.isEmpty_nil] at e1
    obtain ⟨_, s2, e2, e3⟩ := bind_ok e1
    cases e3
    exact loop_open m (fetch_begin hrun hl hi (by simpa [typesOf, ht] using hq) hb e2) e

/-- the tokens: none, or the start of the stream and those from there -/
theorem scan_first (cfg : Cfg) (input : List Byte) (N : Nat) : (scanInput cfg input N).1 = [] ∨
    ∃ M, (scanInput cfg input N).1 = ⟨Span.empty ⟨0, 1, 1⟩, .streamStart⟩ :: (scan cfg M (view 1 (fetchStreamStart (Scanner.new input)).2)).1 := by
  cases N with
  | zero => exact .inl rfl
  | succ N =>
    by_cases hf : cfg.fuel < 2
    · left
      have hnt : ∀ a s, nextToken cfg (Scanner.new input) ≠ (.ok a, s) := by
        intro a s hx
        unfold nextToken at hx
        rw [gets_bind, if_neg (by exact Bool.false_ne_true), gets_bind, show (!(Scanner.new input).tokensAvailable) = true from rfl] at hx
        unfold when at hx
        rw [if_pos rfl] at hx
        obtain ⟨b, s2, h3, -⟩ := bind_ok hx
        unfold fetchMoreTokens at h3
        obtain ⟨b, s2, h4, -⟩ := bind_ok h3
        rcases hc : cfg.fuel with _ | _ | k
        · rw [hc] at h4; simp [loopM, hang] at h4
        · rw [hc] at h4
          rw [loop_next (show fetchMoreBody cfg () (Scanner.new input) = (.ok (.next ()), (fetchStreamStart (Scanner.new input)).2) from rfl)] at h4
          simp [loopM, hang] at h4
        · omega
      unfold scanInput
      rw [scan]
      have : ∀ t s, next cfg (Scanner.new input) ≠ (.ok (some t), s) := by
        intro t s hx
        unfold next at hx
        rw [show ((Scanner.new input).error.isSome || (Scanner.new input).streamEndReached) = false from rfl] at hx
        rcases hn : nextToken cfg (Scanner.new input) with ⟨r, s'⟩
        rw [hn] at hx
        cases r with
        | ok a => exact hnt _ _ hn
        | err x => simp at hx
        | panic => simp at hx
        | hang => simp at hx
      rcases hn : next cfg (Scanner.new input) with ⟨r, s⟩
      cases r with
      | ok o =>
        cases o with
        | some t => exact absurd hn (this t s)
        | none => rfl
      | err x => rfl
      | panic => rfl
      | hang => rfl
    right
    have hb1 : fetchMoreBody cfg () (Scanner.new input) = (.ok (.next ()), (fetchStreamStart (Scanner.new input)).2) := rfl
    have hb2 : fetchMoreBody cfg () (fetchStreamStart (Scanner.new input)).2 = (.ok (.done ()), (fetchStreamStart (Scanner.new input)).2) := rfl
    obtain ⟨m, hm⟩ : ∃ m, cfg.fuel = m + 2 := ⟨cfg.fuel - 2, by omega⟩
    have hl : loopM (fetchMoreBody cfg) cfg.fuel () (Scanner.new input) = (.ok (), (fetchStreamStart (Scanner.new input)).2) := by
      rw [hm]
      exact (loop_next hb1).trans (loop_done hb2)
    have hfm : fetchMoreTokens cfg (Scanner.new input) =
        (.ok (), { (fetchStreamStart (Scanner.new input)).2 with tokensAvailable := true }) := by
      unfold fetchMoreTokens
      rw [bind_run hl]
      rfl
    have hnt : nextToken cfg (Scanner.new input) = (.ok ⟨Span.empty ⟨0, 1, 1⟩, .streamStart⟩, view 1 (fetchStreamStart (Scanner.new input)).2) := by
      unfold nextToken
      rw [gets_bind, if_neg (by exact Bool.false_ne_true), gets_bind, show (!(Scanner.new input).tokensAvailable) = true from rfl]
      unfold when
      rw [if_pos rfl, bind_run hfm]
      rfl
    have hnx : next cfg (Scanner.new input) = (.ok (some ⟨Span.empty ⟨0, 1, 1⟩, .streamStart⟩), view 1 (fetchStreamStart (Scanner.new input)).2) := by
      unfold next
      rw [show ((Scanner.new input).error.isSome || (Scanner.new input).streamEndReached) = false from rfl, hnt]
      rfl
    unfold scanInput
    rw [scan, hnx]
    exact ⟨N, rfl⟩

/-- at the start of the stream -/
structure Starting (s : SSt) : Prop where
  runs : Runs s
  level : s.flowLevel = 0
  inside : insideOf s.implicitFlowMappingStates = 0
  none : s.tokens = []
  more : s.tokensAvailable = false
  produced : s.streamEndProduced = false

theorem next_begin [Pfx] {cfg : Cfg} {pre : List TokenType} {s t s'} (h : Starting s) (hq : NoneYet pre) (hb : Begins s.src.rest)
    (e : next cfg s = (.ok (some t), s')) : Open (pre ++ [t.tt]) s' := by
  unfold next at e
  split at e
  · cases e
  rcases hq' : nextToken cfg s with ⟨r, s1⟩
  rw [hq'] at e
  cases r with
  | ok t' =>
    cases e
    unfold nextToken at hq'
    rw [gets_bind, h.produced, if_neg Bool.false_ne_true, gets_bind, h.more] at hq'
    obtain ⟨_, s2, e2, e⟩ := bind_ok hq'
    have h2 : Open pre s2 := by
      unfold when at e2
      rw [Bool.not_false, if_pos rfl] at e2
      unfold fetchMoreTokens at e2
      obtain ⟨_, s3, e3, e4⟩ := bind_ok e2
      cases e4
      exact (loop_begin h.runs h.level h.inside h.none hq hb e3).frame (by fr) rfl rfl
    exact pop_open h2 e
  | err x => cases e
  | panic => cases e
  | hang => cases e

/-- In the tokens of such a text brackets are open at any point, once one was opened. -/
theorem begins_ever {cfg input} (hb : Begins input) (N : Nat) :
    ∀ d e, (scanInput cfg input N).1.map (·.tt) = d ++ e → NoneYet d ∨ Exceeds d := by
  letI : Pfx := ⟨True⟩
  intro d e hd
  rcases scan_first cfg input N with h | ⟨M, h⟩
  · rw [h] at hd
    obtain ⟨rfl, -⟩ := List.append_eq_nil_iff.1 hd.symm
    exact .inl fun t ht => by cases ht
  · rw [h] at hd
    have hs : Starting (view 1 (fetchStreamStart (Scanner.new input)).2) := ⟨⟨rfl, fun h => by cases h⟩, rfl, rfl, rfl, rfl, rfl⟩
    have hr : (view 1 (fetchStreamStart (Scanner.new input)).2).src.rest = input := rfl
    rw [List.map_cons] at hd
    generalize view 1 (fetchStreamStart (Scanner.new input)).2 = S at hd hs hr
    have hq : NoneYet [TokenType.streamStart] := fun t ht => by simp at ht; exact .inl ht
    have here : ∀ d e : List TokenType, [TokenType.streamStart] = d ++ e → NoneYet d ∨ Exceeds d := fun d e hd => .inl fun t ht => hq t (by rw [hd]; simp [ht])
    cases M with
    | zero => exact here d e hd
    | succ M =>
      rw [scan] at hd
      rcases hn : next cfg S with ⟨r, s1⟩
      rw [hn] at hd
      cases r with
      | ok o =>
        cases o with
        | some t => exact scan_ever trivial M (next_begin hs hq (by rw [hr]; exact hb) hn) d e (by simpa using hd)
        | none => exact here d e hd
      | err x => exact here d e hd
      | panic => exact here d e hd
      | hang => exact here d e hd

end Verif.Scanner
