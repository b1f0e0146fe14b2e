import Verif.Lemmas.ScanEager
/-!
# From fetching everything to iterating

`Fetches cfg n s s'`: `n` calls of `fetch_next_token`, one after the other, without taking a token. `scan_of_fetches`: if they
reach the end of the stream, iterating gives the tokens they have put into the queue.
-/
namespace Verif.Scanner
open Verif Verif.CharUtils Verif.Source Verif.Spec

/-- `n` fetches in a row -/
inductive Fetches (cfg : Cfg) : Nat → SSt → SSt → Prop
  | refl {s} : Fetches cfg 0 s s
  | step {n s s1 s2} : fetchNextToken cfg s = (.ok (), s1) → Fetches cfg n s1 s2 → Fetches cfg (n + 1) s s2

theorem Fetches.trans {cfg n m s s1 s2} (h : Fetches cfg n s s1) (h' : Fetches cfg m s1 s2) : Fetches cfg (m + n) s s2 := by
  induction h with
  | refl => exact h'
  | step e _ ih => exact .step e (ih h')

/-- `m` does not look at the simple keys, and does not go back -/
def KSim {α} (m : SM α) : Prop := ∀ ks s a s', m s = (.ok a, s') →
  m { s with simpleKeys := ks } = (.ok a, { s' with simpleKeys := ks }) ∧ s'.simpleKeys = s.simpleKeys ∧ s'.flowLevel = s.flowLevel ∧
    s.mark.line ≤ s'.mark.line ∧ s.mark.pos ≤ s'.mark.pos

theorem ksim_pure {α} {a : α} : KSim (pure a) := by
  rintro ks s b s' h
  simp only [pure_run, Prod.mk.injEq, Res.ok.injEq] at h
  obtain ⟨rfl, rfl⟩ := h
  exact ⟨rfl, rfl, rfl, Nat.le_refl _, Nat.le_refl _⟩

theorem ksim_bind {α β} {m : SM α} {f : α → SM β} (hm : KSim m) (hf : ∀ a, KSim (f a)) : KSim (m >>= f) := by
  intro ks s b s' h
  simp only [Bind.bind] at h ⊢
  split at h
  · rename_i a s1 h1
    obtain ⟨h2, a1, a2, a3, a4⟩ := hm ks _ _ _ h1
    obtain ⟨h3, b1, b2, b3, b4⟩ := hf a ks _ _ _ h
    rw [h2]
    exact ⟨h3, b1.trans a1, b2.trans a2, Nat.le_trans a3 b3, Nat.le_trans a4 b4⟩
  all_goals simp at h

theorem ksim_gets {α} {f : SSt → α} (hf : ∀ s ks, f { s with simpleKeys := ks } = f s) : KSim (gets f) := by
  rintro ks s a s' h
  simp only [gets, Prod.mk.injEq, Res.ok.injEq] at h ⊢
  obtain ⟨rfl, rfl⟩ := h
  exact ⟨⟨hf _ _, rfl⟩, rfl, rfl, Nat.le_refl _, Nat.le_refl _⟩

theorem ksim_upd {f : SSt → SSt} (hf : ∀ s ks, f { s with simpleKeys := ks } = { f s with simpleKeys := ks })
    (h1 : ∀ s, (f s).simpleKeys = s.simpleKeys ∧ (f s).flowLevel = s.flowLevel ∧ s.mark.line ≤ (f s).mark.line ∧ s.mark.pos ≤ (f s).mark.pos) :
    KSim (upd f) := by
  rintro ks s a s' h
  simp only [upd, Prod.mk.injEq] at h ⊢
  obtain ⟨-, rfl⟩ := h
  exact ⟨⟨trivial, hf _ _⟩, h1 s⟩

theorem ksim_ite {α} {c : Prop} [Decidable c] {m n : SM α} (hm : KSim m) (hn : KSim n) : KSim (if c then m else n) := by
  split
  · exact hm
  · exact hn

theorem ksim_failIf {c m msg} : KSim (failIf c m msg) := by
  unfold failIf
  split
  · intro ks s a s' h; simp [fail] at h
  · exact ksim_pure

theorem ksim_loop {σ α} {body : σ → SM (Loop σ α)} (h : ∀ x, KSim (body x)) : ∀ n x, KSim (loopM body n x)
  | 0, _ => by intro ks s a s' h; simp [loopM, hang] at h
  | n + 1, x => by
    rw [loopM]
    refine ksim_bind (h x) fun r => ?_
    cases r with
    | next y => exact ksim_loop h n y
    | done a => exact ksim_pure

theorem ksim_skipWs {a b} : KSim (skipWsToEol a b) := by
  intro ks s x s' h
  unfold skipWsToEol at h ⊢
  dsimp only at h ⊢
  split at h
  · simp only [Prod.mk.injEq, Res.ok.injEq] at h
    obtain ⟨rfl, rfl⟩ := h
    exact ⟨rfl, rfl, rfl, Nat.le_refl _, Nat.le_add_right _ _⟩
  · simp at h

theorem keys_ite {c : Prop} [Decidable c] {a b : SSt} {ks : List SimpleKey} : ({ (if c then a else b) with simpleKeys := ks } : SSt) =
    if c then { a with simpleKeys := ks } else { b with simpleKeys := ks } := by
  split <;> rfl

theorem ksim_linebreak : KSim skipLinebreak := by
  refine ksim_upd (fun s ks => ?_) fun s => ?_
  · rw [keys_ite, keys_ite]
  · split
    · exact ⟨rfl, rfl, Nat.le_succ _, Nat.le_add_right _ _⟩
    · split
      · exact ⟨rfl, rfl, Nat.le_succ _, Nat.le_add_right _ _⟩
      · exact ⟨rfl, rfl, Nat.le_refl _, Nat.le_refl _⟩

theorem ksim_skipToNextToken {cfg} : KSim (skipToNextToken cfg) := by
  unfold skipToNextToken
  refine ksim_loop (fun _ => ?_) _ _
  unfold skipToNextTokenBody
  have g : ∀ (β : Type) (f : SSt → β), (∀ s ks, f { s with simpleKeys := ks } = f s) → KSim (gets f) := fun _ _ => ksim_gets
  have hs : ∀ b, KSim (setAllowed b) := fun b => ksim_upd (fun _ _ => rfl) fun s => ⟨rfl, rfl, Nat.le_refl _, Nat.le_refl _⟩
  refine ksim_bind (ksim_gets fun _ _ => rfl) fun _ => ksim_bind (ksim_gets fun _ _ => rfl) fun _ => ksim_ite ?_ (ksim_ite ?_ (ksim_ite ?_ (ksim_ite ?_ ksim_pure)))
  · exact ksim_bind ksim_skipWs fun _ => ksim_bind (ksim_gets fun _ _ => rfl) fun _ => ksim_bind (ksim_gets fun _ _ => rfl) fun _ =>
      ksim_bind ksim_failIf fun _ => ksim_pure
  · exact ksim_bind (ksim_upd (fun _ _ => rfl) fun s => ⟨rfl, rfl, Nat.le_refl _, Nat.le_succ _⟩) fun _ => ksim_pure
  · refine ksim_bind ksim_linebreak fun _ => ksim_bind (ksim_gets fun _ _ => rfl) fun _ => ksim_bind ?_ fun _ => ksim_pure
    unfold when
    exact ksim_ite (hs _) ksim_pure
  · exact ksim_bind (ksim_upd (fun _ _ => rfl) fun s => ⟨rfl, rfl, Nat.le_refl _, Nat.le_add_right _ _⟩) fun _ => ksim_pure

theorem bind_ok {α β} {m : SM α} {f : α → SM β} {s b s'} (h : (m >>= f) s = (.ok b, s')) :
    ∃ a s1, m s = (.ok a, s1) ∧ f a s1 = (.ok b, s') := by
  simp only [Bind.bind] at h
  split at h
  · exact ⟨_, _, ‹_›, h⟩
  all_goals simp at h

theorem stale_ok {e e' : SSt} (h : staleSimpleKeys e = (.ok (), e')) : (∀ k ∈ e.simpleKeys, isStale e k = true → k.required = false) ∧
    e' = { e with simpleKeys := e.simpleKeys.map fun k => if isStale e k then { k with possible := false } else k } := by
  unfold staleSimpleKeys at h
  split at h
  · simp at h
  · rename_i hx
    simp only [Prod.mk.injEq] at h
    refine ⟨fun k hk hs => ?_, h.2.symm⟩
    simp only [List.any_eq_true, not_exists, not_and, Bool.and_eq_true] at hx
    have := hx k hk hs
    simpa using this

theorem stale_run {e : SSt} (h : ∀ k ∈ e.simpleKeys, isStale e k = true → k.required = false) : staleSimpleKeys e =
    (.ok (), { e with simpleKeys := e.simpleKeys.map fun k => if isStale e k then { k with possible := false } else k }) := by
  unfold staleSimpleKeys
  refine if_neg ?_
  simp only [List.any_eq_true, not_exists, not_and, Bool.and_eq_true]
  intro k hk hs
  simp [h k hk hs]

/-- dropping stale keys before a fetch changes nothing -/
theorem stale_fetch {cfg e e'} (hs : e.streamStartProduced = true) (h : fetchNextToken cfg e = (.ok (), e')) :
    ∃ e0, staleSimpleKeys e = (.ok (), e0) ∧ fetchNextToken cfg e0 = (.ok (), e') := by
  unfold fetchNextToken at h ⊢
  rw [gets_bind, if_pos hs] at h
  obtain ⟨u1, e1, h1, h⟩ := bind_ok h
  obtain ⟨u2, e2, h2, h⟩ := bind_ok h
  obtain ⟨hk, hm, hf, hl, hp⟩ := ksim_skipToNextToken (e.simpleKeys.map fun k => if isStale e k then { k with possible := false } else k) _ _ _ h1
  have mono : ∀ k, isStale e k = true → isStale e1 k = true := by
    intro k
    simp only [isStale, hf, Bool.and_eq_true, Bool.or_eq_true, decide_eq_true_eq]
    rintro ⟨a, b⟩
    exact ⟨a, by omega⟩
  obtain ⟨s1, s2⟩ := stale_ok h2
  rw [hm] at s1 s2
  refine ⟨_, stale_run fun k hk hs => s1 k hk (mono k hs), ?_⟩
  rw [gets_bind, if_pos hs, bind_run hk, bind_run (stale_run ?_)]
  · have hl2 : (e.simpleKeys.map fun k => if isStale e k then { k with possible := false } else k).map
        (fun k => if isStale e1 k then { k with possible := false } else k) =
        e.simpleKeys.map fun k => if isStale e1 k then { k with possible := false } else k := by
      rw [List.map_map]
      refine List.map_congr_left fun k _ => ?_
      simp only [Function.comp]
      by_cases hx : isStale e k = true
      · have : ∀ s : SSt, isStale s { k with possible := false } = false := fun s => by simp [isStale]
        rw [if_pos hx, this, if_pos (mono k hx)]
        rfl
      · rw [if_neg hx]
    have h3 := congrArg (fun ks => ({ e1 with simpleKeys := ks } : SSt)) hl2
    rw [← h, s2]
    exact congrArg _ h3
  · intro k hk hst
    simp only [List.mem_map] at hk
    obtain ⟨k0, hk0, rfl⟩ := hk
    by_cases hx : isStale e k0 = true
    · rw [if_pos hx]; exact s1 k0 hk0 (mono k0 hx)
    · rw [if_neg hx] at hst ⊢; exact s1 k0 hk0 hst

/-- all keys settled -/
def NoKeys (e : SSt) : Prop := ∀ k ∈ e.simpleKeys, k.possible = false

theorem noKeys_stale {e : SSt} (h : NoKeys e) : staleSimpleKeys e = (.ok (), e) := by
  have hs : ∀ k ∈ e.simpleKeys, isStale e k = false := fun k hk => by simp [isStale, h k hk]
  rw [stale_run (fun k hk hx => by rw [hs k hk] at hx; cases hx)]
  rw [List.map_congr_left (g := id) (fun k hk => by simp [hs k hk])]
  simp

theorem fetchMore_run {cfg p pre} : ∀ {n e eN m}, EOk p pre e → Fetches cfg n e eN → NoKeys eN → p < eN.tokens.length → n < m →
    ∃ n' e', loopM (fetchMoreBody cfg) m () (view p e) = (.ok (), view p e') ∧ EOk p pre e' ∧ p < e'.tokens.length ∧
      (∀ k ∈ e'.simpleKeys, k.possible = true → p < k.tokenNumber) ∧ Fetches cfg n' e' eN ∧ n' ≤ n := by
  intro n
  induction n with
  | zero =>
    intro e eN m ho hf hk hl hm
    cases hf
    obtain ⟨m, rfl⟩ : ∃ j, m = j + 1 := ⟨m - 1, by omega⟩
    refine ⟨0, _, loop_done ?_, ho, hl, fun k hkk hp => ?_, .refl, Nat.le_refl _⟩
    · unfold fetchMoreBody
      have he : (view p e).tokens.isEmpty = false := by simp [view]; omega
      ev [he]
      rw [bind_run (noKeys_stale (e := view p e) hk)]
      have hmo : ((view p e).simpleKeys.any fun k => k.possible && k.tokenNumber == (view p e).tokensParsed) = false := by
        simp only [List.any_eq_false, Bool.and_eq_true]
        intro k hkk hx
        rw [hk k hkk] at hx
        cases hx.1
      ev [hmo]
    · rw [hk k hkk] at hp; cases hp
  | succ n ih =>
    intro e eN m ho hf hk hl hm
    obtain ⟨m, rfl⟩ : ∃ j, m = j + 1 := ⟨m - 1, by omega⟩
    cases hf with
    | step h1 hf =>
      rename_i e1
      have hst : e.streamStartProduced = true := by have := ho.flag; simp [flags] at this; exact this.2.2.2.2
      by_cases hq : e.tokens.length = p
      · obtain ⟨h2, ho1⟩ := (sim_fetchNextToken _ ho).1 _ _ h1
        have hb : fetchMoreBody cfg () (view p e) = (.ok (.next ()), view p e1) := by
          unfold fetchMoreBody
          have he : (view p e).tokens.isEmpty = true := by simp [view]; omega
          ev [he]
          rw [bind_run h2]
          rfl
        obtain ⟨n', e', r1, r2⟩ := ih (m := m) ho1 hf hk hl (by omega)
        exact ⟨n', e', (loop_next hb).trans r1, r2.1, r2.2.1, r2.2.2.1, r2.2.2.2.1, by omega⟩
      · have hq' : p < e.tokens.length := by have := ho.len; omega
        obtain ⟨e0, hs, h1'⟩ := stale_fetch hst h1
        obtain ⟨hs2, ho0⟩ := (sim_staleSimpleKeys _ ho).1 _ _ hs
        have he : (view p e).tokens.isEmpty = false := by simp [view]; omega
        have hq0 : p < e0.tokens.length := by rw [(stale_ok hs).2]; exact hq'
        by_cases hmo : ((view p e0).simpleKeys.any fun k => k.possible && k.tokenNumber == (view p e0).tokensParsed) = true
        · obtain ⟨h2, ho1⟩ := (sim_fetchNextToken _ ho0).1 _ _ h1'
          have hb : fetchMoreBody cfg () (view p e) = (.ok (.next ()), view p e1) := by
            unfold fetchMoreBody
            ev [he]
            rw [bind_run hs2]
            ev [hmo]
            rw [bind_run h2]
            rfl
          obtain ⟨n', e', r1, r2⟩ := ih (m := m) ho1 hf hk hl (by omega)
          exact ⟨n', e', (loop_next hb).trans r1, r2.1, r2.2.1, r2.2.2.1, r2.2.2.2.1, by omega⟩
        · refine ⟨n + 1, e0, loop_done ?_, ho0, hq0, fun k hkk hp => ?_, .step h1' hf, Nat.le_refl _⟩
          · unfold fetchMoreBody
            ev [he]
            rw [bind_run hs2]
            rw [Bool.not_eq_true] at hmo
            ev [hmo]
          · have h1 := ho0.keys k hkk hp
            have h2 : ¬ k.tokenNumber = p := by
              intro hx
              refine hmo ?_
              rw [List.any_eq_true]
              exact ⟨k, hkk, by simp [hp, hx, view]⟩
            omega

/-- the state after a token was taken, in terms of the state without taking tokens -/
theorem next_run {cfg p pre n e eN} (ho : EOk p pre e) (hf : Fetches cfg n e eN) (hk : NoKeys eN) (hl : p < eN.tokens.length)
    (hm : n < cfg.fuel) : ∃ n' e' t, next cfg (view p e) = (.ok (some t), { view (p + 1) e' with
        streamEndReached := t.tt == .streamEnd, streamEndProduced := t.tt == .streamEnd }) ∧
      EOk (p + 1) (pre ++ [t]) e' ∧ Fetches cfg n' e' eN ∧ n' ≤ n := by
  obtain ⟨n', e', h1, ho', hl', hk', hf', hn⟩ := fetchMore_run ho hf hk hl hm
  have fl := ho.flag
  have fl' := ho'.flag
  simp only [flags, Prod.mk.injEq] at fl fl'
  have hd : e'.tokens.drop p = e'.tokens[p] :: e'.tokens.drop (p + 1) := List.drop_eq_getElem_cons hl'
  refine ⟨n', e', e'.tokens[p], ?_, ⟨ho'.zero, hl', ho'.flag, ?_, fun k h1 h2 => hk' k h1 h2⟩, hf', hn⟩
  · have hfm : fetchMoreTokens cfg (view p e) = (.ok (), { view p e' with tokensAvailable := true }) := by
      unfold fetchMoreTokens
      rw [bind_run h1]
      rfl
    have hp : popToken { view p e' with tokensAvailable := true } = (.ok e'.tokens[p], { view (p + 1) e' with
        streamEndReached := e'.tokens[p].tt == .streamEnd, streamEndProduced := e'.tokens[p].tt == .streamEnd }) := by
      unfold popToken
      simp only [view, hd, fl', Bool.false_or]
    have hnt : nextToken cfg (view p e) = (.ok e'.tokens[p], { view (p + 1) e' with
        streamEndReached := e'.tokens[p].tt == .streamEnd, streamEndProduced := e'.tokens[p].tt == .streamEnd }) := by
      unfold nextToken
      have e1 : (view p e).streamEndProduced = false := fl.2.2.2.1
      have e2 : (view p e).tokensAvailable = false := fl.2.2.1
      ev [e1, e2, Bool.not_false]
      rw [bind_run hfm, hp]
    unfold next
    have e3 : ((view p e).error.isSome || (view p e).streamEndReached) = false := by
      show (e.error.isSome || e.streamEndReached) = false
      simp [fl]
    rw [e3, hnt]
    rfl
  · rw [List.take_add_one, ho'.taken, List.getElem?_eq_getElem hl']
    rfl

theorem next_ended {cfg} {s : SSt} (h : s.streamEndReached = true) : next cfg s = (.ok none, s) := by
  unfold next
  rw [h, Bool.or_true]
  rfl

theorem scan_view {cfg} {body : List Token} {last : Token} (hb : ∀ t ∈ body, t.tt ≠ .streamEnd) (hlast : last.tt = .streamEnd) :
    ∀ (k : Nat) {p n e eN N}, k = body.length - p → EOk p (body.take p) e → Fetches cfg n e eN → NoKeys eN → eN.tokens = body ++ [last] →
    p ≤ body.length → n < cfg.fuel → body.length + 1 - p < N → scan cfg N (view p e) = (body.drop p ++ [last], .ended) := by
  intro k
  induction k with
  | zero =>
    intro p n e eN N hk ho hf hnk ht hp hn hN
    obtain rfl : p = body.length := by omega
    obtain ⟨N, rfl⟩ : ∃ j, N = j + 2 := ⟨N - 2, by omega⟩
    obtain ⟨n', e', t, h1, ho', hf', -⟩ := next_run ho hf hnk (by rw [ht]; simp) hn
    have htake : eN.tokens.take (body.length + 1) = body.take body.length ++ [t] := by
      clear h1 hf ho
      induction hf' with
      | refl => exact ho'.taken
      | step h2 _ ih => exact ih hnk ht ((sim_fetchNextToken _ ho').1 _ _ h2).2
    have : t = last := by
      rw [ht, List.take_of_length_le (by simp), List.take_length] at htake
      simpa using (List.append_cancel_left htake).symm
    subst this
    rw [scan, h1]
    simp only [hlast]
    rw [scan]
    rw [next_ended (by rfl)]
    have fl' := ho'.flag
    simp only [flags, Prod.mk.injEq] at fl'
    simp [view, fl']
  | succ k ih =>
    intro p n e eN N hk ho hf hnk ht hp hn hN
    obtain ⟨N, rfl⟩ : ∃ j, N = j + 1 := ⟨N - 1, by omega⟩
    have hpl : p < body.length := by omega
    obtain ⟨n', e', t, h1, ho', hf', hn'⟩ := next_run ho hf hnk (by rw [ht]; simp; omega) hn
    have htake : eN.tokens.take (p + 1) = body.take p ++ [t] := by
      clear h1 hf ho hn'
      induction hf' with
      | refl => exact ho'.taken
      | step h2 _ ih => exact ih hnk ht ((sim_fetchNextToken _ ho').1 _ _ h2).2
    have htt : t = body[p] := by
      rw [ht, List.take_append_of_le_length (by omega), List.take_add_one, List.getElem?_eq_getElem hpl] at htake
      have := List.append_cancel_left htake
      simpa using this.symm
    have hne : (t.tt == TokenType.streamEnd) = false := by
      rw [htt]; simpa using hb body[p] (List.getElem_mem hpl)
    rw [scan, h1]
    simp only [hne]
    have fl' := ho'.flag
    simp only [flags, Prod.mk.injEq] at fl'
    have hv : ({ view (p + 1) e' with streamEndReached := false, streamEndProduced := false } : SSt) = view (p + 1) e' := by
      have h1 : (view (p + 1) e').streamEndReached = false := fl'.2.1
      have h2 : (view (p + 1) e').streamEndProduced = false := fl'.2.2.2.1
      generalize view (p + 1) e' = w at h1 h2
      rcases w with ⟨⟩
      dsimp only at h1 h2
      rw [h1, h2]
    rw [hv]
    have htk : body.take (p + 1) = body.take p ++ [t] := by
      rw [List.take_add_one, List.getElem?_eq_getElem hpl, htt]; rfl
    rw [ih (p := p + 1) (by omega) (by rw [htk]; exact ho') hf' hnk ht (by omega) (by omega) (by omega)]
    rw [List.drop_eq_getElem_cons hpl, ← htt]
    rfl

/-- Iterating over an input gives the tokens that fetching gives. -/
theorem scan_of_fetches {cfg input n eN} {body : List Token} {last : Token} {N : Nat} (h : Fetches cfg n (fetchStreamStart (Scanner.new input)).2 eN)
    (hk : NoKeys eN) (ht : eN.tokens = body ++ [last]) (hb : ∀ t ∈ body, t.tt ≠ .streamEnd) (hlast : last.tt = .streamEnd)
    (hn : n + 1 < cfg.fuel) (hN : body.length + 1 < N) : scanInput cfg input N = (body ++ [last], .ended) := by
  have hb1 : fetchMoreBody cfg () (Scanner.new input) = (.ok (.next ()), (fetchStreamStart (Scanner.new input)).2) := rfl
  have hb2 : fetchMoreBody cfg () (fetchStreamStart (Scanner.new input)).2 = (.ok (.done ()), (fetchStreamStart (Scanner.new input)).2) := rfl
  obtain ⟨m, hm⟩ : ∃ m, cfg.fuel = m + 2 := ⟨cfg.fuel - 2, by omega⟩
  have hl : loopM (fetchMoreBody cfg) cfg.fuel () (Scanner.new input) = (.ok (), (fetchStreamStart (Scanner.new input)).2) := by
    rw [hm]
    exact (loop_next hb1).trans (loop_done hb2)
  have hfm : fetchMoreTokens cfg (Scanner.new input) =
      (.ok (), { (fetchStreamStart (Scanner.new input)).2 with tokensAvailable := true }) := by
    unfold fetchMoreTokens
    rw [bind_run hl]
    rfl
  have hnt : nextToken cfg (Scanner.new input) = (.ok ⟨Span.empty ⟨0, 1, 1⟩, .streamStart⟩, view 1 (fetchStreamStart (Scanner.new input)).2) := by
    unfold nextToken
    rw [gets_bind, if_neg (by exact Bool.false_ne_true), gets_bind, show (!(Scanner.new input).tokensAvailable) = true from rfl]
    unfold when
    rw [if_pos rfl, bind_run hfm]
    rfl
  have ho : EOk 1 [⟨Span.empty ⟨0, 1, 1⟩, .streamStart⟩] (fetchStreamStart (Scanner.new input)).2 := by
    refine ⟨rfl, Nat.le_refl _, rfl, rfl, fun k hk hp => ?_⟩
    obtain rfl : k = SimpleKey.new Marker.default := by simpa [fetchStreamStart, upd, Scanner.new] using hk
    cases hp
  have htake : eN.tokens.take 1 = [⟨Span.empty ⟨0, 1, 1⟩, .streamStart⟩] := by
    clear hnt hfm hl hb1 hb2
    generalize (fetchStreamStart (Scanner.new input)).2 = e at h ho
    clear hn
    induction h with
    | refl => exact ho.taken
    | step h2 _ ih => exact ih hk ht ((sim_fetchNextToken _ ho).1 _ _ h2).2
  obtain ⟨N, rfl⟩ : ∃ j, N = j + 1 := ⟨N - 1, by omega⟩
  cases body with
  | nil =>
    rw [ht] at htake
    simp only [List.nil_append, List.take_succ_cons, List.take_zero, List.cons.injEq, and_true] at htake
    rw [htake] at hlast
    cases hlast
  | cons t body =>
    rw [ht] at htake
    simp only [List.cons_append, List.take_succ_cons, List.take_zero, List.cons.injEq, and_true] at htake
    subst htake
    unfold scanInput
    rw [scan]
    have hnx : next cfg (Scanner.new input) = (.ok (some ⟨Span.empty ⟨0, 1, 1⟩, .streamStart⟩), view 1 (fetchStreamStart (Scanner.new input)).2) := by
      unfold next
      rw [if_neg (by exact Bool.false_ne_true), hnt]
    rw [hnx]
    dsimp only
    rw [scan_view hb hlast body.length (p := 1) (by simp) ho h hk ht (by simp) (by omega) (by simp at hN ⊢; omega)]
    rfl

end Verif.Scanner
