import Verif.Lemmas.ScanFetches
/-!
# From a fetch that fails to a run that does not reach its end

`Doomed cfg e`: fetching, without taking tokens, comes to a fetch that fails, and no fetch before it has put the end of the stream into the
queue. `scan_doomed`: then iterating never gets to the end of the stream.
-/
namespace Verif.Scanner
open Verif Verif.CharUtils Verif.Source Verif.Spec

/-- not a success, and not for what is in the queue -/
def Refuses {α} (r : Res α × SSt) : Prop := (∀ a s, r ≠ (.ok a, s)) ∧ ¬ Anch r

/-- fetching fails before the end of the stream -/
def Doomed (cfg : Cfg) (e : SSt) : Prop :=
  ∃ n eD, Fetches cfg n e eD ∧ Refuses (fetchNextToken cfg eD) ∧ ∀ t ∈ eD.tokens, t.tt ≠ .streamEnd

theorem Doomed.before {cfg n e e'} (hf : Fetches cfg n e e') (h : Doomed cfg e') : Doomed cfg e := by
  obtain ⟨m, eD, h1, h2⟩ := h
  exact ⟨_, eD, hf.trans h1, h2⟩

/-- `m` does not look at the simple keys -/
def KFull {α} (m : SM α) : Prop := ∀ ks s, m { s with simpleKeys := ks } = ((m s).1, { (m s).2 with simpleKeys := ks })

theorem kfull_pure {α} {a : α} : KFull (pure a) := fun _ _ => rfl

theorem kfull_bind {α β} {m : SM α} {f : α → SM β} (hm : KFull m) (hf : ∀ a, KFull (f a)) : KFull (m >>= f) := by
  intro ks s
  simp only [Bind.bind]
  rw [hm ks s]
  rcases m s with ⟨r, s1⟩
  cases r with
  | ok a => exact hf a ks s1
  | err e => rfl
  | panic => rfl
  | hang => rfl

theorem kfull_gets {α} {f : SSt → α} (hf : ∀ s ks, f { s with simpleKeys := ks } = f s) : KFull (gets f) := fun ks s => by
  simp only [gets, hf]

theorem kfull_upd {f : SSt → SSt} (hf : ∀ s ks, f { s with simpleKeys := ks } = { f s with simpleKeys := ks }) : KFull (upd f) := fun ks s => by
  show (Res.ok (), f { s with simpleKeys := ks }) = (Res.ok (), { f s with simpleKeys := ks })
  rw [hf]

theorem kfull_ite {α} {c : Prop} [Decidable c] {m n : SM α} (hm : KFull m) (hn : KFull n) : KFull (if c then m else n) := by
  split
  · exact hm
  · exact hn

theorem kfull_failIf {c m msg} : KFull (failIf c m msg) := by
  unfold failIf
  split <;> exact fun _ _ => rfl

theorem kfull_loop {σ α} {body : σ → SM (Loop σ α)} (h : ∀ x, KFull (body x)) : ∀ n x, KFull (loopM body n x)
  | 0, _ => fun _ _ => rfl
  | n + 1, x => by
    rw [loopM]
    refine kfull_bind (h x) fun r => ?_
    cases r with
    | next y => exact kfull_loop h n y
    | done a => exact kfull_pure

theorem kfull_skipWs {a b} : KFull (skipWsToEol a b) := by
  intro ks s
  unfold skipWsToEol
  dsimp only
  split <;> rfl

theorem kfull_skipToNextToken {cfg} : KFull (skipToNextToken cfg) := by
  unfold skipToNextToken
  refine kfull_loop (fun _ => ?_) _ _
  unfold skipToNextTokenBody
  refine kfull_bind (kfull_gets fun _ _ => rfl) fun _ => kfull_bind (kfull_gets fun _ _ => rfl) fun _ =>
    kfull_ite ?_ (kfull_ite ?_ (kfull_ite ?_ (kfull_ite ?_ kfull_pure)))
  · exact kfull_bind kfull_skipWs fun _ => kfull_bind (kfull_gets fun _ _ => rfl) fun _ => kfull_bind (kfull_gets fun _ _ => rfl) fun _ =>
      kfull_bind kfull_failIf fun _ => kfull_pure
  · exact kfull_bind (kfull_upd fun _ _ => rfl) fun _ => kfull_pure
  · refine kfull_bind (kfull_upd fun s ks => ?_) fun _ => kfull_bind (kfull_gets fun _ _ => rfl) fun _ => kfull_bind ?_ fun _ => kfull_pure
    · rw [keys_ite, keys_ite]
    · unfold when
      exact kfull_ite (kfull_upd fun _ _ => rfl) kfull_pure
  · exact kfull_bind (kfull_upd fun _ _ => rfl) fun _ => kfull_pure

theorem bind_fails {α β} {m : SM α} {f : α → SM β} {s} (h : ∀ a s', m s ≠ (.ok a, s')) :
    (∀ b s', (m >>= f) s ≠ (.ok b, s')) ∧ (Anch ((m >>= f) s) ↔ Anch (m s)) := by
  simp only [Bind.bind]
  rcases hm : m s with ⟨r, s1⟩
  cases r with
  | ok a => exact absurd hm (h a s1)
  | err e => exact ⟨by simp, by simp [Anch]⟩
  | panic => exact ⟨by simp, by simp [Anch]⟩
  | hang => exact ⟨by simp, by simp [Anch]⟩

theorem Refuses.bind {α β} {m : SM α} {f : α → SM β} {s} (h : Refuses (m s)) : Refuses ((m >>= f) s) := by
  obtain ⟨h1, h2⟩ := bind_fails (f := f) h.1
  exact ⟨h1, fun hx => h.2 (h2.1 hx)⟩

theorem stale_fails {e : SSt} {k} (hk : k ∈ e.simpleKeys) (hs : isStale e k = true) (hr : k.required = true) : Refuses (staleSimpleKeys e) := by
  unfold staleSimpleKeys
  rw [if_pos]
  · exact ⟨by simp, by simp [Anch]⟩
  · rw [List.any_eq_true]
    exact ⟨k, hk, by simp [hs, hr]⟩

/-- dropping stale keys before a fetch does not make it succeed -/
theorem stale_refuses {cfg e e0} (hst : e.streamStartProduced = true) (hs : staleSimpleKeys e = (.ok (), e0)) (h : Refuses (fetchNextToken cfg e)) :
    Refuses (fetchNextToken cfg e0) := by
  obtain ⟨q1, rfl⟩ := stale_ok hs
  rcases h1 : skipToNextToken cfg e with ⟨r, e1⟩
  have hk := kfull_skipToNextToken (cfg := cfg) (e.simpleKeys.map fun k => if isStale e k then { k with possible := false } else k) e
  rw [h1] at hk
  dsimp only at hk
  by_cases hr : r = .ok ()
  · subst hr
    obtain ⟨-, hm, hf, hl, hp⟩ := ksim_skipToNextToken [] _ _ _ h1
    have mono : ∀ k, isStale e k = true → isStale e1 k = true := by
      intro k
      simp only [isStale, hf, Bool.and_eq_true, Bool.or_eq_true, decide_eq_true_eq]
      rintro ⟨a, b⟩
      exact ⟨a, by omega⟩
    by_cases hx : ∀ k ∈ e1.simpleKeys, isStale e1 k = true → k.required = false
    · obtain ⟨e2, h2, h3⟩ : ∃ e2, staleSimpleKeys e1 = (.ok (), e2) ∧ staleSimpleKeys { e1 with simpleKeys := e.simpleKeys.map fun k => if isStale e k then { k with possible := false } else k } = (.ok (), e2) := by
        refine ⟨_, stale_run hx, ?_⟩
        rw [stale_run]
        · have hl2 : (e.simpleKeys.map fun k => if isStale e k then { k with possible := false } else k).map
              (fun k => if isStale e1 k then { k with possible := false } else k) =
              e1.simpleKeys.map fun k => if isStale e1 k then { k with possible := false } else k := by
            rw [List.map_map, hm]
            refine List.map_congr_left fun k _ => ?_
            simp only [Function.comp]
            by_cases hx : isStale e k = true
            · have : ∀ s : SSt, isStale s { k with possible := false } = false := fun s => by simp [isStale]
              rw [if_pos hx, this, if_pos (mono k hx)]
              rfl
            · rw [if_neg hx]
          have h3 := congrArg (fun ks => ((.ok (), { e1 with simpleKeys := ks }) : Res Unit × SSt)) hl2
          exact h3
        · intro k hk hst
          simp only [List.mem_map] at hk
          obtain ⟨k0, hk0, rfl⟩ := hk
          by_cases hy : isStale e k0 = true
          · rw [if_pos hy]; exact q1 k0 hk0 hy
          · rw [if_neg hy] at hst ⊢; exact hx k0 (by rw [hm]; exact hk0) hst
      unfold fetchNextToken at h ⊢
      rw [gets_bind, if_pos hst, bind_run h1, bind_run h2] at h
      rw [gets_bind, if_pos hst, bind_run hk, bind_run h3]
      exact h
    · simp only [Classical.not_forall] at hx
      obtain ⟨k, hk1, hs1, hr1⟩ := hx
      rw [Bool.not_eq_false] at hr1
      rw [hm] at hk1
      have hn : isStale e k ≠ true := fun hy => by rw [q1 k hk1 hy] at hr1; cases hr1
      unfold fetchNextToken
      rw [gets_bind, if_pos hst, bind_run hk]
      refine Refuses.bind (stale_fails (k := k) (e := { e1 with simpleKeys := e.simpleKeys.map fun k => if isStale e k then { k with possible := false } else k }) ?_ hs1 hr1)
      simp only [List.mem_map]
      exact ⟨k, hk1, if_neg hn⟩
  · have hne : ∀ a s', skipToNextToken cfg e ≠ (.ok a, s') := by
      intro a s' hx
      rw [h1] at hx
      simp only [Prod.mk.injEq] at hx
      exact hr hx.1
    have hne' : ∀ a s', skipToNextToken cfg { e with simpleKeys := e.simpleKeys.map fun k => if isStale e k then { k with possible := false } else k } ≠ (.ok a, s') := by
      intro a s' hx
      rw [hk] at hx
      simp only [Prod.mk.injEq] at hx
      exact hr hx.1
    unfold fetchNextToken at h ⊢
    rw [gets_bind, if_pos hst] at h
    rw [gets_bind, if_pos hst]
    have h4 := h.2
    rw [(bind_fails hne).2, h1] at h4
    refine Refuses.bind ⟨hne', ?_⟩
    rw [hk]
    exact h4

theorem doomed_stale {cfg e e0} (hst : e.streamStartProduced = true) (hs : staleSimpleKeys e = (.ok (), e0)) (h : Doomed cfg e) : Doomed cfg e0 := by
  obtain ⟨n, eD, h1, h2, h3⟩ := h
  cases h1 with
  | refl =>
    refine ⟨0, e0, .refl, stale_refuses hst hs h2, ?_⟩
    rw [(stale_ok hs).2]
    exact h3
  | step h4 h5 =>
    obtain ⟨e0', hs', h6⟩ := stale_fetch hst h4
    rw [hs] at hs'
    simp only [Prod.mk.injEq, true_and] at hs'
    subst hs'
    exact ⟨_, eD, .step h6 h5, h2, h3⟩

theorem fetch_view {cfg p pre e} (ho : EOk p pre e) (h : Refuses (fetchNextToken cfg e)) : ∀ a s, fetchNextToken cfg (view p e) ≠ (.ok a, s) := by
  intro a s hx
  rcases (sim_fetchNextToken _ ho).2 _ _ hx with ⟨e', h1⟩ | h1
  · exact h.1 _ _ h1
  · exact h.2 h1

theorem loop_fails {σ α} {body : σ → SM (Loop σ α)} {n x s} (h : ∀ a s', body x s ≠ (.ok a, s')) : ∀ a s', loopM body n x s ≠ (.ok a, s') := by
  intro a s' hx
  cases n with
  | zero => simp [loopM, hang] at hx
  | succ n =>
    rw [loopM] at hx
    obtain ⟨a, s1, h1, -⟩ := bind_ok hx
    exact h _ _ h1

theorem Doomed.tokens {cfg p pre e} (ho : EOk p pre e) (h : Doomed cfg e) : ∀ t ∈ pre, t.tt ≠ .streamEnd := by
  obtain ⟨n, eD, h1, -, h3⟩ := h
  have : eD.tokens.take p = pre := by
    clear h3
    induction h1 with
    | refl => exact ho.taken
    | step h2 _ ih => exact ih ((sim_fetchNextToken _ ho).1 _ _ h2).2
  intro t ht
  rw [← this] at ht
  exact h3 t (List.mem_of_mem_take ht)

theorem fetchMore_doomed {cfg p pre} : ∀ {m e}, EOk p pre e → Doomed cfg e →
    (∀ a s, loopM (fetchMoreBody cfg) m () (view p e) ≠ (.ok a, s)) ∨
    ∃ e', loopM (fetchMoreBody cfg) m () (view p e) = (.ok (), view p e') ∧ EOk p pre e' ∧ p < e'.tokens.length ∧
      (∀ k ∈ e'.simpleKeys, k.possible = true → p < k.tokenNumber) ∧ Doomed cfg e' := by
  intro m
  induction m with
  | zero => intro e _ _; left; intro a s hx; simp [loopM, hang] at hx
  | succ m ih =>
    intro e ho hd
    have hst : e.streamStartProduced = true := by have := ho.flag; simp [flags] at this; exact this.2.2.2.2
    have fetch : ∀ e1, EOk p pre e1 → Doomed cfg e1 → fetchMoreBody cfg () (view p e) = (fetchNextToken cfg >>= fun _ => (pure (Loop.next ()) : SM (Loop Unit Unit))) (view p e1) →
        (∀ a s, loopM (fetchMoreBody cfg) (m + 1) () (view p e) ≠ (.ok a, s)) ∨
        ∃ e', loopM (fetchMoreBody cfg) (m + 1) () (view p e) = (.ok (), view p e') ∧ EOk p pre e' ∧ p < e'.tokens.length ∧
          (∀ k ∈ e'.simpleKeys, k.possible = true → p < k.tokenNumber) ∧ Doomed cfg e' := by
      intro e1 ho1 hd1 hb
      obtain ⟨n, eD, h1, h2, h3⟩ := hd1
      cases h1 with
      | refl =>
        left
        refine loop_fails fun a s hx => ?_
        rw [hb] at hx
        obtain ⟨a', s', h4, -⟩ := bind_ok hx
        exact fetch_view ho1 h2 _ _ h4
      | step h4 h5 =>
        rename_i n e2
        obtain ⟨h6, ho2⟩ := (sim_fetchNextToken _ ho1).1 _ _ h4
        have hb' : fetchMoreBody cfg () (view p e) = (.ok (.next ()), view p e2) := by
          rw [hb, bind_run h6]
          rfl
        rcases ih ho2 ⟨_, eD, h5, h2, h3⟩ with h7 | ⟨e', h7, h8⟩
        · left
          rw [loop_next hb']
          exact h7
        · right
          exact ⟨e', (loop_next hb').trans h7, h8⟩
    by_cases hq : e.tokens.length = p
    · refine fetch e ho hd ?_
      unfold fetchMoreBody
      have he : (view p e).tokens.isEmpty = true := by simp [view]; omega
      ev [he]
    · have hq' : p < e.tokens.length := by have := ho.len; omega
      have he : (view p e).tokens.isEmpty = false := by simp [view]; omega
      rcases hs : staleSimpleKeys e with ⟨r, e0⟩
      by_cases hr : r = .ok ()
      · subst hr
        obtain ⟨hs2, ho0⟩ := (sim_staleSimpleKeys _ ho).1 _ _ hs
        have hd0 := doomed_stale hst hs hd
        have hq0 : p < e0.tokens.length := by rw [(stale_ok hs).2]; exact hq'
        by_cases hmo : ((view p e0).simpleKeys.any fun k => k.possible && k.tokenNumber == (view p e0).tokensParsed) = true
        · refine fetch e0 ho0 hd0 ?_
          unfold fetchMoreBody
          ev [he]
          rw [bind_run hs2]
          ev [hmo]
        · right
          refine ⟨e0, loop_done ?_, ho0, hq0, fun k hkk hp => ?_, hd0⟩
          · unfold fetchMoreBody
            ev [he]
            rw [bind_run hs2]
            rw [Bool.not_eq_true] at hmo
            ev [hmo]
          · have h1 := ho0.keys k hkk hp
            have h2 : ¬ k.tokenNumber = p := by
              intro hx
              refine hmo ?_
              rw [List.any_eq_true]
              exact ⟨k, hkk, by simp [hp, hx, view]⟩
            omega
      · left
        refine loop_fails fun a s hx => ?_
        unfold fetchMoreBody at hx
        rw [gets_bind, he, if_neg Bool.false_ne_true] at hx
        obtain ⟨a', s', h4, -⟩ := bind_ok hx
        rcases (sim_staleSimpleKeys _ ho).2 _ _ h4 with ⟨e', h1⟩ | h1
        · rw [hs] at h1
          simp only [Prod.mk.injEq] at h1
          exact hr h1.1
        · unfold staleSimpleKeys at h1
          split at h1 <;> simp [Anch] at h1

/-- the state after a token was taken, or no token -/
theorem next_doomed {cfg p pre e} (ho : EOk p pre e) (hd : Doomed cfg e) :
    (∀ t s, next cfg (view p e) ≠ (.ok (some t), s)) ∧ (∀ s, next cfg (view p e) = (.ok none, s) → s.error ≠ none) ∨
    ∃ e' t, next cfg (view p e) = (.ok (some t), view (p + 1) e') ∧ EOk (p + 1) (pre ++ [t]) e' ∧ Doomed cfg e' := by
  have fl := ho.flag
  simp only [flags, Prod.mk.injEq] at fl
  have e1 : (view p e).streamEndProduced = false := fl.2.2.2.1
  have e2 : (view p e).tokensAvailable = false := fl.2.2.1
  have e3 : ((view p e).error.isSome || (view p e).streamEndReached) = false := by
    show (e.error.isSome || e.streamEndReached) = false
    simp [fl]
  rcases fetchMore_doomed (m := cfg.fuel) ho hd with h1 | ⟨e', h1, ho', hl', hk', hd'⟩
  · left
    have hnt : ∀ a s, nextToken cfg (view p e) ≠ (.ok a, s) := by
      intro a s hx
      unfold nextToken at hx
      rw [gets_bind, e1, if_neg Bool.false_ne_true, gets_bind, e2, Bool.not_false] at hx
      unfold when at hx
      rw [if_pos rfl] at hx
      obtain ⟨a, s1, h2, -⟩ := bind_ok hx
      unfold fetchMoreTokens at h2
      obtain ⟨b, s2, h3, -⟩ := bind_ok h2
      exact h1 _ _ h3
    unfold next
    rw [e3]
    rcases hn : nextToken cfg (view p e) with ⟨r, s⟩
    cases r with
    | ok a => exact absurd hn (hnt a s)
    | err x =>
      refine ⟨by simp, fun s' hs => ?_⟩
      simp at hs
      rw [← hs]
      simp
    | panic => exact ⟨by simp, by simp⟩
    | hang => exact ⟨by simp, by simp⟩
  · right
    have fl' := ho'.flag
    simp only [flags, Prod.mk.injEq] at fl'
    have hd2 : e'.tokens.drop p = e'.tokens[p] :: e'.tokens.drop (p + 1) := List.drop_eq_getElem_cons hl'
    have ho2 : EOk (p + 1) (pre ++ [e'.tokens[p]]) e' := by
      refine ⟨ho'.zero, hl', ho'.flag, ?_, fun k h1 h2 => hk' k h1 h2⟩
      rw [List.take_add_one, ho'.taken, List.getElem?_eq_getElem hl']
      rfl
    have hne : (e'.tokens[p].tt == TokenType.streamEnd) = false := by
      simpa using Doomed.tokens ho2 hd' e'.tokens[p] (by simp)
    refine ⟨e', e'.tokens[p], ?_, ho2, hd'⟩
    have hfm : fetchMoreTokens cfg (view p e) = (.ok (), { view p e' with tokensAvailable := true }) := by
      unfold fetchMoreTokens
      rw [bind_run h1]
      rfl
    have hp : popToken { view p e' with tokensAvailable := true } = (.ok e'.tokens[p], view (p + 1) e') := by
      unfold popToken
      simp only [view, hd2, fl', hne, Bool.or_false]
    have hnt : nextToken cfg (view p e) = (.ok e'.tokens[p], view (p + 1) e') := by
      unfold nextToken
      ev [e1, e2, Bool.not_false]
      rw [bind_run hfm, hp]
    unfold next
    rw [e3, hnt]
    rfl

theorem view_doomed {cfg} : ∀ (N : Nat) {p pre e}, EOk p pre e → Doomed cfg e →
    (scan cfg N (view p e)).2 ≠ .ended ∧ ∀ t ∈ (scan cfg N (view p e)).1, t.tt ≠ .streamEnd := by
  intro N
  induction N with
  | zero => intro p pre e _ _; simp [scan]
  | succ N ih =>
    intro p pre e ho hd
    rw [scan]
    rcases next_doomed ho hd with ⟨h1, h2⟩ | ⟨e', t, h1, ho', hd'⟩
    · rcases hn : next cfg (view p e) with ⟨r, s⟩
      cases r with
      | ok o =>
        cases o with
        | some t => exact absurd hn (h1 t s)
        | none =>
          have := h2 s hn
          cases he : s.error with
          | none => exact absurd he this
          | some x => simp [he]
      | err x => simp
      | panic => simp
      | hang => simp
    · rw [h1]
      obtain ⟨i1, i2⟩ := ih ho' hd'
      refine ⟨i1, fun u hu => ?_⟩
      simp only [List.mem_cons] at hu
      rcases hu with rfl | hu
      · exact Doomed.tokens ho' hd' u (by simp)
      · exact i2 u hu

/-- If fetching fails, iterating over the input does not get to the end of the stream. -/
theorem scan_doomed {cfg input} (h : Doomed cfg (fetchStreamStart (Scanner.new input)).2) (N : Nat) :
    (scanInput cfg input N).2 ≠ .ended ∧ ∀ t ∈ (scanInput cfg input N).1, t.tt ≠ .streamEnd := by
  cases N with
  | zero => simp [scanInput, scan]
  | succ N =>
    by_cases hf : cfg.fuel < 2
    · have hnt : ∀ a s, nextToken cfg (Scanner.new input) ≠ (.ok a, s) := by
        intro a s hx
        unfold nextToken at hx
        rw [gets_bind, if_neg (by exact Bool.false_ne_true), gets_bind, show (!(Scanner.new input).tokensAvailable) = true from rfl] at hx
        unfold when at hx
        rw [if_pos rfl] at hx
        obtain ⟨b, s2, h3, -⟩ := bind_ok hx
        unfold fetchMoreTokens at h3
        obtain ⟨b, s2, h4, -⟩ := bind_ok h3
        rcases hc : cfg.fuel with _ | _ | k
        · rw [hc] at h4; simp [loopM, hang] at h4
        · rw [hc] at h4
          rw [loop_next (show fetchMoreBody cfg () (Scanner.new input) = (.ok (.next ()), (fetchStreamStart (Scanner.new input)).2) from rfl)] at h4
          simp [loopM, hang] at h4
        · omega
      unfold scanInput
      rw [scan]
      have : ∀ t s, next cfg (Scanner.new input) ≠ (.ok (some t), s) := by
        intro t s hx
        unfold next at hx
        rw [show ((Scanner.new input).error.isSome || (Scanner.new input).streamEndReached) = false from rfl] at hx
        rcases hn : nextToken cfg (Scanner.new input) with ⟨r, s'⟩
        rw [hn] at hx
        cases r with
        | ok a => exact hnt _ _ hn
        | err x => simp at hx
        | panic => simp at hx
        | hang => simp at hx
      rcases hn : next cfg (Scanner.new input) with ⟨r, s⟩
      cases r with
      | ok o =>
        cases o with
        | some t => exact absurd hn (this t s)
        | none =>
          unfold next at hn
          rw [show ((Scanner.new input).error.isSome || (Scanner.new input).streamEndReached) = false from rfl] at hn
          rcases hq : nextToken cfg (Scanner.new input) with ⟨r, s'⟩
          rw [hq] at hn
          cases r with
          | ok a => exact absurd hq (hnt _ _)
          | err x =>
            simp at hn
            rw [← hn]
            simp
          | panic => simp at hn
          | hang => simp at hn
      | err x => simp
      | panic => simp
      | hang => simp
    have hb1 : fetchMoreBody cfg () (Scanner.new input) = (.ok (.next ()), (fetchStreamStart (Scanner.new input)).2) := rfl
    have hb2 : fetchMoreBody cfg () (fetchStreamStart (Scanner.new input)).2 = (.ok (.done ()), (fetchStreamStart (Scanner.new input)).2) := rfl
    obtain ⟨m, hm⟩ : ∃ m, cfg.fuel = m + 2 := ⟨cfg.fuel - 2, by omega⟩
    have hl : loopM (fetchMoreBody cfg) cfg.fuel () (Scanner.new input) = (.ok (), (fetchStreamStart (Scanner.new input)).2) := by
      rw [hm]
      exact (loop_next hb1).trans (loop_done hb2)
    have hfm : fetchMoreTokens cfg (Scanner.new input) =
        (.ok (), { (fetchStreamStart (Scanner.new input)).2 with tokensAvailable := true }) := by
      unfold fetchMoreTokens
      rw [bind_run hl]
      rfl
    have hnt : nextToken cfg (Scanner.new input) = (.ok ⟨Span.empty ⟨0, 1, 1⟩, .streamStart⟩, view 1 (fetchStreamStart (Scanner.new input)).2) := by
      unfold nextToken
      rw [gets_bind, if_neg (by exact Bool.false_ne_true), gets_bind, show (!(Scanner.new input).tokensAvailable) = true from rfl]
      unfold when
      rw [if_pos rfl, bind_run hfm]
      rfl
    have ho : EOk 1 [⟨Span.empty ⟨0, 1, 1⟩, .streamStart⟩] (fetchStreamStart (Scanner.new input)).2 := by
      refine ⟨rfl, Nat.le_refl _, rfl, rfl, fun k hk hp => ?_⟩
      obtain rfl : k = SimpleKey.new Marker.default := by simpa [fetchStreamStart, upd, Scanner.new] using hk
      cases hp
    obtain ⟨i1, i2⟩ := view_doomed N ho h
    unfold scanInput
    rw [scan]
    have hnx : next cfg (Scanner.new input) = (.ok (some ⟨Span.empty ⟨0, 1, 1⟩, .streamStart⟩), view 1 (fetchStreamStart (Scanner.new input)).2) := by
      unfold next
      rw [show ((Scanner.new input).error.isSome || (Scanner.new input).streamEndReached) = false from rfl, hnt]
      rfl
    rw [hnx]
    refine ⟨i1, fun u hu => ?_⟩
    simp only [List.mem_cons] at hu
    rcases hu with rfl | hu
    · simp
    · exact i2 u hu

end Verif.Scanner
