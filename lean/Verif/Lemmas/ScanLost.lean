import Verif.Lemmas.ScanUnclosed
/-!
# From a flow collection that is not closed to the tokens of the whole text

`Strays cfg e`: fetching, without taking tokens, gets into a flow collection that is not closed. `scan_strays`: then the tokens of the text, up to the end of the
stream if they get there, have more brackets opened than closed.
-/
namespace Verif.Scanner
open Verif Verif.CharUtils Verif.Source Verif.Spec Verif.Spec.Faults

/-- if the tokens get to the end of the stream, more brackets are opened than closed before it -/
def BadT (l : List TokenType) : Prop := ∀ a b, l = a ++ .streamEnd :: b → .streamEnd ∉ a → 0 < sqOf a ∨ 0 < brOf a

theorem badT_of {l : List TokenType} (h : .streamEnd ∉ l) : BadT l := fun a b e _ => absurd (by rw [e]; simp) h

theorem first_end {a b c d : List TokenType} (e : a ++ .streamEnd :: b = c ++ .streamEnd :: d) (ha : .streamEnd ∉ a) (hc : .streamEnd ∉ c) : a = c := by
  induction a generalizing c with
  | nil =>
    cases c with
    | nil => rfl
    | cons x c => simp at e hc; exact absurd e.1 hc.1
  | cons x a ih =>
    cases c with
    | nil => simp at e ha; exact absurd e.1.symm ha.1
    | cons y c =>
      simp only [List.cons_append, List.cons.injEq] at e
      simp only [List.mem_cons, not_or] at ha hc
      rw [e.1, ih e.2 ha.2 hc.2]

section
variable [Pfx]

theorem Open.bad {pre s} (h : Open pre s) : BadT pre := by
  cases h with
  | flow h _ => exact badT_of fun hm => h.noEnd (List.mem_append_left _ hm)
  | over _ _ h _ =>
    obtain ⟨a, c, h1, h2, h3, h4⟩ := h
    intro a' b' e ha
    rw [e, List.append_assoc, List.cons_append] at h1
    rcases h4 with rfl | ⟨d, rfl⟩
    · refine absurd ?_ h2
      rw [List.append_nil] at h1
      rw [← h1]; simp
    · rw [first_end h1 ha h2]; exact h3

theorem Open.frame {pre s s'} (h : Open pre s) (f : Fr s s') (e1 : s'.src = s.src) (e2 : s'.mark = s.mark) : Open pre s' := by
  cases h with
  | flow h ha => exact .flow (h.frame f) (by unfold Ahead; rw [e1, e2, f.adj]; exact ha)
  | over h1 h2 h3 h4 => exact .over (h1.of f.marks) (by rw [e1]; exact h2) (by rw [f.types]; exact h3) (by rw [f.types]; exact h4)

theorem Open.runs {pre s} (h : Open pre s) : Runs s := by
  cases h with
  | flow h _ => exact h.runs
  | over h => exact h

theorem loop_open {cfg : Cfg} {pre : List TokenType} : ∀ m {s a s'}, Open pre s → loopM (fetchMoreBody cfg) m () s = (.ok a, s') → Open pre s' := by
  intro m
  induction m with
  | zero => intro s a s' _ e; cases e
  | succ m ih =>
    intro s a s' h e
    rw [loopM] at e
    obtain ⟨x, s1, e1, e⟩ := bind_ok e
    have h1 : Open pre s1 := by
      unfold fetchMoreBody at e1
      rw [gets_bind] at e1
      split at e1
      · obtain ⟨_, s2, e2, e3⟩ := bind_ok e1
        cases e3
        exact fetch_open h e2
      · obtain ⟨_, s2, e2, e3⟩ := bind_ok e1
        obtain ⟨f, g1, g2⟩ := stale_fr e2
        have h2 := h.frame f g1 g2
        rw [gets_bind] at e3
        split at e3
        · obtain ⟨_, s3, e4, e5⟩ := bind_ok e3
          cases e5
          exact fetch_open h2 e4
        · cases e3; exact h2
    cases x with
    | next y => exact ih h1 e
    | done y => cases e; exact h1

theorem pop_open {pre : List TokenType} {s2 t s'} (h2 : Open pre s2) (e : popToken s2 = (.ok t, s')) : Open (pre ++ [t.tt]) s' := by
  unfold popToken at e
  split at e
  · cases e
  · rename_i t' ts ht
    simp only [Prod.mk.injEq, Res.ok.injEq] at e
    obtain ⟨rfl, rfl⟩ := e
    have ht' : ∀ s' : SSt, s'.tokens = ts → pre ++ [t'.tt] ++ typesOf s' = pre ++ typesOf s2 := by
      intro s' hs
      simp [typesOf, hs, ht]
    have hru : ∀ x, (s2.streamEndProduced || x) = true → (s2.streamEndReached || x) = true := by
      intro x hx
      simp only [Bool.or_eq_true] at hx ⊢
      exact hx.imp_left h2.runs.2
    cases h2 with
    | flow hi ha =>
      refine .flow ⟨?_, ?_, ?_, hi.lvl, hi.pos, ⟨hi.runs.1, hru _⟩, by rw [ht' _ rfl]; exact hi.ever⟩ ha
      · rw [ht' _ rfl]; exact hi.noEnd
      · rw [ht' _ rfl]; exact hi.sq
      · rw [ht' _ rfl]; exact hi.br
    | over h1 h2 h3 h4 =>
      refine .over ⟨h1.1, hru _⟩ h2 ?_ ?_
      · rw [ht' _ rfl]; exact h3
      · rw [ht' _ rfl]; exact h4

theorem next_open {cfg : Cfg} {pre : List TokenType} {s t s'} (h : Open pre s) (e : next cfg s = (.ok (some t), s')) : Open (pre ++ [t.tt]) s' := by
  unfold next at e
  split at e
  · cases e
  rename_i hn
  simp only [Bool.or_eq_true, not_or, Bool.not_eq_true] at hn
  have hp : s.streamEndProduced = false := by
    rw [← Bool.not_eq_true]
    intro hx
    rw [h.runs.2 hx] at hn
    cases hn.2
  rcases hq : nextToken cfg s with ⟨r, s1⟩
  rw [hq] at e
  cases r with
  | ok t' =>
    cases e
    unfold nextToken at hq
    rw [gets_bind, hp, if_neg Bool.false_ne_true, gets_bind] at hq
    obtain ⟨_, s2, e2, e⟩ := bind_ok hq
    have h2 : Open pre s2 := by
      unfold when at e2
      split at e2
      · unfold fetchMoreTokens at e2
        obtain ⟨_, s3, e3, e4⟩ := bind_ok e2
        cases e4
        exact (loop_open _ h e3).frame (by fr) rfl rfl
      · cases e2; exact h
    exact pop_open h2 e
  | err x => cases e
  | panic => cases e
  | hang => cases e

theorem scan_open {cfg : Cfg} : ∀ N {pre : List TokenType} {s}, Open pre s → BadT (pre ++ (scan cfg N s).1.map (·.tt)) := by
  intro N
  induction N with
  | zero => intro pre s h; simpa [scan] using h.bad
  | succ N ih =>
    intro pre s h
    rw [scan]
    rcases hn : next cfg s with ⟨r, s1⟩
    cases r with
    | ok o =>
      cases o with
      | some t => simpa using ih (next_open h hn)
      | none => simpa using h.bad
    | err x => simpa using h.bad
    | panic => simpa using h.bad
    | hang => simpa using h.bad

/-- what has been taken has brackets open, or no bracket yet -/
theorem scan_ever {cfg : Cfg} (ho : Pfx.on) : ∀ N {pre : List TokenType} {s}, Open pre s →
    ∀ d e, pre ++ (scan cfg N s).1.map (·.tt) = d ++ e → (∀ t ∈ d, t = .streamStart ∨ t = .key ∨ t = .blockEnd) ∨ Exceeds d := by
  have here : ∀ {pre : List TokenType} {s}, Open pre s → ∀ d e, pre = d ++ e → (∀ t ∈ d, t = .streamStart ∨ t = .key ∨ t = .blockEnd) ∨ Exceeds d := by
    intro pre s h d e hd
    have : Ever (pre ++ typesOf s) := by
      cases h with
      | flow h _ => exact h.ever ho
      | over _ _ _ h => exact h ho
    exact this.1 d (e ++ typesOf s) (by rw [hd]; simp)
  intro N
  induction N with
  | zero => intro pre s h; simpa [scan] using here h
  | succ N ih =>
    intro pre s h
    rw [scan]
    rcases hn : next cfg s with ⟨r, s1⟩
    cases r with
    | ok o =>
      cases o with
      | some t => simpa using ih (next_open h hn)
      | none => simpa using here h
    | err x => simpa using here h
    | panic => simpa using here h
    | hang => simpa using here h

end

/-! ## With the tokens taken late -/

/-- fetching gets into a flow collection that is not closed -/
def Strays (cfg : Cfg) (e : SSt) : Prop := ∃ n eD, Fetches cfg n e eD ∧ (Runs eD → Open [] eD)

theorem Strays.before {cfg n e e'} (hf : Fetches cfg n e e') (h : Strays cfg e') : Strays cfg e := by
  obtain ⟨m, eD, h1, h2⟩ := h
  exact ⟨_, eD, hf.trans h1, h2⟩

theorem strays_stale {cfg e e0} (hst : e.streamStartProduced = true) (hs : staleSimpleKeys e = (.ok (), e0)) (h : Strays cfg e) : Strays cfg e0 := by
  obtain ⟨n, eD, h1, h2⟩ := h
  cases h1 with
  | refl =>
    obtain ⟨f, g1, g2⟩ := stale_fr hs
    exact ⟨0, e0, .refl, fun h => (h2 (h.of f.marks.symm)).frame f g1 g2⟩
  | step h4 h5 =>
    obtain ⟨e0', hs', h6⟩ := stale_fetch hst h4
    rw [hs] at hs'
    simp only [Prod.mk.injEq, true_and] at hs'
    subst hs'
    exact ⟨_, eD, .step h6 h5, h2⟩

/-- an open collection, seen when `p` tokens have been taken -/
theorem view_open {p pre e} (ho : EOk p pre e) (h : Runs e → Open [] e) : Open (pre.map (·.tt)) (view p e) := by
  have h : Open [] e := h (by
    have fl := ho.flag
    simp only [flags, Prod.mk.injEq] at fl
    exact ⟨fl.2.2.2.2, by simp [fl.2.2.2.1]⟩)
  have ht : pre.map (·.tt) ++ typesOf (view p e) = [] ++ typesOf e := by
    rw [← ho.taken]
    show (e.tokens.take p).map (·.tt) ++ (e.tokens.drop p).map (·.tt) = _
    rw [← List.map_append, List.take_append_drop]
    rfl
  cases h with
  | flow hi ha =>
    refine .flow ⟨?_, ?_, ?_, hi.lvl, hi.pos, hi.runs, fun ho => ho.elim⟩ ha
    · rw [ht]; exact hi.noEnd
    · rw [ht]; exact hi.sq
    · rw [ht]; exact hi.br
  | over h1 h2 h3 _ => exact .over h1 h2 (by rw [ht]; exact h3) fun ho => ho.elim

theorem fetchMore_strays {cfg p pre} : ∀ {m e a s}, EOk p pre e → Strays cfg e → loopM (fetchMoreBody cfg) m () (view p e) = (.ok a, s) →
    Open (pre.map (·.tt)) s ∨ ∃ e', s = view p e' ∧ EOk p pre e' ∧ p < e'.tokens.length ∧ (∀ k ∈ e'.simpleKeys, k.possible = true → p < k.tokenNumber) ∧ Strays cfg e' := by
  intro m
  induction m with
  | zero => intro e a s _ _ hx; simp [loopM, hang] at hx
  | succ m ih =>
    intro e a s ho hd hx
    have hst : e.streamStartProduced = true := by have := ho.flag; simp [flags] at this; exact this.2.2.2.2
    obtain ⟨n, eD, h1, h2⟩ := hd
    cases h1 with
    | refl => exact .inl (loop_open _ (view_open ho h2) hx)
    | step h4 h5 =>
      have hd : Strays cfg e := ⟨_, eD, .step h4 h5, h2⟩
      have fetch : ∀ e1, EOk p pre e1 → Strays cfg e1 → fetchMoreBody cfg () (view p e) = (fetchNextToken cfg >>= fun _ => (pure (Loop.next ()) : SM (Loop Unit Unit))) (view p e1) →
          Open (pre.map (·.tt)) s ∨ ∃ e', s = view p e' ∧ EOk p pre e' ∧ p < e'.tokens.length ∧ (∀ k ∈ e'.simpleKeys, k.possible = true → p < k.tokenNumber) ∧ Strays cfg e' := by
        intro e1 ho1 hd1 hb
        obtain ⟨n, eD, h1, h2⟩ := hd1
        cases h1 with
        | refl =>
          left
          rw [loopM] at hx
          obtain ⟨x, s1, e1', e2'⟩ := bind_ok hx
          rw [hb] at e1'
          obtain ⟨_, s2, e3', e4'⟩ := bind_ok e1'
          cases e4'
          exact loop_open _ (fetch_open (view_open ho1 h2) e3') e2'
        | step h4 h5 =>
          rename_i n e2
          obtain ⟨h6, ho2⟩ := (sim_fetchNextToken _ ho1).1 _ _ h4
          have hb' : fetchMoreBody cfg () (view p e) = (.ok (.next ()), view p e2) := by
            rw [hb, bind_run h6]
            rfl
          rw [loop_next hb'] at hx
          exact ih ho2 ⟨_, eD, h5, h2⟩ hx
      by_cases hq : e.tokens.length = p
      · refine fetch e ho hd ?_
        unfold fetchMoreBody
        have he : (view p e).tokens.isEmpty = true := by simp [view]; omega
        ev [he]
      · have hq' : p < e.tokens.length := by have := ho.len; omega
        have he : (view p e).tokens.isEmpty = false := by simp [view]; omega
        rcases hs : staleSimpleKeys e with ⟨r, e0⟩
        by_cases hr : r = .ok ()
        · subst hr
          obtain ⟨hs2, ho0⟩ := (sim_staleSimpleKeys _ ho).1 _ _ hs
          have hd0 := strays_stale hst hs hd
          have hq0 : p < e0.tokens.length := by rw [(stale_ok hs).2]; exact hq'
          by_cases hmo : ((view p e0).simpleKeys.any fun k => k.possible && k.tokenNumber == (view p e0).tokensParsed) = true
          · refine fetch e0 ho0 hd0 ?_
            unfold fetchMoreBody
            ev [he]
            rw [bind_run hs2]
            ev [hmo]
          · right
            have hdone : fetchMoreBody cfg () (view p e) = (.ok (.done ()), view p e0) := by
              unfold fetchMoreBody
              ev [he]
              rw [bind_run hs2]
              rw [Bool.not_eq_true] at hmo
              ev [hmo]
            rw [loop_done hdone] at hx
            cases hx
            refine ⟨e0, rfl, ho0, hq0, fun k hkk hp => ?_, hd0⟩
            have h1 := ho0.keys k hkk hp
            have h2 : ¬ k.tokenNumber = p := by
              intro hx
              refine hmo ?_
              rw [List.any_eq_true]
              exact ⟨k, hkk, by simp [hp, hx, view]⟩
            omega
        · exfalso
          refine loop_fails (fun a s hx => ?_) _ _ hx
          unfold fetchMoreBody at hx
          rw [gets_bind, he, if_neg Bool.false_ne_true] at hx
          obtain ⟨a', s', h4, -⟩ := bind_ok hx
          rcases (sim_staleSimpleKeys _ ho).2 _ _ h4 with ⟨e', h1⟩ | h1
          · rw [hs] at h1
            simp only [Prod.mk.injEq] at h1
            exact hr h1.1
          · unfold staleSimpleKeys at h1
            split at h1 <;> simp [Anch] at h1

/-- the tokens that have been taken -/
theorem Strays.taken {cfg p pre e} (ho : EOk p pre e) (h : Strays cfg e) : BadT (pre.map (·.tt)) := by
  obtain ⟨n, eD, h1, h3⟩ := h
  have : EOk p pre eD := by
    clear h3
    induction h1 with
    | refl => exact ho
    | step h2 _ ih => exact ih ((sim_fetchNextToken _ ho).1 _ _ h2).2
  exact (view_open this h3).bad

theorem next_strays {cfg p pre e t s} (ho : EOk p pre e) (hd : Strays cfg e) (hx : next cfg (view p e) = (.ok (some t), s)) :
    Open ((pre ++ [t]).map (·.tt)) s ∨ ∃ e', EOk (p + 1) (pre ++ [t]) e' ∧ Strays cfg e' ∧ (s = view (p + 1) e' ∨ s.streamEndReached = true) := by
  have fl := ho.flag
  simp only [flags, Prod.mk.injEq] at fl
  have e1 : (view p e).streamEndProduced = false := fl.2.2.2.1
  have e2 : (view p e).tokensAvailable = false := fl.2.2.1
  have e3 : ((view p e).error.isSome || (view p e).streamEndReached) = false := by
    show (e.error.isSome || e.streamEndReached) = false
    simp [fl]
  unfold next at hx
  rw [e3, if_neg Bool.false_ne_true] at hx
  rcases hq : nextToken cfg (view p e) with ⟨r, s1⟩
  rw [hq] at hx
  cases r with
  | ok t' =>
    cases hx
    unfold nextToken at hq
    rw [gets_bind, e1, if_neg Bool.false_ne_true, gets_bind, e2] at hq
    obtain ⟨_, s2, h2, hp⟩ := bind_ok hq
    rw [Bool.not_false] at h2
    unfold when at h2
    rw [if_pos rfl] at h2
    unfold fetchMoreTokens at h2
    obtain ⟨_, s3, h3, h4⟩ := bind_ok h2
    cases h4
    rcases fetchMore_strays ho hd h3 with h5 | ⟨e', rfl, ho', hl', hk', hd'⟩
    · left
      rw [List.map_append]
      exact pop_open (Open.frame h5 (s' := { s3 with tokensAvailable := true }) (by fr) rfl rfl) hp
    · right
      have fl' := ho'.flag
      simp only [flags, Prod.mk.injEq] at fl'
      have hd2 : e'.tokens.drop p = e'.tokens[p] :: e'.tokens.drop (p + 1) := List.drop_eq_getElem_cons hl'
      have ho2 : EOk (p + 1) (pre ++ [e'.tokens[p]]) e' := by
        refine ⟨ho'.zero, hl', ho'.flag, ?_, fun k h1 h2 => hk' k h1 h2⟩
        rw [List.take_add_one, ho'.taken, List.getElem?_eq_getElem hl']
        rfl
      by_cases ht : e'.tokens[p].tt = .streamEnd
      · have hp' : ∃ s9, popToken { view p e' with tokensAvailable := true } = (.ok e'.tokens[p], s9) ∧ s9.streamEndReached = true := by
          unfold popToken
          simp only [view, hd2]
          exact ⟨_, rfl, by simp [ht]⟩
        obtain ⟨s9, h8, h9⟩ := hp'
        have hp : popToken { view p e' with tokensAvailable := true } = (.ok t, s) := hp
        rw [h8] at hp
        simp only [Prod.mk.injEq, Res.ok.injEq] at hp
        obtain ⟨rfl, rfl⟩ := hp
        exact ⟨e', ho2, hd', .inr h9⟩
      · have hne : (e'.tokens[p].tt == TokenType.streamEnd) = false := by simpa using ht
        have hp' : popToken { view p e' with tokensAvailable := true } = (.ok e'.tokens[p], view (p + 1) e') := by
          unfold popToken
          simp only [view, hd2, fl', hne, Bool.or_false]
        have hp : popToken { view p e' with tokensAvailable := true } = (.ok t, s) := hp
        rw [hp'] at hp
        simp only [Prod.mk.injEq, Res.ok.injEq] at hp
        obtain ⟨rfl, rfl⟩ := hp
        exact ⟨e', ho2, hd', .inl rfl⟩
  | err x => cases hx
  | panic => cases hx
  | hang => cases hx

theorem scan_reached {cfg : Cfg} {s : SSt} (h : s.streamEndReached = true) : ∀ N, (scan cfg N s).1 = []
  | 0 => rfl
  | N + 1 => by
    rw [scan]
    have : next cfg s = (.ok none, s) := by unfold next; simp [h]
    rw [this]

theorem view_strays {cfg} : ∀ (N : Nat) {p pre e}, EOk p pre e → Strays cfg e → BadT (pre.map (·.tt) ++ (scan cfg N (view p e)).1.map (·.tt)) := by
  intro N
  induction N with
  | zero => intro p pre e ho hd; simpa [scan] using hd.taken ho
  | succ N ih =>
    intro p pre e ho hd
    rw [scan]
    rcases hn : next cfg (view p e) with ⟨r, s⟩
    cases r with
    | ok o =>
      cases o with
      | some t =>
        have hs : pre.map (·.tt) ++ (t :: (scan cfg N s).1).map (·.tt) = (pre ++ [t]).map (·.tt) ++ (scan cfg N s).1.map (·.tt) := by simp
        show BadT (pre.map (·.tt) ++ (t :: (scan cfg N s).1).map (·.tt))
        rw [hs]
        rcases next_strays ho hd hn with h | ⟨e', ho', hd', rfl | h⟩
        · exact scan_open N h
        · exact ih ho' hd'
        · rw [scan_reached h]
          simpa using hd'.taken ho'
      | none => simpa using hd.taken ho
    | err x => simpa using hd.taken ho
    | panic => simpa using hd.taken ho
    | hang => simpa using hd.taken ho

/-- If fetching gets into a flow collection that is not closed, the tokens of the whole text are out of balance. -/
theorem scan_strays {cfg input} (hf : 2 ≤ cfg.fuel) (h : Strays cfg (fetchStreamStart (Scanner.new input)).2) (N : Nat) : BadT ((scanInput cfg input N).1.map (·.tt)) := by
  cases N with
  | zero => exact badT_of (by simp [scanInput, scan])
  | succ N =>
    have hb1 : fetchMoreBody cfg () (Scanner.new input) = (.ok (.next ()), (fetchStreamStart (Scanner.new input)).2) := rfl
    have hb2 : fetchMoreBody cfg () (fetchStreamStart (Scanner.new input)).2 = (.ok (.done ()), (fetchStreamStart (Scanner.new input)).2) := rfl
    obtain ⟨m, hm⟩ : ∃ m, cfg.fuel = m + 2 := ⟨cfg.fuel - 2, by omega⟩
    have hl : loopM (fetchMoreBody cfg) cfg.fuel () (Scanner.new input) = (.ok (), (fetchStreamStart (Scanner.new input)).2) := by
      rw [hm]
      exact (loop_next hb1).trans (loop_done hb2)
    have hfm : fetchMoreTokens cfg (Scanner.new input) =
        (.ok (), { (fetchStreamStart (Scanner.new input)).2 with tokensAvailable := true }) := by
      unfold fetchMoreTokens
      rw [bind_run hl]
      rfl
    have hnt : nextToken cfg (Scanner.new input) = (.ok ⟨Span.empty ⟨0, 1, 1⟩, .streamStart⟩, view 1 (fetchStreamStart (Scanner.new input)).2) := by
      unfold nextToken
      rw [gets_bind, if_neg (by exact Bool.false_ne_true), gets_bind, show (!(Scanner.new input).tokensAvailable) = true from rfl]
      unfold when
      rw [if_pos rfl, bind_run hfm]
      rfl
    have ho : EOk 1 [⟨Span.empty ⟨0, 1, 1⟩, .streamStart⟩] (fetchStreamStart (Scanner.new input)).2 := by
      refine ⟨rfl, Nat.le_refl _, rfl, rfl, fun k hk hp => ?_⟩
      obtain rfl : k = SimpleKey.new Marker.default := by simpa [fetchStreamStart, upd, Scanner.new] using hk
      cases hp
    have hi := view_strays N ho h
    unfold scanInput
    rw [scan]
    have hnx : next cfg (Scanner.new input) = (.ok (some ⟨Span.empty ⟨0, 1, 1⟩, .streamStart⟩), view 1 (fetchStreamStart (Scanner.new input)).2) := by
      unfold next
      rw [show ((Scanner.new input).error.isSome || (Scanner.new input).streamEndReached) = false from rfl, hnt]
      rfl
    rw [hnx]
    exact hi

/-- fetching fails before the end of the stream, or gets into a flow collection that is not closed -/
def Lost (cfg : Cfg) (e : SSt) : Prop := Doomed cfg e ∨ Strays cfg e

theorem Lost.before {cfg n e e'} (hf : Fetches cfg n e e') (h : Lost cfg e') : Lost cfg e := h.imp (.before hf) (.before hf)

theorem scan_lost {cfg input} (hf : 2 ≤ cfg.fuel) (h : Lost cfg (fetchStreamStart (Scanner.new input)).2) (N : Nat) : BadT ((scanInput cfg input N).1.map (·.tt)) := by
  rcases h with h | h
  · refine badT_of fun hm => ?_
    obtain ⟨t, h1, h2⟩ := List.mem_map.1 hm
    exact (scan_doomed h N).2 t h1 h2
  · exact scan_strays hf h N

end Verif.Scanner
