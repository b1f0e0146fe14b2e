import Verif.Lemmas.ParserRun
import Verif.Lemmas.Brackets
/-!
# Brackets among the tokens of a node that the parser has finished

Every state of the parser stands for a number of open `[` and of open `{`. A step takes at most as many as it accounts for.
-/
set_option linter.unusedVariables false
namespace Verif.Parser
open Verif Verif.Grammar Verif.Spec Verif.Scanner

/-- open `[` -/
def sqSt : PState → Int
  | .flowSequenceEntry | .flowSequenceEntryMappingKey | .flowSequenceEntryMappingValue | .flowSequenceEntryMappingEnd _ => 1
  | _ => 0

/-- open `{` -/
def brSt : PState → Int
  | .flowMappingKey | .flowMappingValue | .flowMappingEmptyValue | .flowMappingFirstKeyCont => 1
  | _ => 0

def sqSts : List PState → Int
  | [] => 0
  | x :: xs => sqSt x + sqSts xs

def brSts : List PState → Int
  | [] => 0
  | x :: xs => brSt x + brSts xs

abbrev kinds (u : List Token) : List TokenType := u.map (·.tt)

theorem sq_one (t : TokenType) : sqOf [t] = (if t = .flowSequenceStart then 1 else 0) - (if t = .flowSequenceEnd then 1 else 0) := by
  simp [sqOf, List.count_cons]; split <;> split <;> simp_all

theorem br_one (t : TokenType) : brOf [t] = (if t = .flowMappingStart then 1 else 0) - (if t = .flowMappingEnd then 1 else 0) := by
  simp [brOf, List.count_cons]; split <;> split <;> simp_all

theorem sq_two (t t' : TokenType) : sqOf [t, t'] = sqOf [t] + sqOf [t'] := sqOf_cons _ _
theorem br_two (t t' : TokenType) : brOf [t, t'] = brOf [t] + brOf [t'] := brOf_cons _ _

/-- what is taken, with `k` and `j` brackets open at the start besides those of the stack -/
def Cnt (k j : Int) (s s' : PSt) : Prop :=
  ∃ u, pend s = u ++ pend s' ∧ sqOf (kinds u) + k + sqSts s.states ≤ sqSt s'.state + sqSts s'.states ∧
    brOf (kinds u) + j + brSts s.states = brSt s'.state + brSts s'.states

theorem Cnt.of {k j k' j' s s1 s'} (pre : List Token) (h : Cnt k' j' s1 s') (hp : pend s = pre ++ pend s1) (h1 : sqOf (kinds pre) + k + sqSts s.states ≤ k' + sqSts s1.states)
    (h2 : brOf (kinds pre) + j + brSts s.states = j' + brSts s1.states) : Cnt k j s s' := by
  obtain ⟨u, h3, h4, h5⟩ := h
  refine ⟨pre ++ u, by rw [hp, h3, List.append_assoc], ?_, ?_⟩
  · simp only [kinds, List.map_append, sqOf_append] at *; omega
  · simp only [kinds, List.map_append, brOf_append] at *; omega

set_option hygiene false in
macro "cnt_with" pre:term : tactic => `(tactic| (
  refine ⟨$pre, ?_, ?_, ?_⟩
  · simp_all
  · first
    | (simp_all [sqSt, sqSts, sq_one, sq_two]; done)
    | (simp_all [sqSt, sqSts, sq_one, sq_two]; omega)
  · first
    | (simp_all [brSt, brSts, br_one, br_two]; done)
    | (simp_all [brSt, brSts, br_one, br_two]; omega)
  done))

set_option hygiene false in
macro "cntn_with" pre:term : tactic => `(tactic| (
  refine wp_mono (parseNode_cnt (by first | exact hne | simp)) (fun r s' h => ?_) (fun _ _ => trivial)
  refine Cnt.of $pre h ?_ ?_ ?_
  · simp_all
  · first
    | (simp_all [sqSt, sqSts, sq_one, sq_two]; done)
    | (simp_all [sqSt, sqSts, sq_one, sq_two]; omega)
  · first
    | (simp_all [brSt, brSts, br_one, br_two]; done)
    | (simp_all [brSt, brSts, br_one, br_two]; omega)
  done))

set_option hygiene false in
macro "cnt_tac" : tactic => `(tactic| (
  wp_run
  all_goals first
    | trivial
    | contradiction
    | exact hne (by assumption)
    | skip
  all_goals (try simp only [pend_mk, pend_mk', List.cons.injEq] at *)
  all_goals subst_vars
  all_goals first
    | cnt_with []
    | cnt_with ((pend s).take 1)
    | cnt_with ((pend s).take 2)
    | cntn_with []
    | cntn_with ((pend s).take 1)
    | cntn_with ((pend s).take 2)
    | skip))

theorem parseNodeContent_cnt {b i id tag s} (hne : s.states ≠ []) :
    wp (parseNodeContent b i id tag) (fun r s' => Cnt 0 0 s s') (fun _ => True) s := by
  unfold parseNodeContent
  wp_run
  all_goals first
    | trivial
    | exact hne (by assumption)
    | skip
  all_goals first
    | cnt_with []
    | cnt_with ((pend s).take 1)

attribute [local irreducible] parseNodeContent

theorem parseNode_cnt {b i s} (hne : s.states ≠ []) : wp (parseNode b i) (fun r s' => Cnt 0 0 s s') (fun _ => True) s := by
  unfold parseNode
  wp_run
  all_goals first
    | trivial
    | exact hne (by assumption)
    | skip
  all_goals (try simp only [pend_mk, pend_mk', List.cons.injEq] at *)
  all_goals subst_vars
  all_goals first
    | cnt_with ((pend s).take 1)
    | (refine wp_mono (parseNodeContent_cnt hne) (fun r s' h => ?_) (fun _ _ => trivial)
       first
       | (refine Cnt.of [] h ?_ ?_ ?_ <;> simp_all [sq_one, br_one]; done)
       | (refine Cnt.of ((pend s).take 1) h ?_ ?_ ?_ <;> simp_all [sq_one, br_one]; done)
       | (refine Cnt.of ((pend s).take 2) h ?_ ?_ ?_ <;> simp_all [sq_one, br_one, sq_two, br_two]; done))

attribute [local irreducible] parseNode

/-- one step inside a document -/
theorem dispatch_cnt {s} (hd : docLevel s.state = false) (hh : HeadOK s) (hne : s.states ≠ []) :
    wp (dispatch s.state) (fun r s' => Cnt (sqSt s.state) (brSt s.state) s s') (fun _ => True) s := by
  cases hs : s.state <;> simp only [hs, docLevel] at hd <;> try exact absurd hd (by decide)
  all_goals simp only [HeadOK, hs] at hh
  all_goals first | exact hh.elim | skip
  all_goals simp only [dispatch, sqSt, brSt]
  case documentContent => unfold documentContent; cnt_tac
  case blockNode => exact parseNode_cnt hne
  case blockSequenceFirstEntry => unfold blockSequenceEntry; cnt_tac
  case blockSequenceEntry => unfold blockSequenceEntry; cnt_tac
  case indentlessSequenceEntry => unfold indentlessSequenceEntry; cnt_tac
  case blockMappingFirstKey => unfold blockMappingKey; cnt_tac
  case blockMappingKey => unfold blockMappingKey; cnt_tac
  case blockMappingValue => unfold blockMappingValue; cnt_tac
  case flowSequenceFirstEntry => unfold flowSequenceEntry flowSequenceEntryRest; cnt_tac
  case flowSequenceEntry => unfold flowSequenceEntry flowSequenceEntryRest; cnt_tac
  case flowSequenceEntryMappingKey => unfold flowSequenceEntryMappingKey; cnt_tac
  case flowSequenceEntryMappingValue => unfold flowSequenceEntryMappingValue; cnt_tac
  case flowSequenceEntryMappingEnd => unfold flowSequenceEntryMappingEnd; wp_run; exact ⟨[], rfl, by simp [sqSt], by simp [brSt]⟩
  case flowMappingFirstKey => unfold flowMappingKey; cnt_tac
  case flowMappingKey => unfold flowMappingKey; cnt_tac
  case flowMappingValue => unfold flowMappingValue; cnt_tac
  case flowMappingEmptyValue => unfold flowMappingValue; cnt_tac

/-! ## From the beginning of the stream -/

/-- a token with which a flow collection can begin, or that no document can begin with -/
def Opens (t : TokenType) : Prop := t = .flowSequenceStart ∨ t = .flowMappingStart ∨ t = .key ∨ t = .streamStart ∨ t = .blockEnd

theorem wp_processDirectives {Q : Unit → PSt → Prop} {E s} (h : wp (processDirectivesLoop (s.toks.length + 2) false) Q E s) : wp processDirectives Q E s := by
  unfold wp at *
  exact h

theorem documentStart_opens {s t r} (hs : s.states = []) (hp : pend s = t :: r) (ht : Opens t.tt) :
    wp (documentStart true) (fun x s' => pend s' = pend s ∧ s'.state = .blockNode ∧ s'.states = [.documentEnd]) (fun _ => True) s := by
  unfold documentStart skipDocumentEnds
  simp only [Opens] at ht
  wp_run
  all_goals try trivial
  all_goals simp only [pend_mk, pend_mk', hp, List.cons.injEq] at *
  all_goals subst_vars
  all_goals try simp_all
  all_goals refine wp_processDirectives ?_
  all_goals unfold processDirectivesLoop
  all_goals wp_run
  all_goals simp_all

theorem parseNode_opens {s t r} (hne : s.states ≠ []) (hp : pend s = t :: r) (ht : Opens t.tt) :
    wp (parseNode true false) (fun x s' => pend s' = pend s ∧ (s'.state = .flowSequenceFirstEntry ∨ s'.state = .flowMappingFirstKey) ∧ s'.states = s.states) (fun _ => True) s := by
  simp only [Opens] at ht
  unfold parseNode parseNodeContent
  wp_run
  all_goals try trivial
  all_goals first | exact absurd ‹_› hne | skip
  all_goals simp only [pend_mk, pend_mk', hp, List.cons.injEq] at *
  all_goals subst_vars
  all_goals simp_all

theorem Cnt.le {k j s s'} (h : Cnt k j s s') : (pend s').length ≤ (pend s).length := by
  obtain ⟨u, h, -⟩ := h
  rw [h, List.length_append]; omega

/-- the step after an opening bracket takes it -/
theorem first_takes {s} (hne : s.states ≠ []) (hst : s.state = .flowSequenceFirstEntry ∨ s.state = .flowMappingFirstKey) :
    wp (dispatch s.state) (fun r s' => (pend s').length < (pend s).length) (fun _ => True) s := by
  have hn : ∀ {b i s1}, s1.states ≠ [] → (pend s1).length < (pend s).length → wp (parseNode b i) (fun r s' => (pend s').length < (pend s).length) (fun _ => True) s1 :=
    fun h1 h2 => wp_mono (parseNode_cnt h1) (fun _ _ h => Nat.lt_of_le_of_lt h.le h2) fun _ _ => trivial
  rcases hst with hs | hs <;> rw [hs] <;> simp only [dispatch]
  · unfold flowSequenceEntry flowSequenceEntryRest
    wp_run
    all_goals first
      | trivial
      | contradiction
      | exact hne (by assumption)
      | skip
    all_goals (try simp only [pend_mk, pend_mk', List.cons.injEq] at *)
    all_goals first
      | (refine hn (by simp) ?_; simp_all; done)
      | (simp_all; done)
      | (simp_all; omega)
  · unfold flowMappingKey
    wp_run
    all_goals first
      | trivial
      | contradiction
      | exact hne (by assumption)
      | skip
    all_goals (try simp only [pend_mk, pend_mk', List.cons.injEq] at *)
    all_goals first
      | (refine hn (by simp) ?_; simp_all; done)
      | (refine hn (by simp) ?_; simp_all; omega)
      | (simp_all; done)
      | (simp_all; omega)

def opener (t : TokenType) : Prop := t = .flowSequenceStart ∨ t = .flowMappingStart

/-- before the first bracket is taken -/
def Early (a : Token) (rest : List Token) (s : PSt) : Prop :=
  (s.state = .streamStart ∧ s.states = [] ∧ pend s = a :: rest) ∨
  (a.tt = .streamStart ∧ pend s = rest ∧
    (s.state = .implicitDocumentStart ∧ s.states = [] ∨
      (s.state = .blockNode ∨ s.state = .flowSequenceFirstEntry ∨ s.state = .flowMappingFirstKey) ∧ s.states = [.documentEnd]))

/-- after it, in the same document -/
def Late (s0 s : PSt) : Prop :=
  (docLevel s.state = false ∨ s.state = .documentEnd) ∧
  ∃ u, pend s0 = u ++ pend s ∧ sqOf (kinds u) ≤ sqSt s.state + sqSts s.states ∧ brOf (kinds u) = brSt s.state + brSts s.states ∧ ∃ x ∈ kinds u, opener x

/-- a successful step -/
theorem wp_ok {α} {m : PM α} {Q : α → PSt → Prop} {E s a s'} (h : wp m Q E s) (e : m s = (.ok a, s')) : Q a s' := by
  unfold wp at h
  rw [e] at h
  exact h.2

theorem late_level {s ev s'} (hi : Inv s') (hb : DocBottom (frames s)) (hg : step (frames s) ev = some (frames s')) (h1 : ev ≠ .documentEnd) (h2 : ev ≠ .streamEnd) (h3 : frames s ≠ [.streamStart]) :
    docLevel s'.state = false ∨ s'.state = .documentEnd := by
  rcases docBottom_step hb hg with ⟨h, _⟩ | ⟨_, h, _⟩ | ⟨h, _⟩ | ⟨_, l, h, _⟩
  · exact absurd h h2
  · exact absurd h h3
  · exact absurd h h1
  · have hgood := hi.good
    by_cases hd : docLevel s'.state = true
    · right
      simp only [Good, hd, if_true] at hgood
      have hl := congrArg List.getLast? h
      simp only [frames, hgood, frStack, List.append_nil] at hl
      cases hs : s'.state <;> rw [hs] at hd hl <;> simp [docLevel, fr] at hd hl
    · left; simpa using hd

theorem run_count {s0 : PSt} (h0 : RunFacts s0 [] s0) (hst : s0.state = .streamStart) (hss : s0.states = []) {a rest} (hp : pend s0 = a :: rest) (hr : ∀ t r, rest = t :: r → Opens t.tt)
    {evs s} (h : Delivers s0 evs s) (hd : .documentEnd ∉ evs) (he : .streamEnd ∉ evs) : Early a rest s ∨ Late s0 s := by
  induction h with
  | nil => exact .inl (.inl ⟨hst, hss, hp⟩)
  | @snoc evs s ev sp s' hdl hn ih =>
    simp only [List.mem_append, List.mem_singleton, not_or] at hd he
    have rf := run_facts h0 hdl
    obtain ⟨hse, s1, hi1, ho, hinv, -, rfl⟩ := next_facts rf.invc rf.live hn
    rw [if_neg (Ne.symm he.2)]
    have hb := rf.live hse
    have hne : s.state ≠ .endState := by
      intro hx
      have := frames_end rf.invc.inv hx
      rcases hb with h | h | ⟨l, h, _⟩ <;> rw [h] at this <;> simp at this
    have hdis : dispatch s.state s = (.ok (ev, sp), s1) := by
      simpa [nextEventImpl, rf.invc.cur, parse, hne, stateMachine] using hi1
    rcases ih hd.1 he.1 with (⟨e1, e2, e3⟩ | ⟨ea, e3, ⟨e1, e2⟩ | ⟨e1, e2⟩⟩) | ⟨hlv, u, hu, hsq, hbr, hop⟩
    · -- the beginning
      left; right
      rw [e1] at hdis
      have hw : wp streamStart (fun r s' => a.tt = .streamStart ∧ pend s' = rest ∧ s'.state = .implicitDocumentStart ∧ s'.states = []) (fun _ => True) s := by
        unfold streamStart
        wp_run
        all_goals first | trivial | skip
        all_goals simp_all
      obtain ⟨h1, h2, h3⟩ := wp_ok hw hdis
      exact ⟨h1, h2, .inl h3⟩
    · left; right
      rw [e1] at hdis
      cases hrest : rest with
      | nil =>
        exfalso
        have hw : wp (documentStart true) (fun _ _ => False) (fun _ => True) s := by
          unfold documentStart skipDocumentEnds
          wp_run
          all_goals first | trivial | skip
          all_goals simp_all
        exact wp_ok hw hdis
      | cons t r =>
        obtain ⟨h1, h2, h3⟩ := wp_ok (documentStart_opens e2 (e3.trans hrest) (hr t r hrest)) hdis
        exact ⟨ea, by rw [h1, e3, hrest], .inr ⟨.inl h2, h3⟩⟩
    · rcases e1 with e1 | e1
      · left; right
        rw [e1] at hdis
        have hne' : s.states ≠ [] := by rw [e2]; simp
        cases hrest : rest with
        | nil =>
          exfalso
          have hw : wp (parseNode true false) (fun _ _ => False) (fun _ => True) s := by
            unfold parseNode
            wp_run
            all_goals first | trivial | skip
            all_goals simp_all
          exact wp_ok hw hdis
        | cons t r =>
          obtain ⟨h1, h2, h3⟩ := wp_ok (parseNode_opens hne' (e3.trans hrest) (hr t r hrest)) hdis
          exact ⟨ea, by rw [h1, e3, hrest], .inr ⟨.inr h2, by rw [h3, e2]⟩⟩
      · right
        have hne' : s.states ≠ [] := by rw [e2]; simp
        have hlv : docLevel s.state = false := by rcases e1 with e1 | e1 <;> rw [e1] <;> rfl
        have hz : sqSt s.state = 0 ∧ brSt s.state = 0 := by rcases e1 with e1 | e1 <;> rw [e1] <;> exact ⟨rfl, rfl⟩
        obtain ⟨u, hu, hsq, hbr⟩ := wp_ok (dispatch_cnt hlv rf.invc.inv.head hne') hdis
        have hlt := wp_ok (first_takes hne' e1) hdis
        have hfr : frames s ≠ [.streamStart] := by rcases e1 with e1 | e1 <;> simp [frames, e1, fr]
        refine ⟨late_level hinv.inv hb ho.gram (Ne.symm hd.2) (Ne.symm he.2) hfr, a :: u, by rw [hp, ← e3, hu]; rfl, ?_, ?_, ?_⟩
        · have : sqOf (kinds (a :: u)) = sqOf (kinds u) := by simp only [kinds, List.map_cons, ea]; rw [sqOf_cons]; simp [sq_one]
          rw [this]
          rw [e2, hz.1] at hsq
          simp [sqSts, sqSt] at hsq
          exact hsq
        · have : brOf (kinds (a :: u)) = brOf (kinds u) := by simp only [kinds, List.map_cons, ea]; rw [brOf_cons]; simp [br_one]
          rw [this]
          rw [e2, hz.2] at hbr
          simp [brSts, brSt] at hbr
          exact hbr
        · cases u with
          | nil => rw [List.nil_append] at hu; rw [hu] at hlt; exact absurd hlt (Nat.lt_irrefl _)
          | cons t u =>
            refine ⟨t.tt, by simp [kinds], ?_⟩
            have hh := rf.invc.inv.head
            unfold HeadOK at hh
            rcases e1 with e1 | e1 <;> rw [e1] at hh <;> simp [hu] at hh
            · exact .inl hh
            · exact .inr hh
    · right
      rcases hlv with hlv | hlv
      · have hgood := rf.invc.inv.good
        simp only [Good, hlv, Bool.false_eq_true, if_false] at hgood
        obtain ⟨v, hv, hsq', hbr'⟩ := wp_ok (dispatch_cnt hlv rf.invc.inv.head hgood.ne_nil) hdis
        have hfr : frames s ≠ [.streamStart] := by
          intro hf
          cases hs : s.state <;> rw [hs] at hlv <;> simp [docLevel] at hlv <;> simp [frames, hs, fr] at hf
        refine ⟨late_level hinv.inv hb ho.gram (Ne.symm hd.2) (Ne.symm he.2) hfr, u ++ v, by rw [hu, hv, List.append_assoc], ?_, ?_, ?_⟩
        · simp only [kinds, List.map_append, sqOf_append] at *; omega
        · simp only [kinds, List.map_append, brOf_append] at *; omega
        · obtain ⟨x, hx, hx'⟩ := hop
          exact ⟨x, by simp only [kinds, List.map_append, List.mem_append] at *; exact .inl hx, hx'⟩
      · exfalso
        have hgood := rf.invc.inv.good
        rw [Good, hlv] at hgood
        simp [docLevel] at hgood
        have := ho.gram
        simp only [frames, hlv, hgood, fr, frStack, List.append_nil] at this
        cases ev <;> simp [step, after] at this
        exact hd.2 rfl

/-- if the root node has been delivered, the brackets are closed in what was taken for it -/
theorem root_count {s0 : PSt} (h0 : RunFacts s0 [] s0) (hst : s0.state = .streamStart) (hss : s0.states = []) {a rest} (hp : pend s0 = a :: rest) (hr : ∀ t r, rest = t :: r → Opens t.tt)
    {evs s} (h : Delivers s0 evs s) (hd : .documentEnd ∉ evs) (he : .streamEnd ∉ evs) (hf : frames s = [.docEnd]) :
    ∃ u, pend s0 = u ++ pend s ∧ sqOf (kinds u) ≤ 0 ∧ brOf (kinds u) = 0 ∧ ∃ x ∈ kinds u, opener x := by
  have rf := run_facts h0 h
  have hg := rf.invc.inv.good
  have hs : s.state = .documentEnd ∧ s.states = [] := by
    simp only [frames] at hf
    by_cases hd : docLevel s.state = true
    · simp only [Good, hd, if_true] at hg
      rw [hg] at hf
      cases hs : s.state <;> rw [hs] at hf <;> simp [fr, frStack] at hf
      exact ⟨rfl, hg⟩
    · exfalso
      cases hs : s.state <;> rw [hs] at hf hd <;> simp [fr, docLevel] at hf hd
  rcases run_count h0 hst hss hp hr h hd he with (⟨e, _⟩ | ⟨_, _, ⟨e, _⟩ | ⟨e, _⟩⟩) | ⟨_, u, h1, h2, h3, h4⟩
  · rw [hs.1] at e; cases e
  · rw [hs.1] at e; cases e
  · rw [hs.1] at e; rcases e with e | e | e <;> cases e
  · refine ⟨u, h1, ?_, ?_, h4⟩
    · rw [hs.1, hs.2] at h2; simpa [sqSt, sqSts] using h2
    · rw [hs.1, hs.2] at h3; simpa [brSt, brSts] using h3

end Verif.Parser
