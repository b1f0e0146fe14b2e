import Verif.Lemmas.ParserLoad
import Verif.Spec.ParserRuns
/-!
# Whole runs of the parser
-/
namespace Verif.Grammar
open Verif

/-- one document-level frame, or node frames on top of the frame for the end of the document -/
def DocBottom (fs : List Frame) : Prop :=
  fs = [.streamStart] ∨ fs = [.docStart] ∨ ∃ l, fs = l ++ [.docEnd] ∧ ∀ x ∈ l, (after x).isSome = true

theorem after_some {f a} (h : after f = some a) : ∀ x ∈ a, (after x).isSome = true := by
  cases f <;> simp [after] at h <;> subst h <;> simp [after]

theorem DocBottom.split {f fs} (h : DocBottom (f :: fs)) :
    (f = .streamStart ∧ fs = []) ∨ (f = .docStart ∧ fs = []) ∨ (f = .docEnd ∧ fs = []) ∨
    ((after f).isSome = true ∧ ∃ l, fs = l ++ [.docEnd] ∧ ∀ x ∈ l, (after x).isSome = true) := by
  rcases h with h | h | ⟨l, h, hl⟩
  · simp at h; exact .inl h
  · simp at h; exact .inr (.inl h)
  · cases l with
    | nil => simp at h; exact .inr (.inr (.inl h))
    | cons x xs =>
      simp at h
      obtain ⟨rfl, rfl⟩ := h
      exact .inr (.inr (.inr ⟨hl _ (by simp), xs, rfl, fun y hy => hl y (by simp [hy])⟩))

theorem DocBottom.node {f fs a} (h : DocBottom (f :: fs)) (ha : after f = some a) :
    ∃ l, a ++ fs = l ++ [.docEnd] ∧ ∀ x ∈ l, (after x).isSome = true := by
  rcases h.split with ⟨rfl, _⟩ | ⟨rfl, _⟩ | ⟨rfl, _⟩ | ⟨_, l, rfl, hl⟩
  · simp [after] at ha
  · simp [after] at ha
  · simp [after] at ha
  · refine ⟨a ++ l, by simp, ?_⟩
    intro y hy
    rcases List.mem_append.1 hy with hy | hy
    · exact after_some ha y hy
    · exact hl y hy

/-- a step from a document-level configuration -/
theorem docBottom_step {fs ev fs'} (h : DocBottom fs) (hs : step fs ev = some fs') :
    (ev = .streamEnd ∧ fs = [.docStart] ∧ fs' = []) ∨ (ev = .streamStart ∧ fs = [.streamStart] ∧ fs' = [.docStart]) ∨
    (ev = .documentEnd ∧ fs = [.docEnd] ∧ fs' = [.docStart]) ∨
    (ev ≠ .streamEnd ∧ ∃ l, fs' = l ++ [.docEnd] ∧ ∀ x ∈ l, (after x).isSome = true) := by
  unfold step at hs
  split at hs
  · simp only [Option.map_eq_some_iff] at hs
    obtain ⟨a, ha, rfl⟩ := hs
    exact .inr (.inr (.inr ⟨by simp, h.node ha⟩))
  · simp only [Option.map_eq_some_iff] at hs
    obtain ⟨a, ha, rfl⟩ := hs
    exact .inr (.inr (.inr ⟨by simp, h.node ha⟩))
  · simp only [Option.map_eq_some_iff] at hs
    obtain ⟨a, ha, rfl⟩ := hs
    obtain ⟨l, h1, h2⟩ := h.node ha
    exact .inr (.inr (.inr ⟨by simp, .seq :: l, by simp [h1], by simpa [after] using h2⟩))
  · simp only [Option.map_eq_some_iff] at hs
    obtain ⟨a, ha, rfl⟩ := hs
    obtain ⟨l, h1, h2⟩ := h.node ha
    exact .inr (.inr (.inr ⟨by simp, .key :: l, by simp [h1], by simpa [after] using h2⟩))
  · cases hs
    rcases h.split with ⟨h, _⟩ | ⟨h, _⟩ | ⟨h, _⟩ | ⟨_, h⟩
    · cases h
    · cases h
    · cases h
    · exact .inr (.inr (.inr ⟨by simp, h⟩))
  · cases hs
    rcases h.split with ⟨h, _⟩ | ⟨h, _⟩ | ⟨h, _⟩ | ⟨_, h⟩
    · cases h
    · cases h
    · cases h
    · exact .inr (.inr (.inr ⟨by simp, h⟩))
  · cases hs
    rcases h.split with ⟨_, rfl⟩ | ⟨h, _⟩ | ⟨h, _⟩ | ⟨h, _⟩
    · simp
    · cases h
    · cases h
    · simp [after] at h
  · cases hs
    rcases h.split with ⟨h, _⟩ | ⟨_, rfl⟩ | ⟨h, _⟩ | ⟨h, _⟩
    · cases h
    · exact .inr (.inr (.inr ⟨by simp, [.node], rfl, by simp [after]⟩))
    · cases h
    · simp [after] at h
  · cases hs
    rcases h.split with ⟨h, _⟩ | ⟨_, rfl⟩ | ⟨h, _⟩ | ⟨h, _⟩
    · cases h
    · simp
    · cases h
    · simp [after] at h
  · cases hs
    rcases h.split with ⟨h, _⟩ | ⟨h, _⟩ | ⟨_, rfl⟩ | ⟨h, _⟩
    · cases h
    · cases h
    · simp
    · simp [after] at h
  · cases hs

end Verif.Grammar

namespace Verif.Parser
open Verif Verif.Grammar Verif.Spec

theorem tokenScalars_eq (ts) : tokenScalars ts = scalarTexts ts := by
  induction ts with
  | nil => rfl
  | cons t ts ih => obtain ⟨sp, tt⟩ := t; cases tt <;> simp [tokenScalars, scalarTexts, ih]

theorem tokenAnchors_eq (ts) : tokenAnchors ts = anchorNames ts := by
  induction ts with
  | nil => rfl
  | cons t ts ih => obtain ⟨sp, tt⟩ := t; cases tt <;> simp [tokenAnchors, anchorNames, ih]

theorem tokenAliases_eq (ts) : tokenAliases ts = aliasNames ts := by
  induction ts with
  | nil => rfl
  | cons t ts ih => obtain ⟨sp, tt⟩ := t; cases tt <;> simp [tokenAliases, aliasNames, ih]

theorem tokenTags_eq (ts) : tokenTags ts = tagToks ts := by
  induction ts with
  | nil => rfl
  | cons t ts ih => obtain ⟨sp, tt⟩ := t; cases tt <;> simp [tokenTags, tagToks, ih]

theorem eventTag_eq (e) : eventTag e = evTag e := by cases e <;> rfl

theorem eventScalars_append (a b) : eventScalars (a ++ b) = eventScalars a ++ eventScalars b := by
  induction a with
  | nil => rfl
  | cons e es ih => cases e <;> simp [eventScalars, ih]

theorem eventAnchors_append (a b) : eventAnchors (a ++ b) = eventAnchors a ++ eventAnchors b := by
  induction a with
  | nil => rfl
  | cons e es ih => cases e <;> simp [eventAnchors, ih] <;> split <;> simp

theorem eventAnchors_single (e) : eventAnchors [e] = if evAnchor e = 0 then [] else [evAnchor e] := by
  cases e <;> simp [eventAnchors, evAnchor] <;> rfl

theorem withEmpties_append {a b c d} (h : WithEmpties a b) (h' : WithEmpties c d) : WithEmpties (a ++ c) (b ++ d) := by
  induction h with
  | nil => exact h'
  | keep _ ih => exact .keep ih
  | insert _ ih => exact .insert ih

theorem textOK_empties {texts ev} (h : TextOK texts ev) : WithEmpties texts (eventScalars [ev]) := by
  cases ev <;> simp only [TextOK] at h
  case scalar v =>
    simp only [eventScalars]
    rcases h with rfl | ⟨rfl, h1, h2⟩
    · exact .keep .nil
    · rw [h1, h2]; exact .insert .nil
  all_goals (subst h; exact .nil)

theorem mapGet_insert {β} (m : List (List Byte × β)) (k : List Byte) (v : β) (k' : List Byte) :
    mapGet (mapInsert m k v) k' = if k = k' then some v else mapGet m k' := by
  unfold mapGet mapInsert
  by_cases h : k = k'
  · simp [h]
  · simp only [List.find?_cons, h, if_false]
    induction m with
    | nil =>
      have : (k == k') = false := by simpa using h
      simp [this]
    | cons p ps ih =>
      by_cases hp : p.1 = k
      · simp only [List.filter_cons, hp, bne_self_eq_false, Bool.false_eq_true, if_false, List.find?_cons]
        have : (k == k') = false := by simpa using h
        simp only [this] at ih ⊢
        exact ih
      · have h1 : (p.1 != k) = true := by simpa using hp
        have : (k == k') = false := by simpa using h
        simp only [List.filter_cons, h1, if_true, List.find?_cons, this] at ih ⊢
        split
        · rfl
        · exact ih

theorem lastDef_snoc (names : List (List Byte)) (k n : List Byte) :
    lastDef (names ++ [k]) n = if k = n then some (names.length + 1) else lastDef names n := by
  unfold lastDef
  simp only [List.reverse_append, List.reverse_cons, List.reverse_nil, List.nil_append, List.cons_append, List.findIdx?_cons]
  by_cases h : k = n
  · simp [h]
  · have h' : (k == n) = false := by simpa using h
    simp only [h', h, if_false, Bool.false_eq_true]
    cases names.reverse.findIdx? (· == n) with
    | none => rfl
    | some i => simp

/-- tag handles at document boundaries -/
theorem stateMachine_tags {s} (hne : s.state ≠ .endState) (hi : Inv s) :
    wp stateMachine (fun r s' => (∀ b, r.1 = .documentStart b → DocStartOut s r.1 s') ∧
      (r.1 = .documentEnd → s'.tags = if s.keepTags then s.tags else []) ∧
      (r.1 = .streamStart → s'.tags = s.tags)) (fun _ => True) s := by
  have hout := stateMachine_out hne hi
  have hg := hi.good
  by_cases hd : docLevel s.state = true
  · simp only [Good, hd, if_true] at hg
    cases hs : s.state <;> simp [hs, docLevel] at hd hne
    · have : wp stateMachine (fun r s' => StepOut s r.1 s' ∧ s'.tags = s.tags) (fun _ => True) s := by
        have h1 : wp streamStart (fun r s' => s'.tags = s.tags) (fun _ => True) s := by
          unfold streamStart; wp_run
          all_goals first | trivial | rfl
        have h2 : wp stateMachine (fun r s' => s'.tags = s.tags) (fun _ => True) s := by
          unfold wp at *; simpa [stateMachine, dispatch, hs] using h1
        exact wp_mono (wp_and hout h2) (fun _ _ h => ⟨h.1.1, h.2⟩) (fun _ _ => trivial)
      refine wp_mono this ?_ (fun _ _ => trivial)
      rintro ⟨ev, sp⟩ s' ⟨ho, ht⟩
      have hgr := ho.gram
      simp only [frames, hs, fr, hg, frStack] at hgr
      refine ⟨?_, ?_, fun _ => ht⟩
      · rintro b h; dsimp only at h; subst h; simp [step] at hgr
      · rintro h; dsimp only at h; subst h; simp [step] at hgr
    · have h1 := documentStart_doc (i := true) (s := s)
      have h2 : wp stateMachine (fun r s' => DocOut s r.1 s') (fun _ => True) s := by
        have h1 := wp_mono h1 (fun _ _ h => h.1) (fun _ _ => trivial)
        unfold wp at *; simpa [stateMachine, dispatch, hs] using h1
      refine wp_mono h2 ?_ (fun _ _ => trivial)
      rintro ⟨ev, sp⟩ s' ho
      refine ⟨fun _ _ => ho.2.2.2.1, ?_, ?_⟩ <;> intro h <;> dsimp only at h <;> subst h <;> simp [DocOut] at ho
    · have h1 := documentStart_doc (i := false) (s := s)
      have h2 : wp stateMachine (fun r s' => DocOut s r.1 s') (fun _ => True) s := by
        have h1 := wp_mono h1 (fun _ _ h => h.1) (fun _ _ => trivial)
        unfold wp at *; simpa [stateMachine, dispatch, hs] using h1
      refine wp_mono h2 ?_ (fun _ _ => trivial)
      rintro ⟨ev, sp⟩ s' ho
      refine ⟨fun _ _ => ho.2.2.2.1, ?_, ?_⟩ <;> intro h <;> dsimp only at h <;> subst h <;> simp [DocOut] at ho
    · have h1 := documentEnd_out hg hs
      have h2 : wp stateMachine (fun r s' => StepOut s r.1 s' ∧ s'.tags = if s.keepTags then s.tags else []) (fun _ => True) s := by
        unfold wp at *; simpa [stateMachine, dispatch, hs] using h1
      refine wp_mono h2 ?_ (fun _ _ => trivial)
      rintro ⟨ev, sp⟩ s' ⟨ho, ht⟩
      have hgr := ho.gram
      simp only [frames, hs, fr, hg, frStack] at hgr
      refine ⟨?_, fun _ => ht, ?_⟩
      · rintro b h; dsimp only at h; subst h; simp [step] at hgr
      · rintro h; dsimp only at h; subst h; simp [step] at hgr
  · refine wp_mono hout ?_ (fun _ _ => trivial)
    rintro ⟨ev, sp⟩ s' ⟨ho, -⟩
    have hgr := ho.gram
    have hfr : ∃ f l, frames s = f :: l ∧ (after f).isSome = true := by
      simp only [frames]
      cases hs : s.state <;> simp [hs, docLevel] at hd <;> simp [fr, after]
    obtain ⟨f, l, hfr, ha⟩ := hfr
    rw [hfr] at hgr
    refine ⟨?_, ?_, ?_⟩
    · rintro b h; dsimp only at h; subst h; cases f <;> simp [step, after] at hgr ha
    · rintro h; dsimp only at h; subst h; cases f <;> simp [step, after] at hgr ha
    · rintro h; dsimp only at h; subst h; cases f <;> simp [step, after] at hgr ha

/-- the same for one pull -/
structure TagsOut (s : PSt) (ev : Event) (s' : PSt) : Prop where
  start : ∀ b, ev = .documentStart b → DocStartOut s ev s'
  fin : ev = .documentEnd → s'.tags = if s.keepTags then s.tags else []
  first : ev = .streamStart → s'.tags = s.tags

theorem wp_nextEventImpl_tags {s} (hi : InvC s) (hf : frames s ≠ []) :
    wp nextEventImpl (fun r s' => (StepOut s r.1 s' ∧ InvC s') ∧ TagsOut s r.1 s') RInv s := by
  have hne : s.state ≠ .endState := fun h => hf (frames_end hi.inv h)
  have h1 := stateMachine_tags hne hi.inv
  have h2 : wp nextEventImpl (fun r s' => TagsOut s r.1 s') (fun _ => True) s := by
    have h := wp_mono h1 (fun r s' h => (⟨h.1, h.2.1, h.2.2⟩ : TagsOut s r.1 s')) (fun _ h => h)
    unfold wp at *
    simpa [nextEventImpl, hi.cur, parse, hne] using h
  exact wp_mono (wp_and (wp_nextEventImpl hi hf) h2) (fun _ _ h => h) (fun _ h => h.1)

/-- everything known after a run -/
structure RunFacts (s0 : PSt) (evs : List Event) (s : PSt) : Prop where
  invc : InvC s
  tail : s.tail = s0.tail
  keep : s.keepTags = s0.keepTags
  gram : steps [.streamStart] evs = some (frames s)
  live : s.streamEndEmitted = false → DocBottom (frames s)
  dead : s.streamEndEmitted = true → frames s = [] ∧ ∃ l, evs = l ++ [.streamEnd]
  meas : evs.length + measure s ≤ measure s0
  clean : s.keepTags = false → frames s = [.streamStart] ∨ frames s = [.docStart] → s.tags = []
  toks : ∃ used, pend s0 = used ++ pend s ∧ WithEmpties (scalarTexts used) (eventScalars evs) ∧
    (∀ n, mapGet s.anchors n = lastDef (anchorNames used) n) ∧
    s.anchorIdCount = (anchorNames used).length + 1 ∧
    eventAnchors evs = List.range' 1 (anchorNames used).length

theorem new_facts (toks tail m k) : RunFacts (new toks tail m k) [] (new toks tail m k) := by
  refine ⟨⟨⟨?_, ?_, ?_⟩, rfl, by simp [new]⟩, rfl, rfl, rfl, ?_, ?_, by simp, by simp [new], [], by simp, .nil, ?_, by simp [new, anchorNames], by simp [eventAnchors, anchorNames]⟩
  · simp [Good, new, docLevel]
  · simp [HeadOK, new]
  · simp [NoCont, new]
  · intro _; exact .inl rfl
  · simp [new]
  · intro n; simp [mapGet, new, lastDef, anchorNames]

/-- what a successful pull does -/
theorem next_facts {s ev sp s'} (hi : InvC s) (hb : s.streamEndEmitted = false → DocBottom (frames s))
    (h : nextEvent s = (.ok (some (ev, sp)), s')) :
    s.streamEndEmitted = false ∧ ∃ s1, nextEventImpl s = (.ok (ev, sp), s1) ∧ StepOut s ev s1 ∧ InvC s1 ∧ TagsOut s ev s1 ∧
      s' = if ev = .streamEnd then { s1 with streamEndEmitted := true } else s1 := by
  unfold nextEvent at h
  cases he : s.streamEndEmitted with
  | true => simp [he] at h
  | false =>
    simp only [he, Bool.false_eq_true, if_false] at h
    have hf : frames s ≠ [] := by
      rcases hb he with h | h | ⟨l, h, _⟩ <;> rw [h] <;> simp
    have hw := wp_nextEventImpl_tags hi hf
    unfold wp at hw
    replace hw := hw.2
    cases hn : nextEventImpl s with
    | mk r s1 =>
      rw [hn] at h hw
      cases r with
      | ok v =>
        obtain ⟨ev', sp'⟩ := v
        simp only [Prod.mk.injEq, Res.ok.injEq, Option.some.injEq] at h hw
        obtain ⟨⟨rfl, rfl⟩, h2⟩ := h
        exact ⟨rfl, s1, rfl, hw.1.1, hw.1.2, hw.2, h2.symm⟩
      | err e => simp at h
      | panic => simp at h
      | hang => simp at h

theorem run_facts {s0 : PSt} (h0 : RunFacts s0 [] s0) {evs s} (h : Delivers s0 evs s) : RunFacts s0 evs s := by
  induction h with
  | nil => exact h0
  | @snoc evs s ev sp s' hd hn ih =>
    obtain ⟨invc, tl, kp, gram, live, dead, meas, clean, used, hp, htx, hmap, hcnt, hanch⟩ := ih
    obtain ⟨he, s1, -, ho, hi1, htags, hs'⟩ := next_facts invc live hn
    have hg : steps [.streamStart] (evs ++ [ev]) = some (frames s1) := by
      rw [steps_append, gram]; simp [steps, ho.gram]
    have hb := docBottom_step (live he) ho.gram
    have key : RunFacts s0 (evs ++ [ev]) { s1 with streamEndEmitted := decide (ev = .streamEnd) } := by
      refine ⟨⟨⟨hi1.inv.good, hi1.inv.head, hi1.inv.nocont⟩, hi1.cur, hi1.pos⟩, ?_, ?_, hg, ?_, ?_, ?_, ?_, ?_⟩
      · rw [← tl]; exact ho.kept.1
      · rw [← kp]; exact ho.kept.2.2.2.2
      · intro h; simp at h
        rcases hb with ⟨h', _⟩ | ⟨_, _, h'⟩ | ⟨_, _, h'⟩ | ⟨_, h'⟩
        · exact absurd h' h
        · exact .inr (.inl h')
        · exact .inr (.inl h')
        · exact .inr (.inr h')
      · intro h; simp at h
        rcases hb with ⟨_, _, h'⟩ | ⟨h', _⟩ | ⟨h', _⟩ | ⟨h', _⟩
        · exact ⟨h', evs, by rw [h]⟩
        · simp [h] at h'
        · simp [h] at h'
        · exact absurd h h'
      · have h1 := ho.meas
        have h2 : measure { s1 with streamEndEmitted := decide (ev = .streamEnd) } = measure s1 := rfl
        rw [h2]; simp; omega
      · show s1.keepTags = false → frames s1 = _ ∨ frames s1 = _ → s1.tags = []
        intro hk hfs
        rw [ho.kept.2.2.2.2] at hk
        rcases hb with ⟨_, _, h'⟩ | ⟨he', hf, _⟩ | ⟨he', _, _⟩ | ⟨_, l, h', _⟩
        · rw [h'] at hfs; simp at hfs
        · rw [htags.first he']; exact clean hk (.inl hf)
        · rw [htags.fin he', hk]; rfl
        · rw [h'] at hfs
          rcases hfs with hfs | hfs <;> have := congrArg List.getLast? hfs <;> simp at this
      · obtain ⟨u, hu, htx', ha, hal, htg⟩ := ho.toks
        refine ⟨used ++ u, ?_, ?_, ?_, ?_, ?_⟩
        · rw [hp, hu, List.append_assoc]; rfl
        · rw [scalarTexts_append, eventScalars_append]
          exact withEmpties_append htx (textOK_empties htx')
        · intro n
          show mapGet s1.anchors n = _
          rw [anchorNames_append]
          rcases ha with ⟨h1, h2, h3, h4⟩ | ⟨k, h1, h2, h3, h4⟩
          · rw [h3, h1, List.append_nil]; exact hmap n
          · rw [h3, h1, mapGet_insert, lastDef_snoc, hmap n, hcnt]
        · show s1.anchorIdCount = _
          rw [anchorNames_append]
          rcases ha with ⟨h1, h2, h3, h4⟩ | ⟨k, h1, h2, h3, h4⟩
          · rw [h4, h1, List.append_nil]; exact hcnt
          · rw [h4, h1, hcnt]; simp
        · rw [eventAnchors_append, eventAnchors_single, hanch, anchorNames_append]
          rcases ha with ⟨h1, h2, h3, h4⟩ | ⟨k, h1, h2, h3, h4⟩
          · rw [h2, h1]; simp
          · rw [h2, h1, hcnt, if_neg (by omega)]
            rw [List.length_append, List.length_singleton, List.range'_concat, Nat.one_mul, Nat.add_comm 1]
    have : s' = { s1 with streamEndEmitted := decide (ev = .streamEnd) } := by
      rw [hs']
      split
      · rename_i h; simp [h]
      · rename_i h
        have : s1.streamEndEmitted = false := by rw [ho.kept.2.2.2.1, he]
        simp [h, ← this]
    rw [this]; exact key

/-- the calls keep `Reachable` -/
theorem call_reachable {c s} (h : Reachable s) :
    (call c s).2.tail = s.tail ∧
    match call c s with
    | (.ok _, s') => Reachable s'
    | (.err _, s') => Reachable s'
    | (.panic, _) => s.tail = .panic
    | (.hang, _) => s.tail = .hang := by
  have hw := wp_nextEventImpl_any h
  unfold wp at hw
  cases c with
  | next =>
    unfold call nextEvent
    by_cases he : s.streamEndEmitted = true
    · simp [he, h]
    · simp only [he, Bool.false_eq_true, if_false]
      obtain ⟨ht, hw⟩ := hw
      cases hn : nextEventImpl s with
      | mk r s1 =>
        rw [hn] at hw ht
        cases r with
        | ok v =>
          obtain ⟨ev, sp⟩ := v
          simp only at hw ht ⊢
          split
          · exact ⟨ht, hw.1.good, hw.1.pos, fun ev' sp' b h' _ => by rw [hw.1.cur] at h'; simp at h', fun _ => hw.1.cur⟩
          · exact ⟨ht, hw.1.reach⟩
        | err e => exact ⟨ht, hw.1.reach⟩
        | panic => exact ⟨ht, hw⟩
        | hang => exact ⟨ht, hw⟩
  | peek =>
    unfold call Parser.peek
    cases hc : s.current with
    | some x => simp [h]
    | none =>
      by_cases he : s.streamEndEmitted = true
      · simp [he, h]
      · simp only [he, Bool.false_eq_true, if_false]
        obtain ⟨ht, hw⟩ := hw
        cases hn : nextEventImpl s with
        | mk r s1 =>
          rw [hn] at hw ht
          cases r with
          | ok v =>
            obtain ⟨ev, sp⟩ := v
            simp only at hw ht ⊢
            refine ⟨ht, hw.1.good, hw.1.pos, ?_, by rw [hw.2.2.1]; intro h; exact absurd h he⟩
            intro ev' sp' b h' hb
            simp only [Option.some.injEq, Prod.mk.injEq] at h'
            have := hw.2.2.2 b (by rw [h'.1, hb])
            exact ⟨⟨this.1.good, this.1.head, this.1.nocont⟩, this.2⟩
          | err e => exact ⟨ht, hw.1.reach⟩
          | panic => exact ⟨ht, hw⟩
          | hang => exact ⟨ht, hw⟩
  | load multi =>
    have hl := load_any (multi := multi) (s := ⟨s, []⟩) h
    unfold lw at hl
    unfold call
    obtain ⟨ht, hl⟩ := hl
    cases hn : Parser.load multi ⟨s, []⟩ with
    | mk r s1 =>
      rw [hn] at hl ht
      cases r with
      | ok v => simp only [hn]; exact ⟨ht, hl⟩
      | err e => simp only [hn]; exact ⟨ht, hl⟩
      | panic => simp only [hn]; exact ⟨ht, hl⟩
      | hang => simp only [hn]; exact ⟨ht, hl⟩

theorem afterCalls_reachable {s0 s} (h0 : Reachable s0) (h : AfterCalls s0 s) : Reachable s ∧ s.tail = s0.tail := by
  induction h with
  | start => exact ⟨h0, rfl⟩
  | ok _ hc ih =>
    have := call_reachable (c := ‹_›) ih.1
    rw [hc] at this
    exact ⟨this.2, this.1.trans ih.2⟩
  | err _ hc ih =>
    have := call_reachable (c := ‹_›) ih.1
    rw [hc] at this
    exact ⟨this.2, this.1.trans ih.2⟩

end Verif.Parser
