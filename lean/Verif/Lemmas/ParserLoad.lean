import Verif.Model.ParserLoad
import Verif.Lemmas.ParserFrame
import Verif.Spec.Anchors
/-!
# `Parser::load`: safety and what it sends to the receiver
-/
namespace Verif.Parser
open Verif Verif.Grammar Verif.Spec

/-- as `wp`, for `LM` -/
def lw {α} (m : LM α) (Q : α → LSt → Prop) (E : LSt → Prop) (s : LSt) : Prop :=
  (m s).2.p.tail = s.p.tail ∧
  match m s with
  | (.ok a, s') => Q a s'
  | (.err _, s') => E s'
  | (.panic, _) => s.p.tail = .panic
  | (.hang, _) => s.p.tail = .hang

theorem lw_pure {α} {a : α} {Q E s} (h : Q a s) : lw (pure a) Q E s := ⟨rfl, h⟩

theorem lw_bind {α β} {m : LM α} {f : α → LM β} {Q E s} (h : lw m (fun a s' => lw (f a) Q E s') E s) :
    lw (m >>= f) Q E s := by
  simp only [lw, Bind.bind] at *
  cases hm : m s with
  | mk r s' =>
    cases r with
    | ok a =>
      simp only [hm] at h ⊢
      obtain ⟨h1, h2, h3⟩ := h
      refine ⟨by rw [h2, h1], ?_⟩
      cases hf : f a s' with
      | mk r2 s2 => cases r2 <;> simp only [hf, h1] at h3 ⊢ <;> exact h3
    | err e => simp only [hm] at h ⊢; exact h
    | panic => simp only [hm] at h ⊢; exact h
    | hang => simp only [hm] at h ⊢; exact h

theorem lw_mono {α} {m : LM α} {Q Q' : α → LSt → Prop} {E E' s} (h : lw m Q E s)
    (hq : ∀ a s', Q a s' → Q' a s') (he : ∀ s', E s' → E' s') : lw m Q' E' s := by
  simp only [lw] at *
  refine ⟨h.1, ?_⟩
  replace h := h.2
  cases hm : m s with
  | mk r s' => cases r <;> simp only [hm] at h ⊢ <;> first | exact hq _ _ h | exact he _ h | exact h

theorem lw_lift {α} {m : PM α} {Q : α → LSt → Prop} {E : LSt → Prop} {s : LSt}
    (h : wp m (fun a p' => Q a ⟨p', s.out⟩) (fun p' => E ⟨p', s.out⟩) s.p) : lw (liftP m) Q E s := by
  unfold wp at h
  simp only [lw, liftP] at *
  refine ⟨h.1, ?_⟩
  replace h := h.2
  cases hm : m s.p with
  | mk r p' => rw [hm] at h; cases r <;> exact h

theorem lw_onEvent {ev sp} {Q : Unit → LSt → Prop} {E s} (h : Q () ⟨s.p, s.out ++ [(ev, sp)]⟩) :
    lw (onEvent ev sp) Q E s := ⟨rfl, h⟩

attribute [irreducible] lw

/-- invariant with nothing peeked -/
structure InvC (s : PSt) : Prop where
  inv : Inv s
  cur : s.current = none
  pos : 0 < s.anchorIdCount

theorem frames_end {s} (hi : Inv s) (h : s.state = .endState) : frames s = [] := by
  have := hi.good
  simp only [Good, h, docLevel, if_true] at this
  simp [frames, h, fr, this, frStack]

/-- what holds whatever happened before, with nothing peeked -/
structure RInv (s : PSt) : Prop where
  good : Good s
  cur : s.current = none
  pos : 0 < s.anchorIdCount

theorem wp_nextEventImpl {s} (hi : InvC s) (hf : frames s ≠ []) :
    wp nextEventImpl (fun r s' => StepOut s r.1 s' ∧ InvC s') RInv s := by
  have hne : s.state ≠ .endState := fun h => hf (frames_end hi.inv h)
  have h := wp_and (stateMachine_out hne hi.inv) (stateMachine_frm hne hi.inv.good)
  have h' : wp nextEventImpl (fun r s' => StepOut s r.1 s' ∧ Inv s') (fun s' => Frm s s' ∧ Good s') s := by
    have h := wp_mono h (fun _ _ h => h.1) (fun _ h => h.2)
    unfold wp at *
    simpa [nextEventImpl, hi.cur, parse, hne] using h
  refine wp_mono h' ?_ (fun s' h => ⟨h.2, by rw [h.1.cur, hi.cur], Nat.lt_of_lt_of_le hi.pos h.1.cnt⟩)
  rintro r s' ⟨h1, h2⟩
  refine ⟨h1, h2, by rw [h1.kept.2.2.1, hi.cur], ?_⟩
  obtain ⟨u, -, -, ha, -⟩ := h1.toks
  have := hi.pos
  rcases ha with ⟨_, _, _, h⟩ | ⟨_, _, _, _, h⟩ <;> omega

/-- the anchor numbers defined in the current document after some events -/
def docDefs (d : List Nat) (es : List Event) : List Nat := es.foldl defsAfter d

/-- the events sent after the first `d` -/
def since (d : Nat) (s : LSt) : List Event := (s.out.drop d).map (·.1)

/-- the events sent so far (after the first `d`), and then `ext`, lead the grammar to where the parser is; aliases stay in their document -/
structure GInv (d : Nat) (F0 : List Frame) (ext : List Event) (s : LSt) : Prop where
  le : d ≤ s.out.length
  gram : steps F0 (since d s ++ ext) = some (frames s.p)
  loc : AliasesLocal [] (since d s ++ ext)
  defs : ∀ p ∈ s.p.anchors, p.2 ≠ 0 ∧ p.2 ∈ docDefs [] (since d s ++ ext)

/-- what is left of it after an error -/
def GErr (d : Nat) (F0 : List Frame) (s : LSt) : Prop :=
  RInv s.p ∧ (∃ fs, steps F0 (since d s) = some fs) ∧ AliasesLocal [] (since d s)

theorem docDefs_append (d : List Nat) (a b : List Event) : docDefs d (a ++ b) = docDefs (docDefs d a) b := by
  simp [docDefs]

theorem aliasesLocal_append (d : List Nat) (a b : List Event) :
    AliasesLocal d (a ++ b) ↔ AliasesLocal d a ∧ AliasesLocal (docDefs d a) b := by
  induction a generalizing d with
  | nil => simp [AliasesLocal, docDefs]
  | cons e es ih => simp [AliasesLocal, docDefs, ih, and_assoc]

theorem GInv.err {d F0 ext s p'} (h : GInv d F0 ext s) (hr : RInv p') : GErr d F0 ⟨p', s.out⟩ := by
  refine ⟨hr, ?_, ((aliasesLocal_append _ _ _).1 h.loc).1⟩
  have := h.gram
  rw [steps_append] at this
  cases hs : steps F0 (since d s) with
  | none => simp [hs] at this
  | some fs => exact ⟨fs, hs⟩

theorem mapGet_mem {β} {m : List (List Byte × β)} {k v} (h : mapGet m k = some v) : (k, v) ∈ m := by
  simp only [mapGet, Option.map_eq_some_iff] at h
  obtain ⟨p, hp, rfl⟩ := h
  have h1 := List.find?_some hp
  have h2 := List.mem_of_find?_eq_some hp
  simp at h1
  rw [← h1]; exact h2

theorem evAnchor_eq (e : Event) : evAnchor e = definedAnchor e := by cases e <;> rfl

/-- one parser step inside a document keeps `GInv` -/
theorem GInv.next {d F0 s ev p'} (h : GInv d F0 [] s) (hp : 0 < s.p.anchorIdCount) (ho : StepOut s.p ev p')
    (hnd : ∀ b, ev ≠ .documentStart b) : GInv d F0 [ev] ⟨p', s.out⟩ := by
  obtain ⟨hle, hg, hl, hd⟩ := h
  simp only [List.append_nil] at *
  obtain ⟨u, -, -, ha, hal, -⟩ := ho.toks
  refine ⟨hle, ?_, ?_, ?_⟩
  · show steps F0 (since d s ++ _) = _
    rw [steps_append, hg]
    simp [steps, ho.gram]
  · show AliasesLocal [] (since d s ++ _)
    rw [aliasesLocal_append]
    refine ⟨hl, ?_, trivial⟩
    rintro id rfl
    obtain ⟨n, -, hn⟩ := hal
    exact hd _ (mapGet_mem hn)
  · show ∀ p ∈ p'.anchors, p.2 ≠ 0 ∧ p.2 ∈ docDefs [] (since d s ++ _)
    rw [docDefs_append]
    intro p hpm
    have key : docDefs (docDefs [] (since d s)) [ev] = definedAnchor ev :: docDefs [] (since d s) := by
      show defsAfter _ ev = _
      unfold defsAfter
      split
      · exact absurd rfl (hnd _)
      · rfl
    rw [key]
    rcases ha with ⟨_, _, h, _⟩ | ⟨n, _, h1, h2, _⟩
    · have := hd p (h ▸ hpm)
      exact ⟨this.1, List.mem_cons_of_mem _ this.2⟩
    · rw [h2] at hpm
      simp only [mapInsert, List.mem_cons, List.mem_filter] at hpm
      rcases hpm with rfl | hpm
      · rw [evAnchor_eq] at h1
        simp only [h1, List.mem_cons, true_or, and_true]; omega
      · have := hd p hpm.1
        exact ⟨this.1, List.mem_cons_of_mem _ this.2⟩

/-- a document start, after which `load` clears the anchors -/
theorem GInv.nextDoc {d F0 s b p'} (h : GInv d F0 [] s) (ho : StepOut s.p (.documentStart b) p') :
    GInv d F0 [.documentStart b] ⟨{ p' with anchors := [] }, s.out⟩ := by
  obtain ⟨hle, hg, hl, hd⟩ := h
  simp only [List.append_nil] at *
  refine ⟨hle, ?_, ?_, by simp⟩
  · show steps F0 (since d s ++ _) = _
    rw [steps_append, hg]
    simp only [Option.bind_some, steps, ho.gram]; rfl
  · show AliasesLocal [] (since d s ++ _)
    rw [aliasesLocal_append]
    exact ⟨hl, by simp, trivial⟩

theorem GInv.emit {d F0 s ev sp} (h : GInv d F0 [ev] s) : GInv d F0 [] ⟨s.p, s.out ++ [(ev, sp)]⟩ := by
  obtain ⟨hle, hg, hl, hd⟩ := h
  have : since d ⟨s.p, s.out ++ [(ev, sp)]⟩ = since d s ++ [ev] := by
    simp [since, List.drop_append_of_le_length hle]
  exact ⟨by simp; omega, by rw [this]; simpa using hg, by rw [this]; simpa using hl, by rw [this]; simpa using hd⟩

/-- an event that begins a node -/
def nodeStart : Event → Bool
  | .alias _ | .scalar _ | .sequenceStart _ _ | .mappingStart _ _ => true
  | _ => false

theorem step_node {f fs ev fs' a} (ha : after f = some a) (h : step (f :: fs) ev = some fs') :
    nodeStart ev = true ∨ (f = .seq ∧ ev = .sequenceEnd ∧ fs' = fs) ∨ (f = .key ∧ ev = .mappingEnd ∧ fs' = fs) := by
  cases f <;> simp [after] at ha <;> cases ev <;> simp_all [step, nodeStart, after]

/-- common postcondition -/
def LPost (d : Nat) (F0 fs : List Frame) (n : Nat) (s' : LSt) : Prop :=
  GInv d F0 [] s' ∧ InvC s'.p ∧ frames s'.p = fs ∧ measure s'.p ≤ n

theorem loads {d F0} (fuel : Nat) :
    (∀ ev sp s f a fs, InvC s.p → GInv d F0 [ev] s → nodeStart ev = true → after f = some a →
      step (f :: fs) ev = some (frames s.p) → 2 * measure s.p + 1 < fuel →
      lw (loadNode fuel ev sp) (fun _ s' => LPost d F0 (a ++ fs) (measure s.p) s') (GErr d F0) s) ∧
    (∀ s fs, InvC s.p → GInv d F0 [] s → frames s.p = .key :: fs → 2 * measure s.p < fuel →
      lw (loadMapping fuel) (fun _ s' => LPost d F0 fs (measure s.p) s') (GErr d F0) s) ∧
    (∀ s fs, InvC s.p → GInv d F0 [] s → frames s.p = .seq :: fs → 2 * measure s.p < fuel →
      lw (loadSequence fuel) (fun _ s' => LPost d F0 fs (measure s.p) s') (GErr d F0) s) := by
  induction fuel with
  | zero => exact ⟨by omega, by omega, by omega⟩
  | succ fuel ih =>
    obtain ⟨ihn, ihm, ihs⟩ := ih
    -- pull one event and, if it begins a node, load it
    have pull : ∀ (s : LSt) f fs a (k : LM Unit) (Q : Unit → LSt → Prop), InvC s.p → GInv d F0 [] s → frames s.p = f :: fs →
        after f = some a → 2 * measure s.p ≤ fuel →
        (∀ s', LPost d F0 (a ++ fs) (measure s.p - 1) s' → measure s.p > measure s'.p → lw k Q (GErr d F0) s') →
        wp nextEventImpl (fun r p' => (nodeStart r.1 = true →
            lw (loadNode fuel r.1 r.2 >>= fun _ => k) Q (GErr d F0) ⟨p', s.out⟩) ∧
            StepOut s.p r.1 p' ∧ InvC p') RInv s.p := by
      intro s f fs a k Q hi hg hf ha hm hk
      refine wp_mono (wp_nextEventImpl hi (by rw [hf]; simp)) ?_ (fun _ h => h)
      rintro ⟨ev, sp⟩ p' ⟨ho, hi'⟩
      refine ⟨?_, ho, hi'⟩
      intro hns
      have hnd : ∀ b, ev ≠ .documentStart b := by rintro b rfl; simp [nodeStart] at hns
      have hmeas := ho.meas
      apply lw_bind
      refine lw_mono (ihn ev sp ⟨p', s.out⟩ f a fs hi' (hg.next hi.pos ho hnd) hns ha ?_ ?_) ?_ (fun _ h => h)
      · rw [← hf]; exact ho.gram
      · dsimp only; omega
      · rintro _ s' hpost
        refine hk s' ⟨hpost.1, hpost.2.1, hpost.2.2.1, ?_⟩ ?_
        · have := hpost.2.2.2; dsimp only at this; omega
        · have := hpost.2.2.2; dsimp only at this; omega
    refine ⟨?_, ?_, ?_⟩
    · intro ev sp s f a fs hi hg hns ha hst hm
      unfold loadNode
      split
      · apply lw_onEvent
        simp only [step, ha, Option.map_some, Option.some.injEq] at hst
        exact ⟨hg.emit, hi, hst.symm, Nat.le_refl _⟩
      · apply lw_onEvent
        simp only [step, ha, Option.map_some, Option.some.injEq] at hst
        exact ⟨hg.emit, hi, hst.symm, Nat.le_refl _⟩
      · simp only [step, ha, Option.map_some, Option.some.injEq] at hst
        apply lw_bind; apply lw_onEvent
        refine ihs ⟨s.p, s.out ++ [(_, sp)]⟩ (a ++ fs) hi hg.emit hst.symm ?_
        dsimp only; omega
      · simp only [step, ha, Option.map_some, Option.some.injEq] at hst
        apply lw_bind; apply lw_onEvent
        refine ihm ⟨s.p, s.out ++ [(_, sp)]⟩ (a ++ fs) hi hg.emit hst.symm ?_
        dsimp only; omega
      · exfalso
        unfold nodeStart at hns; split at hns <;> simp_all
    · intro s fs hi hg hf hm
      unfold loadMapping
      apply lw_bind
      apply lw_lift
      refine wp_mono (pull s .key fs _ (do
        let (ev, sp) ← liftP nextEventImpl
        loadNode fuel ev sp
        loadMapping fuel) (fun _ s' => LPost d F0 fs (measure s.p) s') hi hg hf rfl (by omega) ?_) ?_ (fun _ h => hg.err h)
      · intro s1 ⟨hg1, hi1, hf1, hm1⟩ hlt
        apply lw_bind; apply lw_lift
        refine wp_mono (pull s1 .val fs _ (loadMapping fuel) (fun _ s' => LPost d F0 fs (measure s.p) s') hi1 hg1 hf1 rfl (by omega) ?_)
          ?_ (fun _ h => hg1.err h)
        · intro s2 ⟨hg2, hi2, hf2, hm2⟩ hlt2
          refine lw_mono (ihm s2 fs hi2 hg2 hf2 (by omega)) ?_ (fun _ h => h)
          intro _ s3 h3
          exact ⟨h3.1, h3.2.1, h3.2.2.1, by have := h3.2.2.2; omega⟩
        · rintro ⟨ev, sp⟩ p' ⟨hk, ho, hi'⟩
          have hg' := ho.gram
          rw [hf1] at hg'
          rcases step_node (a := [.key]) rfl hg' with h | ⟨h, -⟩ | ⟨h, -⟩
          · exact hk h
          · cases h
          · cases h
      · rintro ⟨ev, sp⟩ p' ⟨hk, ho, hi'⟩
        have hg' := ho.gram
        have hmeas := ho.meas
        rw [hf] at hg'
        dsimp only
        rcases step_node (a := [.val]) rfl hg' with h | ⟨h, -⟩ | ⟨-, rfl, h⟩
        · rw [if_neg (by rintro rfl; simp [nodeStart] at h)]
          exact hk h
        · cases h
        · rw [if_pos rfl]
          apply lw_onEvent
          exact ⟨(hg.next hi.pos ho (by simp)).emit, hi', h, by dsimp only; omega⟩
    · intro s fs hi hg hf hm
      unfold loadSequence
      apply lw_bind
      apply lw_lift
      refine wp_mono (pull s .seq fs _ (loadSequence fuel) (fun _ s' => LPost d F0 fs (measure s.p) s') hi hg hf rfl (by omega) ?_)
        ?_ (fun _ h => hg.err h)
      · intro s1 ⟨hg1, hi1, hf1, hm1⟩ hlt
        refine lw_mono (ihs s1 fs hi1 hg1 hf1 (by omega)) ?_ (fun _ h => h)
        intro _ s3 h3
        exact ⟨h3.1, h3.2.1, h3.2.2.1, by have := h3.2.2.2; omega⟩
      · rintro ⟨ev, sp⟩ p' ⟨hk, ho, hi'⟩
        have hg' := ho.gram
        have hmeas := ho.meas
        rw [hf] at hg'
        dsimp only
        rcases step_node (a := [.seq]) rfl hg' with h | ⟨-, rfl, h⟩ | ⟨h, -⟩
        · rw [if_neg (by rintro rfl; simp [nodeStart] at h)]
          exact hk h
        · rw [if_pos rfl]
          apply lw_onEvent
          exact ⟨(hg.next hi.pos ho (by simp)).emit, hi', h, by dsimp only; omega⟩
        · cases h


theorem InvC.rinv {s} (h : InvC s) : RInv s := ⟨h.inv.good, h.cur, h.pos⟩

theorem step_docStart {fs ev fs'} (h : step (.docStart :: fs) ev = some fs') :
    (∃ b, ev = .documentStart b ∧ fs' = .node :: .docEnd :: fs) ∨ (ev = .streamEnd ∧ fs' = fs) := by
  cases ev <;> simp_all [step, after]

theorem step_docEnd {fs ev fs'} (h : step (.docEnd :: fs) ev = some fs') : ev = .documentEnd ∧ fs' = .docStart :: fs := by
  cases ev <;> simp_all [step, after]

theorem loadDocument_lw {d F0 fuel b sp s fs} (hi : InvC s.p) (hg : GInv d F0 [.documentStart b] s)
    (hf : frames s.p = .node :: .docEnd :: fs) (hm : 2 * measure s.p + 1 < fuel) :
    lw (loadDocument fuel (.documentStart b) sp) (fun _ s' => LPost d F0 (.docStart :: fs) (measure s.p) s' ∧
      measure s'.p < measure s.p) (GErr d F0) s := by
  unfold loadDocument
  apply lw_bind; apply lw_onEvent; apply lw_bind; apply lw_lift
  dsimp only
  refine wp_mono (wp_nextEventImpl hi (by rw [hf]; simp)) ?_ (fun _ h => hg.emit.err h)
  rintro ⟨ev, sp'⟩ p1 ⟨ho, hi1⟩
  have hg' := ho.gram
  have hmeas := ho.meas
  rw [hf] at hg'
  rcases step_node (a := []) rfl hg' with hns | ⟨h, -⟩ | ⟨h, -⟩
  · apply lw_bind
    refine lw_mono ((loads fuel).1 ev sp' _ _ _ _ hi1 (hg.emit.next (s := ⟨s.p, _⟩) hi.pos ho (by rintro b rfl; simp [nodeStart] at hns)) hns rfl hg' ?_) ?_ (fun _ h => h)
    · dsimp only; omega
    · intro _ s2 ⟨hg2, hi2, hf2, hm2⟩
      apply lw_bind; apply lw_lift
      dsimp only at *
      refine wp_mono (wp_nextEventImpl hi2 (by rw [hf2]; simp)) ?_ (fun _ h => hg2.err h)
      rintro ⟨ev3, sp3⟩ p3 ⟨ho3, hi3⟩
      have hg3 := ho3.gram
      have hmeas3 := ho3.meas
      rw [hf2] at hg3
      obtain ⟨rfl, h3⟩ := step_docEnd hg3
      dsimp only
      rw [if_pos rfl]
      apply lw_onEvent
      refine ⟨⟨(hg2.next hi2.pos ho3 (by simp)).emit, hi3, h3, ?_⟩, ?_⟩ <;> dsimp only <;> omega
  · cases h
  · cases h

/-- after `load` succeeded: the whole stream was sent, or (not `multi`) one document -/
def LoadPost (d : Nat) (F0 : List Frame) (multi : Bool) (s : LSt) : Prop :=
  GInv d F0 [] s ∧ InvC s.p ∧ (frames s.p = [] ∨ (multi = false ∧ frames s.p = [.docStart]))

theorem loadLoop_lw {d F0 multi} (fuel : Nat) : ∀ s, InvC s.p → GInv d F0 [] s → frames s.p = [.docStart] →
    2 * measure s.p + 2 < fuel → lw (loadLoop multi fuel) (fun _ s' => LoadPost d F0 multi s') (GErr d F0) s := by
  induction fuel with
  | zero => intros; omega
  | succ fuel ih =>
    intro s hi hg hf hm
    unfold loadLoop
    apply lw_bind; apply lw_lift
    refine wp_mono (wp_nextEventImpl hi (by rw [hf]; simp)) ?_ (fun _ h => hg.err h)
    rintro ⟨ev, sp⟩ p1 ⟨ho, hi1⟩
    have hg1 := ho.gram
    have hmeas := ho.meas
    rw [hf] at hg1
    dsimp only
    rcases step_docStart hg1 with ⟨b, rfl, h⟩ | ⟨rfl, h⟩
    · rw [if_neg (by simp)]
      apply lw_bind; apply lw_lift; refine wp_modify rfl ?_; apply lw_bind
      refine lw_mono (loadDocument_lw (fs := []) ⟨⟨hi1.inv.good, hi1.inv.head, hi1.inv.nocont⟩, hi1.cur, hi1.pos⟩ (hg.nextDoc ho) h ?_) ?_ (fun _ h => h)
      · have : measure { p1 with anchors := [] } = measure p1 := rfl
        dsimp only at this ⊢
        rw [this]; omega
      · rintro _ s2 ⟨⟨hg2, hi2, hf2, -⟩, hm2⟩
        have : measure { p1 with anchors := [] } = measure p1 := rfl
        dsimp only at this hm2
        rw [this] at hm2
        cases multi with
        | true =>
          simp only [if_true]
          exact ih s2 hi2 hg2 hf2 (by omega)
        | false =>
          simp only [Bool.false_eq_true, if_false]
          exact lw_pure ⟨hg2, hi2, .inr ⟨rfl, hf2⟩⟩
    · rw [if_pos rfl]
      apply lw_onEvent
      exact ⟨(hg.next hi.pos ho (by simp)).emit, hi1, .inl h⟩

/-- what is known of a parser after any calls: as `RInv`, but an event may have been peeked at -/
structure Reachable (s : PSt) : Prop where
  good : Good s
  pos : 0 < s.anchorIdCount
  cur : ∀ ev sp b, s.current = some (ev, sp) → ev = .documentStart b → DocInv s
  emit : s.streamEndEmitted = true → s.current = none

theorem RInv.reach {s} (h : RInv s) : Reachable s := ⟨h.good, h.pos, by rw [h.cur]; simp, fun _ => h.cur⟩

/-- one pull from any state whatsoever -/
theorem wp_nextEventImpl_any {s} (h : Reachable s) :
    wp nextEventImpl (fun r s' => RInv s' ∧ (pend s').length ≤ (pend s).length ∧ s'.streamEndEmitted = s.streamEndEmitted ∧
      ∀ b, r.1 = .documentStart b → DocInv s')
      (fun s' => RInv s' ∧ s'.streamEndEmitted = s.streamEndEmitted) s := by
  cases hc : s.current with
  | some v =>
    unfold wp
    simp only [nextEventImpl, hc]
    refine ⟨trivial, ⟨h.good, rfl, h.pos⟩, Nat.le_refl _, trivial, ?_⟩
    intro b hb
    have := h.cur v.1 v.2 b hc hb
    exact ⟨⟨this.1.good, this.1.head, this.1.nocont⟩, this.2⟩
  | none =>
    by_cases hne : s.state = .endState
    · unfold wp
      simp only [nextEventImpl, hc, parse, hne, beq_self_eq_true, if_true]
      exact ⟨trivial, ⟨h.good, hc, h.pos⟩, Nat.le_refl _, trivial, by simp⟩
    · have h' := stateMachine_frm hne h.good
      have : wp nextEventImpl (fun r s' => Frm s s' ∧ Good s' ∧ ∀ b, r.1 = .documentStart b → DocInv s')
          (fun s' => Frm s s' ∧ Good s') s := by
        unfold wp at *
        simpa [nextEventImpl, hc, parse, hne] using h'
      refine wp_mono this ?_ ?_
      · rintro r s' ⟨hf, hg, hd⟩
        exact ⟨⟨hg, by rw [hf.cur, hc], Nat.lt_of_lt_of_le h.pos hf.cnt⟩, hf.toks, hf.emitted, hd⟩
      · rintro s' ⟨hf, hg⟩
        exact ⟨⟨hg, by rw [hf.cur, hc], Nat.lt_of_lt_of_le h.pos hf.cnt⟩, hf.emitted⟩

theorem DocInv.clear {s : PSt} (h : DocInv s) : DocInv { s with anchors := [] } :=
  ⟨⟨h.1.good, h.1.head, h.1.nocont⟩, h.2⟩

/-- the loop of `load`, from any state whatsoever -/
theorem loadLoop_any {multi fuel} {s : LSt} (h : Reachable s.p) (hf : 20 * (pend s.p).length + 40 < fuel) :
    lw (loadLoop multi fuel) (fun _ s' => Reachable s'.p) (fun s' => Reachable s'.p) s := by
  cases fuel with
  | zero => omega
  | succ fuel =>
    unfold loadLoop
    apply lw_bind; apply lw_lift
    refine wp_mono (wp_nextEventImpl_any h) ?_ (fun _ h => h.1.reach)
    rintro ⟨ev, sp⟩ p1 ⟨hr, hl, -, hd⟩
    dsimp only at *
    split
    · apply lw_onEvent; exact hr.reach
    · apply lw_bind; apply lw_lift; refine wp_modify rfl ?_; apply lw_bind
      by_cases hb : ∃ b, ev = .documentStart b
      · obtain ⟨b, rfl⟩ := hb
        have hdi := (hd b rfl).clear
        have hm : measure { p1 with anchors := [] } ≤ 10 * (pend p1).length + 7 := hdi.2.2
        have hgi : GInv s.out.length [.docStart] [.documentStart b] ⟨{ p1 with anchors := [] }, s.out⟩ := by
          refine ⟨Nat.le_refl _, ?_, ?_, by simp⟩
          · have : since s.out.length ⟨{ p1 with anchors := [] }, s.out⟩ = [] := by simp [since]
            rw [this, hdi.2.1]; rfl
          · have : since s.out.length ⟨{ p1 with anchors := [] }, s.out⟩ = [] := by simp [since]
            rw [this]; exact ⟨by simp, trivial⟩
        refine lw_mono (loadDocument_lw (fs := []) ⟨hdi.1, hr.cur, hr.pos⟩ hgi hdi.2.1 ?_) ?_ (fun _ h => h.1.reach)
        · show 2 * measure { p1 with anchors := [] } + 1 < fuel
          omega
        · rintro _ s2 ⟨⟨hg2, hi2, hf2, hm2⟩, hm3⟩
          have hm4 : measure s2.p < measure { p1 with anchors := [] } := hm3
          split
          · refine lw_mono (loadLoop_lw fuel s2 hi2 hg2 hf2 (by omega)) ?_ (fun _ h => h.1.reach)
            intro _ s3 h3
            exact h3.2.1.rinv.reach
          · exact lw_pure hi2.rinv.reach
      · have : loadDocument fuel ev sp = liftP (throwAt sp "did not find expected <document-start>") := by
          unfold loadDocument; split
          · exact absurd ⟨_, rfl⟩ hb
          · rfl
        rw [this]
        apply lw_lift; apply wp_throwAt
        exact ⟨hr.good, hr.pos, by rw [hr.cur]; simp, fun _ => hr.cur⟩

/-- `load` from any state whatsoever never panics or hangs by itself -/
theorem load_any {multi} {s : LSt} (h : Reachable s.p) :
    lw (load multi) (fun _ s' => Reachable s'.p) (fun s' => Reachable s'.p) s := by
  have hfuel : 20 * (pend s.p).length + 40 < loadFuel s.p := by
    have := pend_length s.p
    simp only [loadFuel]; omega
  have rest : ∀ s1 : LSt, Reachable s1.p → (pend s1.p).length ≤ (pend s.p).length →
      lw (loadRest multi (loadFuel s.p)) (fun _ s' => Reachable s'.p) (fun s' => Reachable s'.p) s1 := by
    intro s1 h1 hl
    unfold loadRest
    apply lw_bind; apply lw_lift; apply wp_gets
    split
    · apply lw_bind; apply lw_lift; apply wp_gets; apply lw_onEvent; exact h1
    · exact loadLoop_any h1 (by dsimp only; omega)
  cases hs : s.p.started with
  | true =>
    have := rest s h (Nat.le_refl _)
    unfold lw at *
    simpa [load, hs] using this
  | false =>
    have : lw (do
      let (ev, sp) ← liftP nextEventImpl
      if ev ≠ .streamStart then liftP (throwAt sp "did not find expected <stream-start>")
      else do
        onEvent ev sp
        loadRest multi (loadFuel s.p) : LM Unit) (fun _ s' => Reachable s'.p) (fun s' => Reachable s'.p) s := by
      apply lw_bind; apply lw_lift
      refine wp_mono (wp_nextEventImpl_any h) ?_ (fun _ h => h.1.reach)
      rintro ⟨ev, sp⟩ p1 ⟨hr, hl, -, hd⟩
      dsimp only
      split
      · apply lw_lift; apply wp_throwAt; exact hr.reach
      · apply lw_bind; apply lw_onEvent
        exact rest _ hr.reach hl
    unfold lw at *
    simpa [load, hs] using this

end Verif.Parser
