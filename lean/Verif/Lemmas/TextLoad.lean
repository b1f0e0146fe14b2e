import Verif.Spec.TextTree
import Verif.Model.Loader
/-!
# The loader on events of valid UTF-8
-/
namespace Verif.Loader
open Verif Verif.Spec
variable {F : Type}

theorem text_earlyWord {s : List Byte} {v : Scalar F} (h : Scalar.earlyWord s = some v) : TextTree (.scalar v) := by
  unfold Scalar.earlyWord at h
  simp only at h
  repeat' split at h
  all_goals first | cases h; constructor | cases h

theorem text_parse {fo : FloatOps F} {s : List Byte} (h : Utf8Text s) : TextTree (.scalar (Scalar.parseFromCow fo s)) := by
  unfold Scalar.parseFromCow
  split
  · exact .int
  split
  · next h => exact text_earlyWord h
  split
  · exact .int
  split
  · exact .float
  · exact .str h

theorem text_meta {fo : FloatOps F} {v : List Byte} {ty tag x} (h : Utf8Text v) (hx : Scalar.parseFromCowAndMetadata fo v ty tag = some x) : TextTree (.scalar x) := by
  unfold Scalar.parseFromCowAndMetadata at hx
  repeat' split at hx
  all_goals first
    | cases hx; first | exact .str h | exact text_parse h | exact .null
    | cases hx
    | (obtain ⟨y, -, rfl⟩ := Option.map_eq_some_iff.1 hx; constructor)

theorem text_value {fo : FloatOps F} {v : List Byte} {ty tag} (h : Utf8Text v) (ht : TextTag tag) : TextTree (Scalar.valueFromCowAndMetadata fo v ty tag) := by
  have hu : ∀ tag, TextTree (F := F) (match Scalar.parseFromCowAndMetadata fo v ty tag with | some x => .scalar x | none => .bad) := by
    intro tag
    split
    · next hx => exact text_meta h hx
    · exact .bad
  unfold Scalar.valueFromCowAndMetadata
  simp only
  split
  · split
    · exact .tagged ht.1 ht.2 (hu none)
    · exact hu _
  · exact hu none

/-- all nodes that the loader holds -/
structure Held (s : LdSt F) : Prop where
  docs : ∀ x ∈ s.docs, TextTree x
  stack : ∀ e ∈ s.docStack, TextTree e.1 ∧ TextTag e.2.2
  keys : ∀ x ∈ s.keyStack, TextTree x
  anchors : ∀ i x, s.anchorMap i = some x → TextTree x

theorem held_init : Held (init : LdSt F) := ⟨by simp [init], by simp [init], by simp [init], by simp [init]⟩

theorem text_retag {x : Yaml F} {t} (h : TextTree x) (ht : TextTag t) : TextTree (retag x t) := by
  unfold retag
  split
  · split
    · exact .tagged ht.1 ht.2 h
    · exact h
  · exact h

theorem text_wrap {x : Yaml F} {t} (h : TextTree x) (ht : TextTag t) : TextTree (wrapTag x t) := by
  unfold wrapTag
  split
  · split
    · exact .tagged ht.1 ht.2 h
    · exact h
  · exact h

theorem held_note {s : LdSt F} {x a} (h : Held s) (hx : TextTree x) : Held (noteAnchor s x a) := by
  unfold noteAnchor
  split
  · refine ⟨h.docs, h.stack, h.keys, fun i y hy => ?_⟩
    simp only at hy
    split at hy
    · cases hy; exact hx
    · exact h.anchors i y hy
  · exact h

theorem held_insert {s s' : LdSt F} {x a t} (h : Held s) (hx : TextTree x) (ht : TextTag t) (e : insertNewNode s x a t = some s') : Held s' := by
  have h := held_note (a := a) h hx
  unfold insertNewNode at e
  simp only at e
  generalize noteAnchor s x a = s1 at h e
  have hr := text_retag hx ht
  split at e
  · cases e
    exact ⟨h.docs, by simpa using ⟨hx, ht⟩, h.keys, h.anchors⟩
  · next items b u rest hs =>
    cases e
    have h1 := h.stack (.seq items, b, u) (by simp [hs])
    refine ⟨h.docs, fun e he => ?_, h.keys, h.anchors⟩
    rcases List.mem_cons.1 he with rfl | he
    · refine ⟨.seq fun y hy => ?_, h1.2⟩
      rcases List.mem_append.1 hy with hy | hy
      · cases h1.1 with | seq h => exact h y hy
      · rw [List.mem_singleton.1 hy]; exact hr
    · exact h.stack e (by simp [hs, he])
  · next entries b u rest hs =>
    have h1 := h.stack (.map entries, b, u) (by simp [hs])
    split at e
    · cases e
    next k ks hk =>
    split at e
    · cases e
      refine ⟨h.docs, h.stack, fun y hy => ?_, h.anchors⟩
      rcases List.mem_cons.1 hy with rfl | hy
      · exact hr
      · exact h.keys y (by simp [hk, hy])
    · cases e
      refine ⟨h.docs, fun e he => ?_, fun y hy => ?_, h.anchors⟩
      · rcases List.mem_cons.1 he with rfl | he
        · refine ⟨.map (fun y hy => ?_) (fun y hy => ?_), h1.2⟩
          · rcases List.mem_append.1 hy with hy | hy
            · cases h1.1 with | map h _ => exact h y hy
            · rw [List.mem_singleton.1 hy]; exact h.keys k (by simp [hk])
          · rcases List.mem_append.1 hy with hy | hy
            · cases h1.1 with | map _ h => exact h y hy
            · rw [List.mem_singleton.1 hy]; exact hr
        · exact h.stack e (by simp [hs, he])
      · rcases List.mem_cons.1 hy with rfl | hy
        · exact .bad
        · exact h.keys y (by simp [hk, hy])
  · cases e; exact h

theorem held_end {s s' : LdSt F} (h : Held s) (e : endCollection s = some s') : Held s' := by
  unfold endCollection at e
  split at e
  · cases e
  · next x a t rest hs =>
    have h1 := h.stack (x, a, t) (by simp [hs])
    exact held_insert (s := { s with docStack := rest }) ⟨h.docs, fun e he => h.stack e (by simp [hs, he]), h.keys, h.anchors⟩ (text_wrap h1.1 h1.2) (t := none) trivial e

theorem held_event {fo : FloatOps F} {s s' : LdSt F} {ev} (h : Held s) (hv : TextEvent ev) (e : onEvent fo s ev = some s') : Held s' := by
  cases ev with
  | documentStart _ | streamStart | streamEnd | comment _ => cases e; exact h
  | documentEnd =>
    simp only [onEvent] at e
    split at e
    · cases e
      refine ⟨fun y hy => ?_, h.stack, h.keys, h.anchors⟩
      rcases List.mem_append.1 hy with hy | hy
      · exact h.docs y hy
      · rw [List.mem_singleton.1 hy]; exact .bad
    · next x a t hs =>
      cases e
      refine ⟨fun y hy => ?_, by simp, h.keys, h.anchors⟩
      rcases List.mem_append.1 hy with hy | hy
      · exact h.docs y hy
      · rw [List.mem_singleton.1 hy]; exact (h.stack (x, a, t) (by simp [hs])).1
    · cases e
  | sequenceStart a t =>
    cases e
    refine ⟨h.docs, fun e he => ?_, h.keys, h.anchors⟩
    rcases List.mem_cons.1 he with rfl | he
    · exact ⟨.seq (by simp), hv⟩
    · exact h.stack e he
  | mappingStart a t =>
    cases e
    refine ⟨h.docs, fun e he => ?_, fun y hy => ?_, h.anchors⟩
    · rcases List.mem_cons.1 he with rfl | he
      · exact ⟨.map (by simp) (by simp), hv⟩
      · exact h.stack e he
    · rcases List.mem_cons.1 hy with rfl | hy
      · exact .bad
      · exact h.keys y hy
  | sequenceEnd => exact held_end h e
  | mappingEnd =>
    simp only [onEvent] at e
    split at e
    · cases e
    · next k ks hk => exact held_end (s := { s with keyStack := ks }) ⟨h.docs, h.stack, fun y hy => h.keys y (by simp [hk, hy]), h.anchors⟩ e
  | scalar v => exact held_insert h (text_value hv.1 hv.2) hv.2 e
  | alias id =>
    refine held_insert (t := none) h ?_ trivial e
    cases ha : s.anchorMap id with
    | none => exact .bad
    | some x => exact h.anchors id x ha

theorem held_events {fo : FloatOps F} : ∀ evs {s s' : LdSt F}, Held s → (∀ e ∈ evs, TextEvent e) → onEvents fo s evs = some s' → Held s'
  | [], _, _, h, _, e => by cases e; exact h
  | ev :: evs, _, _, h, hv, e => by
    obtain ⟨s1, e1, e2⟩ := Option.bind_eq_some_iff.1 e
    exact held_events evs (held_event h (hv ev (by simp)) e1) (fun x hx => hv x (List.mem_cons_of_mem _ hx)) e2

end Verif.Loader
