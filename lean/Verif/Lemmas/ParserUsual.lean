import Verif.Lemmas.ParserSound
import Verif.Spec.Usual
/-!
# Where the parser's own grammar and the grammar of YAML agree
-/
namespace Verif.Parser
open Verif Verif.Spec

theorem usual_left {a b} (h : Usual (a ++ b)) : Usual a := fun x y hxy => h x y (hxy.trans ⟨[], b, rfl⟩)
theorem usual_right {a b} (h : Usual (a ++ b)) : Usual b := fun x y hxy => h x y (hxy.trans ⟨a, [], by simp⟩)
theorem usual_tail {a b} (h : Usual (a :: b)) : Usual b := fun x y hxy => h x y (hxy.trans ⟨[a], [], by simp⟩)
theorem usual_head {a b c} (h : Usual (a :: b :: c)) : odd a b = false := h a b ⟨[], c, rfl⟩

theorem derives_strict {lk nt ns t e ns'} (h : DerivesL true lk nt ns t e ns') : Usual t → DerivesL false lk nt ns t e ns' := by
  induction h with
  | oddPair hl hx => intro hu; rcases hx with rfl | rfl | rfl <;> cases usual_head hu
  | oddPairKey hl hx => intro hu; rcases hx with rfl | rfl | rfl <;> cases usual_head hu
  | _ => grind [DerivesL, usual_left, usual_right, usual_tail]

theorem derives_loose {lk nt ns t e ns'} (h : DerivesL false lk nt ns t e ns') : DerivesL true lk nt ns t e ns' := by
  induction h with
  | oddPair hl => cases hl
  | oddPairKey hl => cases hl
  | _ => grind [DerivesL]

/-- directives without `%TAG` before another one are at most a `%YAML` and a `%TAG` -/
theorem directives_usual : ∀ {ds : List TokenType} {X}, (∀ d ∈ ds, isDirectiveTok d = true) → ds.countP isVersion ≤ 1 → Usual (ds ++ X) →
    ∃ v d, ds = v ++ d ∧ (v = [] ∨ ∃ a b, v = [.versionDirective a b]) ∧ (d = [] ∨ ∃ h p, d = [.tagDirective h p]) ∧
      declaredBy ds.getLast?.toList = declaredBy (v ++ d)
  | [], _, _, _, _ => ⟨[], [], rfl, .inl rfl, .inl rfl, rfl⟩
  | [x], X, hd, _, _ => by
    have := hd x (by simp)
    cases x <;> simp only [isDirectiveTok, Bool.false_eq_true] at this
    · exact ⟨[_], [], rfl, .inr ⟨_, _, rfl⟩, .inl rfl, rfl⟩
    · exact ⟨[], [_], rfl, .inl rfl, .inr ⟨_, _, rfl⟩, rfl⟩
  | x :: y :: ds, X, hd, hv, hu => by
    have h1 := hd x (by simp)
    have h2 := hd y (by simp)
    have hxy := usual_head hu
    cases x <;> simp only [isDirectiveTok, Bool.false_eq_true] at h1
    · cases y <;> simp only [isDirectiveTok, Bool.false_eq_true] at h2
      · rw [List.countP_cons_of_pos rfl, List.countP_cons_of_pos rfl] at hv
        omega
      · cases ds with
        | nil => exact ⟨[_], [_], rfl, .inr ⟨_, _, rfl⟩, .inr ⟨_, _, rfl⟩, rfl⟩
        | cons z ds =>
          have h3 := hd z (by simp)
          have := usual_head (usual_tail hu)
          simp [odd, h3] at this
    · simp [odd, h2] at hxy

theorem docs_strict {free ns t e} (h : DerivesDocsL true free ns t e) : Usual t → DerivesDocsL false free ns t e := by
  induction h with
  | stop => intro _; exact .stop
  | strayEnd _ ih => intro hu; exact .strayEnd (ih (usual_tail hu))
  | implicit hc _ ih =>
    intro hu
    exact .implicit (derives_strict hc (usual_left hu)) (ih (usual_right (usual_right hu)))
  | explicit hv hd hf hc _ ih =>
    intro hu
    have h3 := usual_tail (usual_right (usual_right hu))
    exact .explicit hv hd hf (derives_strict hc (usual_left h3)) (ih (usual_right (usual_right h3)))
  | directives _ hds hv hf hc _ ih =>
    intro hu
    have h3 := usual_tail (usual_right hu)
    obtain ⟨v, d, rfl, h1, h2, h4⟩ := directives_usual hds hv hu
    rw [List.append_assoc]
    exact .explicit h1 h2 hf (h4 ▸ derives_strict hc (usual_left h3)) (ih (usual_right (usual_right h3)))

theorem docs_loose {free ns t e} (h : DerivesDocsL false free ns t e) : DerivesDocsL true free ns t e := by
  induction h with
  | stop => exact .stop
  | strayEnd _ ih => exact .strayEnd ih
  | implicit hc _ ih => exact .implicit (derives_loose hc) ih
  | explicit hv hd hf hc _ ih => exact .explicit hv hd hf (derives_loose hc) ih
  | directives h => cases h

theorem docs_last {loose free ns t e} (h : DerivesDocsL loose free ns t e) : .streamEnd ∈ t := by
  induction h <;> simp_all

/-- the same as a function -/
def usualB : List TokenType → Bool
  | a :: b :: r => !odd a b && usualB (b :: r)
  | _ => true

theorem usual_check : ∀ {l}, usualB l = true → Usual l
  | [], _ => fun a b h => by have := h.length_le; simp at this
  | [x], _ => fun a b h => by have := h.length_le; simp at this
  | x :: y :: r, h => fun a b ⟨p, q, hpq⟩ => by
    simp only [usualB, Bool.and_eq_true, Bool.not_eq_true'] at h
    cases p with
    | nil =>
      simp only [List.nil_append, List.cons_append, List.cons.injEq] at hpq
      obtain ⟨rfl, rfl, -⟩ := hpq
      exact h.1
    | cons z p =>
      simp only [List.cons_append, List.cons.injEq] at hpq
      exact usual_check h.2 a b ⟨p, q, hpq.2⟩

/-- in the grammar of YAML every `[` is closed by a `]` -/
theorem derives_brackets {lk nt ns t e ns'} (h : DerivesL false lk nt ns t e ns') :
    t.count .flowSequenceStart = t.count .flowSequenceEnd := by
  induction h with
  | oddPair hl => cases hl
  | oddPairKey hl => cases hl
  | props hq _ ih => cases hq <;> simpa [List.count_cons] using ih
  | propsOnly hq => cases hq <;> simp [List.count_cons]
  | flowItem _ _ hs => rcases hs with rfl | ⟨rfl, rfl⟩ <;> simp_all [List.count_append, List.count_cons]
  | flowPair _ _ _ hs => rcases hs with rfl | ⟨rfl, rfl⟩ <;> simp_all [List.count_append, List.count_cons]
  | flowPairKey _ _ hs => rcases hs with rfl | ⟨rfl, rfl⟩ <;> simp_all [List.count_append, List.count_cons]
  | flowSingle _ _ hs => rcases hs with rfl | ⟨rfl, rfl⟩ <;> simp_all [List.count_append, List.count_cons]
  | flowKeyValue _ _ _ hs => rcases hs with rfl | ⟨rfl, rfl⟩ <;> simp_all [List.count_append, List.count_cons]
  | flowKeyOnly _ _ hs => rcases hs with rfl | ⟨rfl, rfl⟩ <;> simp_all [List.count_append, List.count_cons]
  | flowValueOnly _ _ hs => rcases hs with rfl | ⟨rfl, rfl⟩ <;> simp_all [List.count_append, List.count_cons]
  | _ => simp_all [List.count_append, List.count_cons]

theorem docs_brackets {free ns t e} (h : DerivesDocsL false free ns t e) : t.count .flowSequenceStart = t.count .flowSequenceEnd := by
  induction h with
  | stop => rfl
  | strayEnd _ ih => simpa [List.count_cons] using ih
  | @implicit _ _ _ _ closed _ _ hc _ ih =>
    have := derives_brackets hc
    cases closed <;> simp_all [List.count_append, List.count_cons]
  | @explicit _ _ _ _ _ _ _ closed _ _ hv hd _ hc _ ih =>
    have := derives_brackets hc
    rcases hv with rfl | ⟨_, _, rfl⟩ <;> rcases hd with rfl | ⟨_, _, rfl⟩ <;> cases closed <;>
      simp_all [List.count_append, List.count_cons]
  | directives h => cases h

end Verif.Parser
