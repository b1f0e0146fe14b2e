import Verif.Lemmas.ScanLiteral
import Verif.Lemmas.EmitText
import Verif.Spec.RoundTrip
/-!
# What the emitter writes as a literal block, as the scanner reads it
-/
namespace Verif.Scanner
open Verif Verif.CharUtils Verif.Source Verif.Emitter

/-- lines, each after a line feed -/
def feeds (ls : List (List Byte)) : List Byte := ls.flatMap fun y => 10 :: y

theorem feeds_cons (y ls) : feeds (y :: ls) = 10 :: (y ++ feeds ls) := by simp [feeds]

theorem feeds_append (a b) : feeds (a ++ b) = feeds a ++ feeds b := by simp [feeds]

theorem stripCr_id {l : List Byte} (h : 13 ∉ l) : stripCr l = l := by
  unfold stripCr
  rw [if_neg]
  intro hx
  exact h (List.mem_of_getLast? hx)

theorem lines_feeds : ∀ (v cur : List Byte), 10 ∉ cur → 13 ∉ cur ++ v → cur ++ v ≠ [] →
    10 :: (cur ++ v) = feeds (linesAux cur v) ++ if (cur ++ v).getLast? = some 10 then [10] else [] := by
  intro v
  induction v with
  | nil =>
    intro cur h10 _ hne
    rw [List.append_nil] at *
    have : cur.getLast? ≠ some 10 := fun hx => h10 (List.mem_of_getLast? hx)
    rw [linesAux, if_neg hne, if_neg this]
    simp [feeds]
  | cons b v ih =>
    intro cur h10 h13 hne
    rw [linesAux]
    by_cases hb : b = 10
    · subst hb
      rw [if_pos rfl, stripCr_id (fun hx => h13 (by simp [hx])), feeds_cons]
      cases hv : v with
      | nil => simp [linesAux, feeds]
      | cons a w =>
        rw [← hv]
        have := ih [] (by simp) (fun hx => h13 (by simp at hx; simp [hx])) (by simp [hv])
        rw [List.nil_append] at this
        have hl : (cur ++ 10 :: v).getLast? = v.getLast? := by
          rw [show cur ++ 10 :: v = (cur ++ [10]) ++ v by simp, List.getLast?_append, hv, List.getLast?_cons]; rfl
        rw [hl, List.cons_append, List.append_assoc, ← this]
    · rw [if_neg hb]
      have := ih (cur ++ [b]) (by simp [h10]; omega) (by simpa using h13) (by simp)
      simpa using this

theorem lines_bytes : ∀ (v cur : List Byte), 10 ∉ cur → 13 ∉ cur ++ v → ∀ y ∈ linesAux cur v, 10 ∉ y ∧ 13 ∉ y := by
  intro v
  induction v with
  | nil =>
    intro cur h10 h13 y hy
    rw [linesAux] at hy
    split at hy
    · simp at hy
    · simp at hy h13; subst hy; exact ⟨h10, h13⟩
  | cons b v ih =>
    intro cur h10 h13 y hy
    rw [linesAux] at hy
    split at hy
    · rw [stripCr_id (fun hx => h13 (by simp [hx]))] at hy
      rcases List.mem_cons.1 hy with rfl | hy
      · exact ⟨h10, fun hx => h13 (by simp [hx])⟩
      · exact ih [] (by simp) (fun hx => h13 (by simp at hx; simp [hx])) y hy
    · exact ih (cur ++ [b]) (by simp [h10]; omega) (by simpa using h13) y hy

theorem blanks_succ (C k : Nat) : blanks C (k + 1) = blanks C k ++ (List.replicate (C - 1) 32 ++ [10]) := by
  induction k with
  | zero => simp [blanks]
  | succ k ih =>
    conv => lhs; rw [blanks, ih]
    conv => rhs; rw [blanks]
    simp

/-- lines in groups of empty lines followed by a line with text -/
theorem grouped (l : Nat) : ∀ (ls : List (List Byte)) (k : Nat) (y : List Byte), (y :: ls).getLast? ≠ some [] →
    ∃ k0 y0 gs, (y0 ≠ [] ∧ y0 ∈ y :: ls) ∧ (∀ g ∈ gs, g.2 ≠ [] ∧ g.2 ∈ y :: ls) ∧
      blanks (2 * l + 1) k ++ (ind l ++ (y ++ linesTxt l ls)) = blanks (2 * l + 1) k0 ++ (ind l ++ (y0 ++ groupTxt (2 * l + 1) gs)) ∧
      List.replicate k 10 ++ (y ++ feeds ls) = List.replicate k0 10 ++ (y0 ++ groupVal gs) := by
  intro ls
  induction ls with
  | nil =>
    intro k y h
    exact ⟨k, y, [], ⟨by rintro rfl; simp at h, by simp⟩, by simp, by simp [linesTxt, groupTxt], by simp [feeds, groupVal]⟩
  | cons y' ls ih =>
    intro k y h
    have h' : (y' :: ls).getLast? ≠ some [] := by
      rw [List.getLast?_cons_cons] at h; exact h
    by_cases hy : y = []
    · subst hy
      obtain ⟨k0, y0, gs, h1, h2, h3, h4⟩ := ih (k + 1) y' h'
      refine ⟨k0, y0, gs, ⟨h1.1, List.mem_cons_of_mem _ h1.2⟩, fun g hg => ⟨(h2 g hg).1, List.mem_cons_of_mem _ (h2 g hg).2⟩, ?_, ?_⟩
      · rw [← h3, blanks_succ]
        simp [linesTxt, ind]
      · rw [← h4, feeds_cons, List.replicate_succ']
        simp
    · obtain ⟨k0, y0, gs, h1, h2, h3, h4⟩ := ih 0 y' h'
      refine ⟨k, y, (k0, y0) :: gs, ⟨hy, by simp⟩, ?_, ?_, ?_⟩
      · intro g hg
        rcases List.mem_cons.1 hg with rfl | hg
        · exact ⟨h1.1, List.mem_cons_of_mem _ h1.2⟩
        · exact ⟨(h2 g hg).1, List.mem_cons_of_mem _ (h2 g hg).2⟩
      · rw [groupTxt_cons]
        have : linesTxt l (y' :: ls) = 10 :: (blanks (2 * l + 1) 0 ++ (ind l ++ (y' ++ linesTxt l ls))) := by simp [linesTxt, blanks]
        rw [this, h3]
        simp [ind]
      · rw [groupVal_cons, feeds_cons]
        have : y' ++ feeds ls = List.replicate 0 10 ++ (y' ++ feeds ls) := by simp
        rw [this, h4]
        simp

theorem dotLine_at {y b : List Byte} (h : DotLine y) (hb : b = [] ∨ b.head? = some 10) : Spec.DocumentEndAt (y ++ b) := by
  obtain ⟨h1, h2⟩ := h
  match y, h1, h2 with
  | [a, b', c], h1, _ =>
    simp at h1
    obtain ⟨rfl, rfl, rfl⟩ := h1
    refine ⟨⟨b, by simp⟩, ?_⟩
    intro d hd
    rcases hb with rfl | hb
    · simp at hd
    · have : b.head? = some d := by simpa using hd
      rw [hb] at this; simp at this; simp [← this]
  | a :: b' :: c :: d :: y, h1, h2 =>
    simp at h1
    obtain ⟨rfl, rfl, rfl⟩ := h1
    refine ⟨⟨d :: (y ++ b), by simp⟩, ?_⟩
    intro e he
    simp at he h2
    subst he
    simp [isBlankOrBreakz, isBlank, isBreak] at h2
    omega

/-- the block written for a string, as the scanner sees it -/
theorem literal_shape {doc : Bool} {v : List Byte} (h : Spec.LiteralBack doc v) (l : Nat) (hl : l = 0 → doc = true) :
    ∃ strip k y gs, blockTxt l v = litTxt strip (2 * l + 1) k y gs ∧ litVal strip k y gs = v ∧ LineOk (2 * l + 1) y ∧
      (∀ g ∈ gs, LineOk (2 * l + 1) g.2) ∧ y.head? ≠ some 32 ∧ (2 * l + 1 = 1 → k = 0 → y.head? ≠ some 9) := by
  obtain ⟨⟨c, hcv, hc10⟩, h32, hstop, h13, h9, hdots⟩ := h
  have hne : v ≠ [] := by rintro rfl; simp at hcv
  have hfeeds := lines_feeds v [] (by simp) (by simpa using h13) (by simpa using hne)
  have hbytes := lines_bytes v [] (by simp) (by simpa using h13)
  rw [List.nil_append] at hfeeds
  unfold blockTxt lines
  generalize linesAux [] v = L at hfeeds hbytes
  cases L with
  | nil => 
    rw [feeds, List.flatMap_nil, List.nil_append] at hfeeds
    split at hfeeds
    · simp at hfeeds; exact absurd hfeeds hne
    · simp at hfeeds
  | cons y ls =>
    have hlast : (y :: ls).getLast? ≠ some [] := by
      intro hx
      obtain ⟨L1, hL1⟩ : ∃ L1, y :: ls = L1 ++ [[]] := by
        have := List.getLast?_eq_some_iff.1 hx
        exact this
      rw [hL1, feeds_append] at hfeeds
      have h10 : feeds [[]] = [10] := rfl
      rw [h10] at hfeeds
      cases L1 with
      | nil =>
        simp only [feeds, List.flatMap_nil, List.nil_append, List.cons_append, List.cons.injEq, true_and] at hfeeds
        split at hfeeds <;> rw [hfeeds] at hcv hne
        · simp at hcv; exact hc10 hcv
        · exact hne rfl
      | cons z L1 =>
        rw [feeds_cons] at hfeeds
        simp only [List.cons_append, List.cons.injEq, true_and] at hfeeds
        by_cases hg : v.getLast? = some 10
        · rw [if_pos hg] at hfeeds
          exact hstop ⟨z ++ feeds L1, by rw [hfeeds]; simp⟩
        · rw [if_neg hg] at hfeeds
          apply hg
          rw [hfeeds]
          simp
    obtain ⟨k, y0, gs, h1, h2, h3, h4⟩ := grouped l ls 0 y hlast
    simp only [blanks, List.nil_append, List.replicate_zero] at h3 h4
    have hv : v = List.replicate k 10 ++ (y0 ++ (groupVal gs ++ if v.getLast? = some 10 then [10] else [])) := by
      rw [feeds_cons, h4] at hfeeds
      simpa using hfeeds
    have hline : ∀ z ∈ y :: ls, z ≠ [] → LineOk (2 * l + 1) z := by
      intro z hz hzn
      refine ⟨⟨hzn, fun b hb => ?_⟩, fun hC hd => ?_⟩
      · have := hbytes z hz
        have e1 : b ≠ 10 := by rintro rfl; exact this.1 hb
        have e2 : b ≠ 13 := by rintro rfl; exact this.2 hb
        simp [isBreak, e1, e2]
      · have hdoc := hl (by omega)
        obtain ⟨L1, L2, hL⟩ := List.append_of_mem hz
        rw [hL, feeds_append, feeds_cons] at hfeeds
        have htail : ∀ t : List Byte, t = [] ∨ t.head? = some 10 → feeds L2 ++ t = [] ∨ (feeds L2 ++ t).head? = some 10 := by
          intro t ht
          cases L2 with
          | nil => simpa [feeds] using ht
          | cons a b => rw [feeds_cons]; simp
        have ht : ∀ b : Prop, [Decidable b] → (if b then [10] else [] : List Byte) = [] ∨ (if b then [10] else [] : List Byte).head? = some 10 := by
          intro b _; split <;> simp
        cases L1 with
        | nil =>
          simp only [feeds, List.flatMap_nil, List.nil_append, List.cons_append, List.cons.injEq, true_and] at hfeeds
          rw [List.append_assoc] at hfeeds
          exact hdots hdoc [] _ hfeeds (.inl rfl) (dotLine_at hd (htail _ (ht _)))
        | cons a L1 =>
          rw [feeds_cons] at hfeeds
          simp only [List.cons_append, List.cons.injEq, true_and] at hfeeds
          refine hdots hdoc (a ++ feeds L1 ++ [10]) (z ++ (feeds L2 ++ if v.getLast? = some 10 then [10] else [])) ?_ (.inr (by simp)) (dotLine_at hd (htail _ (ht _)))
          refine hfeeds.trans ?_
          simp
    obtain ⟨a, t, hat⟩ : ∃ a t, y0 = a :: t := by
      cases hy0 : y0 with
      | nil => exact absurd hy0 h1.1
      | cons a t => exact ⟨a, t, rfl⟩
    have ha10 : a ≠ 10 := by rintro rfl; exact (hbytes y0 h1.2).1 (by simp [hat])
    refine ⟨decide (v.getLast? ≠ some 10), k, y0, gs, ?_, ?_, hline y0 h1.2 h1.1, fun g hg => hline g.2 (h2 g hg).2 (h2 g hg).1, ?_, ?_⟩
    · have e : linesTxt l (y :: ls) = 10 :: (ind l ++ (y ++ linesTxt l ls)) := by simp [linesTxt]
      rw [e, h3]
      unfold litTxt
      by_cases hg : v.getLast? = some 10
      · simp [hg, ind]
      · simp [hg, ind]
    · unfold litVal
      conv => rhs; rw [hv]
      by_cases hg : v.getLast? = some 10
      · simp [hg]
      · simp [hg]
    · intro hx
      apply h32
      rw [hv, List.dropWhile_append_of_pos (by simp), hat]
      rw [hat] at hx
      simp at hx
      subst hx
      simp
    · intro hC hk hx
      apply h9 (hl (by omega))
      rw [hv, hk, hat]
      rw [hat] at hx
      simpa using hx

end Verif.Scanner
