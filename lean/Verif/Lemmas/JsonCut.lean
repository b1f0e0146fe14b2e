import Verif.Spec.Faults
import Verif.Spec.Json
/-!
# JSON texts that were cut off are left open

`Verif.Spec.Faults.unclosed` on the beginnings of JSON texts. Nothing here is about the model.
-/
namespace Verif.Props
open Verif Verif.Spec Verif.Spec.Faults
variable {F : Type}

/-- `w` takes the reader from the modes `M` to the modes `N`, and is left open wherever it is cut off -/
structure Through (s b : Int) (w : List Byte) (M N : Mode → Prop) : Prop where
  on : ∀ u, (∀ n, N n → unclosed u n s b = true) → ∀ m, M m → unclosed (w ++ u) m s b = true
  cut : ∀ p, p <+: w → ∀ m, M m → unclosed p m s b = true

/-- in a bracket -/
def Inside (s b : Int) : Prop := 0 ≤ s ∧ 0 ≤ b ∧ 1 ≤ s + b

theorem open_nil {s b m} (h : Inside s b) : unclosed [] m s b = true := by
  rw [unclosed]
  unfold Inside at h
  simp
  omega

theorem Through.append {s b w w' M N L} (h : Through s b w M N) (h' : Through s b w' N L) : Through s b (w ++ w') M L where
  on u hu m hm := by
    rw [List.append_assoc]
    exact h.on _ (h'.on u hu) m hm
  cut p hp m hm := by
    obtain ⟨t, ht⟩ := hp
    rcases List.append_eq_append_iff.1 ht with ⟨a, rfl, -⟩ | ⟨a, rfl, rfl⟩
    · exact h.cut p ⟨a, rfl⟩ m hm
    · exact h.on _ (fun n hn => h'.cut a ⟨t, rfl⟩ n hn) m hm

theorem Through.weaken {s b w M N M' N'} (h : Through s b w M N) (hm : ∀ m, M' m → M m) (hn : ∀ m, N m → N' m) : Through s b w M' N' where
  on u hu m hM := h.on u (fun n hN => hu n (hn n hN)) m (hm m hM)
  cut p hp m hM := h.cut p hp m (hm m hM)

theorem through_nil {s b M} (h : Inside s b) : Through s b [] M M where
  on u hu m hm := hu m hm
  cut p hp m _ := by
    rw [List.prefix_nil.1 hp]
    exact open_nil h

/-- one byte -/
theorem through_byte {s b c} {M N : Mode → Prop} (h : Inside s b) (hc : ∀ m, M m → ∃ n, N n ∧ ∀ u, unclosed (c :: u) m s b = unclosed u n s b) : Through s b [c] M N where
  on u hu m hm := by
    obtain ⟨n, hn, e⟩ := hc m hm
    rw [List.singleton_append, e]
    exact hu n hn
  cut p hp m hm := by
    obtain ⟨n, hn, e⟩ := hc m hm
    cases p with
    | nil => exact open_nil h
    | cons x p =>
      obtain ⟨rfl, hq⟩ := List.cons_prefix_cons.1 hp
      rw [List.prefix_nil.1 hq, e]
      exact open_nil h

theorem marks_cons {c : Byte} {r} (h1 : c ≠ b%'-') (h2 : c ≠ b%'.') : marks (c :: r) = false := by
  unfold marks
  simp [h1, h2]

theorem marks_two {c d : Byte} {r} (h : d ≠ c) : marks (c :: d :: r) = false := by
  unfold marks
  simp
  intro h1
  omega

/-- where a token may begin -/
def S : Mode → Prop := (· = .start)
/-- after a string -/
def Q : Mode → Prop := (· = .quoted)
/-- after a value -/
def A : Mode → Prop := fun m => m = .start ∨ m = .glued ∨ m = .quoted ∨ m = .word

theorem through_ws {s b full a} (h : Inside s b) (ha : Json.Ws full a) (hr : b%'\r' ∉ a) {M : Mode → Prop} (hM : (M = S ∨ M = Q) ∨ M = A) : Through s b a M M := by
  have step : ∀ c, c = b%' ' ∨ c = b%'\t' ∨ c = b%'\n' → Through s b [c] M M := by
    intro c hc
    refine through_byte h fun m hm => ?_
    have hk : marks (c :: ([] : List Byte)) = false := marks_cons (by omega) (by omega)
    rcases hM with (rfl | rfl) | rfl
    · cases hm
      refine ⟨_, rfl, fun u => ?_⟩
      have hk : marks (c :: u) = false := marks_cons (by omega) (by omega)
      rcases hc with rfl | rfl | rfl <;> simp [unclosed, hk]
    · cases hm
      refine ⟨_, rfl, fun u => ?_⟩
      have hk : marks (c :: u) = false := marks_cons (by omega) (by omega)
      rcases hc with rfl | rfl | rfl <;> simp [unclosed, hk]
    · have hk : ∀ u, marks (c :: u) = false := fun u => marks_cons (by omega) (by omega)
      rcases hm with rfl | rfl | rfl | rfl
      · exact ⟨.start, .inl rfl, fun u => by have hk := hk u; rcases hc with rfl | rfl | rfl <;> simp [unclosed, hk]⟩
      · exact ⟨.start, .inl rfl, fun u => by have hk := hk u; rcases hc with rfl | rfl | rfl <;> simp [unclosed, hk]⟩
      · exact ⟨.quoted, .inr (.inr (.inl rfl)), fun u => by have hk := hk u; rcases hc with rfl | rfl | rfl <;> simp [unclosed, hk]⟩
      · exact ⟨.word, .inr (.inr (.inr rfl)), fun u => by have hk := hk u; rcases hc with rfl | rfl | rfl <;> simp [unclosed, hk]⟩
  induction ha with
  | nil => exact through_nil h
  | space _ ih => exact (step _ (.inl rfl)).append (ih fun hx => hr (List.mem_cons_of_mem _ hx))
  | tab _ ih => exact (step _ (.inr (.inl rfl))).append (ih fun hx => hr (List.mem_cons_of_mem _ hx))
  | lf _ ih => exact (step _ (.inr (.inr rfl))).append (ih fun hx => hr (List.mem_cons_of_mem _ hx))
  | cr => exact absurd (by simp) hr

theorem through_comma {s b} (h : Inside s b) : Through s b bs!"," A S := by
  refine through_byte h fun m hm => ⟨_, rfl, fun u => ?_⟩
  have hk : marks (b%',' :: u) = false := marks_cons (by decide) (by decide)
  rcases hm with rfl | rfl | rfl | rfl <;> simp [unclosed, hk]

theorem through_colon {s b} (h : Inside s b) : Through s b bs!":" Q S := by
  refine through_byte h fun m hm => ⟨_, rfl, fun u => ?_⟩
  have hk : marks (b%':' :: u) = false := marks_cons (by decide) (by decide)
  cases hm
  simp [unclosed, hk]

/-! ## Strings -/

theorem through_in {s b c} (h : Inside s b) (h1 : c ≠ b%'"') (h2 : c ≠ b%'\\') : Through s b [c] (· = .double) (· = .double) :=
  through_byte h fun m hm => ⟨.double, rfl, fun u => by cases hm; simp [unclosed, h1, h2]⟩

theorem through_run {s b} (h : Inside s b) : ∀ w : List Byte, (∀ c ∈ w, c ≠ b%'"' ∧ c ≠ b%'\\') → Through s b w (· = .double) (· = .double)
  | [], _ => through_nil h
  | c :: w, hw => (through_in h (hw c (by simp)).1 (hw c (by simp)).2).append (through_run h w fun d hd => hw d (List.mem_cons_of_mem _ hd))

theorem through_escape {s b c} (h : Inside s b) : Through s b [b%'\\', c] (· = .double) (· = .double) :=
  (through_byte (N := (· = .escape)) h fun m hm => ⟨.escape, rfl, fun u => by cases hm; simp [unclosed]⟩).append
    (through_byte h fun m hm => ⟨.double, rfl, fun u => by cases hm; simp [unclosed]⟩)

/-- the digits are digits -/
theorem hex_digits {w v} (h : Json.Hex4 w v) : ∀ c ∈ w, Hex c := by
  obtain ⟨-, -, hv⟩ := h
  unfold Core.value at hv
  generalize 0 = acc at hv
  induction w generalizing acc with
  | nil => simp
  | cons c w ih =>
    rw [List.foldl_cons] at hv
    cases hd : Core.digit 16 c with
    | none =>
      have hn : ∀ l : List Nat, l.foldl (fun acc c => do return (← acc) * 16 + (← Core.digit 16 c)) (none : Option Nat) = none := fun l => by
        induction l with
        | nil => rfl
        | cons x l ih => exact ih
      simp [hd] at hv
      have := hn w
      simp_all
    | some d =>
      simp [hd] at hv
      intro x hx
      rcases List.mem_cons.1 hx with rfl | hx
      · unfold Core.digit at hd
        unfold Hex
        grind
      · exact ih _ hv x hx

theorem hex_bytes {w v} (h : Json.Hex4 w v) : ∀ c ∈ w, c ≠ b%'"' ∧ c ≠ b%'\\' := by
  intro c hc
  have := hex_digits h c hc
  unfold Hex at this
  omega

theorem through_chars {s b full w v} (h : Inside s b) (hw : Json.Chars full w v) : Through s b w (· = .double) (· = .double) := by
  induction hw with
  | nil => exact through_nil h
  | raw _ h1 h2 _ ih => exact (through_in h h1 h2).append ih
  | short _ _ ih => exact (through_escape h).append ih
  | code hx _ ih => exact (through_escape h).append ((through_run h _ (hex_bytes hx)).append ih)
  | pair _ hx hy _ _ _ _ ih => exact (through_escape h).append ((through_run h _ (hex_bytes hx)).append ((through_escape h).append ((through_run h _ (hex_bytes hy)).append ih)))

theorem through_string {s b full w v} (h : Inside s b) (hw : Json.Chars full w v) : Through s b (b%'"' :: (w ++ bs!"\"")) S Q := by
  refine (through_byte (c := b%'"') (N := (· = .double)) h fun m hm => ⟨.double, rfl, fun u => ?_⟩).append ((through_chars h hw).append
    (through_byte h fun m hm => ⟨.quoted, rfl, fun u => ?_⟩))
  · have hk : marks (b%'"' :: u) = false := marks_cons (by decide) (by decide)
    cases hm
    simp [unclosed, hk]
  · cases hm
    simp [unclosed]

/-! ## Words -/

/-- a letter or a digit -/
def Letter (c : Byte) : Prop := (b%'0' ≤ c ∧ c ≤ b%'9') ∨ (b%'a' ≤ c ∧ c ≤ b%'z') ∨ (b%'A' ≤ c ∧ c ≤ b%'Z')

/-- letters, and signs and points with a letter after them -/
inductive Spelt : List Byte → Prop
  | nil : Spelt []
  | letter {c w} : Letter c → Spelt w → Spelt (c :: w)
  | sign {c d w} : c ∈ bs!"+-." → Letter d → Spelt (d :: w) → Spelt (c :: d :: w)

theorem word_step {s b c u m} (hc : Letter c ∨ c ∈ bs!"+-.") (hk : marks (c :: u) = false) (hm : m = .start ∨ m = .word) :
    unclosed (c :: u) m s b = unclosed u .word s b := by
  unfold Letter at hc
  simp at hc
  have h : c ≠ 13 ∧ c ≠ 35 ∧ c ≠ 0 ∧ c ≠ 91 ∧ c ≠ 123 ∧ c ≠ 93 ∧ c ≠ 125 ∧ c ≠ 44 ∧ c ≠ 58 ∧ c ≠ 32 ∧ c ≠ 9 ∧ c ≠ 10 ∧ c ≠ 34 ∧ c ≠ 39 ∧ c ≠ 38 ∧ c ≠ 42 ∧ c ≠ 63 ∧ c ≠ 33 ∧ c ≠ 37 := by omega
  rcases hm with rfl | rfl <;> simp [unclosed, hk, h]

theorem spelt_on {s b w} (hw : Spelt w) : ∀ u, unclosed u .word s b = true → ∀ m, m = .word ∨ (m = .start ∧ w ≠ []) → unclosed (w ++ u) m s b = true := by
  induction hw with
  | nil =>
    rintro u hu m (rfl | ⟨-, h⟩)
    · exact hu
    · exact absurd rfl h
  | letter hc _ ih =>
    intro u hu m hm
    rw [List.cons_append, word_step (.inl hc) (marks_cons (by unfold Letter at hc; omega) (by unfold Letter at hc; omega)) (hm.elim .inr fun h => .inl h.1)]
    exact ih u hu _ (.inl rfl)
  | sign hc hd _ ih =>
    intro u hu m hm
    rw [List.cons_append, List.cons_append, word_step (.inr hc) (marks_two (by unfold Letter at hd; simp at hc; omega)) (hm.elim .inr fun h => .inl h.1)]
    exact ih u hu _ (.inl rfl)

theorem spelt_cut {s b w} (h : Inside s b) (hw : Spelt w) : ∀ p, p <+: w → ∀ m, m = .start ∨ m = .word → unclosed p m s b = true := by
  induction hw with
  | nil =>
    intro p hp m _
    rw [List.prefix_nil.1 hp]
    exact open_nil h
  | letter hc _ ih =>
    intro p hp m hm
    cases p with
    | nil => exact open_nil h
    | cons x p =>
      obtain ⟨z, hq⟩ := List.cons_prefix_cons.1 hp
      subst z
      rw [word_step (.inl hc) (marks_cons (by unfold Letter at hc; omega) (by unfold Letter at hc; omega)) hm]
      exact ih p hq _ (.inr rfl)
  | sign hc hd _ ih =>
    intro p hp m hm
    cases p with
    | nil => exact open_nil h
    | cons x p =>
      obtain ⟨z, hq⟩ := List.cons_prefix_cons.1 hp
      subst z
      rw [word_step (.inr hc) ?_ hm]
      · exact ih p hq _ (.inr rfl)
      · cases p with
        | nil => unfold marks; simp
        | cons y p =>
          obtain ⟨z, -⟩ := List.cons_prefix_cons.1 hq
          rw [z]
          exact marks_two (by unfold Letter at hd; simp at hc; omega)

theorem through_spelt {s b w} (h : Inside s b) (hw : Spelt w) (hn : w ≠ []) : Through s b w S A where
  on u hu m hm := spelt_on hw u (hu _ (.inr (.inr (.inr rfl)))) m (.inr ⟨hm, hn⟩)
  cut p hp m hm := spelt_cut h hw p hp m (.inl hm)

theorem spelt_digits {d r : List Byte} (hd : Digits d) (hr : Spelt r) : Spelt (d ++ r) := by
  induction d with
  | nil => exact hr
  | cons c d ih => exact .letter (.inl (hd c (by simp))) (ih fun x hx => hd x (List.mem_cons_of_mem _ hx))

/-- a sign or a point before digits -/
theorem spelt_sign {c : Byte} {d r : List Byte} (hc : c ∈ bs!"+-.") (hn : d ≠ []) (hd : Digits d) (hr : Spelt r) : Spelt (c :: (d ++ r)) := by
  cases d with
  | nil => exact absurd rfl hn
  | cons x d => exact .sign hc (.inl (hd x (by simp))) (spelt_digits hd hr)

theorem spelt_number {w} (h : Json.Number w) : Spelt w ∧ w ≠ [] := by
  obtain ⟨minus, i, f, e, ⟨hi, hid, -⟩, hf, he, rfl⟩ := h
  have h1 : Spelt e := by
    rcases he with rfl | ⟨x, sg, d, hx, hsg, hd, hdd, rfl⟩
    · exact .nil
    · refine .letter (by unfold Letter; omega) ?_
      have hd' : Spelt d := by simpa using spelt_digits hdd .nil
      rcases hsg with rfl | rfl | rfl
      · exact hd'
      · simpa using spelt_sign (c := 43) (by decide) hd hdd .nil
      · simpa using spelt_sign (c := 45) (by decide) hd hdd .nil
  have h2 : Spelt (f ++ e) := by
    rcases hf with rfl | ⟨d, rfl, hd, hdd⟩
    · exact h1
    · exact spelt_sign (by decide) hd hdd h1
  constructor
  · cases minus
    · simpa [Json.sign] using spelt_digits hid h2
    · simpa [Json.sign] using spelt_sign (c := b%'-') (by decide) hi hid h2
  · cases i with
    | nil => exact absurd rfl hi
    | cons x i => cases minus <;> simp [Json.sign]

theorem integer_is_number {w v} (h : Json.Integer w v) : Json.Number w := by
  obtain ⟨m, i, hi, rfl, -⟩ := h
  exact ⟨m, i, [], [], hi, .inl rfl, .inl rfl, by simp⟩

/-! ## Values -/

theorem through_seq {s b w} (h : Inside s b) (hw : Through (s + 1) b w S A) : Through s b (b%'[' :: (w ++ bs!"]")) S A := by
  have hd : Inside (s + 1) b := by unfold Inside at *; omega
  have o : ∀ u, unclosed (b%'[' :: u) .start s b = unclosed u .start (s + 1) b := fun u => by
    have hk : marks (b%'[' :: u) = false := marks_cons (by decide) (by decide)
    simp [unclosed, hk]
  have c : ∀ u m, A m → unclosed (b%']' :: u) m (s + 1) b = unclosed u .glued s b := fun u m hm => by
    have hk : marks (b%']' :: u) = false := marks_cons (by decide) (by decide)
    have : 1 < s + 1 + b := by unfold Inside at h; omega
    rcases hm with rfl | rfl | rfl | rfl <;> simp [unclosed, hk, this]
  constructor
  · rintro u hu m rfl
    rw [List.cons_append, o, List.append_assoc]
    exact hw.on _ (fun n hn => by rw [List.singleton_append, c u n hn]; exact hu _ (.inr (.inl rfl))) _ rfl
  · rintro p hp m rfl
    cases p with
    | nil => exact open_nil h
    | cons x p =>
      obtain ⟨rfl, t, ht⟩ := List.cons_prefix_cons.1 hp
      rw [o]
      rcases List.append_eq_append_iff.1 ht with ⟨a, rfl, -⟩ | ⟨a, rfl, ha⟩
      · exact hw.cut p ⟨a, rfl⟩ _ rfl
      · refine hw.on a (fun n hn => ?_) _ rfl
        cases a with
        | nil => exact open_nil hd
        | cons y a =>
          simp at ha
          obtain ⟨rfl, rfl, -⟩ := ha
          rw [c _ _ hn]
          exact open_nil h

theorem through_map {s b w} (h : Inside s b) (hw : Through s (b + 1) w S A) : Through s b (b%'{' :: (w ++ bs!"}")) S A := by
  have hd : Inside s (b + 1) := by unfold Inside at *; omega
  have o : ∀ u, unclosed (b%'{' :: u) .start s b = unclosed u .start s (b + 1) := fun u => by
    have hk : marks (b%'{' :: u) = false := marks_cons (by decide) (by decide)
    simp [unclosed, hk]
  have c : ∀ u m, A m → unclosed (b%'}' :: u) m s (b + 1) = unclosed u .glued s b := fun u m hm => by
    have hk : marks (b%'}' :: u) = false := marks_cons (by decide) (by decide)
    have : 1 < s + (b + 1) := by unfold Inside at h; omega
    rcases hm with rfl | rfl | rfl | rfl <;> simp [unclosed, hk, this]
  constructor
  · rintro u hu m rfl
    rw [List.cons_append, o, List.append_assoc]
    exact hw.on _ (fun n hn => by rw [List.singleton_append, c u n hn]; exact hu _ (.inr (.inl rfl))) _ rfl
  · rintro p hp m rfl
    cases p with
    | nil => exact open_nil h
    | cons x p =>
      obtain ⟨rfl, t, ht⟩ := List.cons_prefix_cons.1 hp
      rw [o]
      rcases List.append_eq_append_iff.1 ht with ⟨a, rfl, -⟩ | ⟨a, rfl, ha⟩
      · exact hw.cut p ⟨a, rfl⟩ _ rfl
      · refine hw.on a (fun n hn => ?_) _ rfl
        cases a with
        | nil => exact open_nil hd
        | cons y a =>
          simp at ha
          obtain ⟨rfl, rfl, -⟩ := ha
          rw [c _ _ hn]
          exact open_nil h

theorem s_a {m} (h : S m) : A m := .inl h
theorem q_a {m} (h : Q m) : A m := .inr (.inr (.inl h))

mutual
  theorem value_through {full} {fo : FloatOps F} : ∀ {w x}, Json.Value full fo w x → b%'\r' ∉ w → ∀ {s b}, Inside s b → Through s b w S A
    | _, _, .null, _, _, _, h => through_spelt h (.letter (by unfold Letter; decide) (.letter (by unfold Letter; decide) (.letter (by unfold Letter; decide) (.letter (by unfold Letter; decide) .nil)))) (by simp)
    | _, _, .true, _, _, _, h => through_spelt h (.letter (by unfold Letter; decide) (.letter (by unfold Letter; decide) (.letter (by unfold Letter; decide) (.letter (by unfold Letter; decide) .nil)))) (by simp)
    | _, _, .false, _, _, _, h => through_spelt h (.letter (by unfold Letter; decide) (.letter (by unfold Letter; decide) (.letter (by unfold Letter; decide) (.letter (by unfold Letter; decide) (.letter (by unfold Letter; decide) .nil))))) (by simp)
    | _, _, .int h1 _, _, _, _, h => through_spelt h (spelt_number (integer_is_number h1)).1 (spelt_number (integer_is_number h1)).2
    | _, _, .float h1 _ _, _, _, _, h => through_spelt h (spelt_number h1).1 (spelt_number h1).2
    | _, _, .string h1, _, _, _, h => (through_string h h1).weaken (fun _ h => h) fun _ => q_a
    | _, _, .emptyArray h1, hr, _, _, h => through_seq h ((through_ws (by unfold Inside at *; omega) h1 (fun hx => hr (by simp [hx])) (.inl (.inl rfl))).weaken (fun _ h => h) fun _ => s_a)
    | _, _, .array h1, hr, _, _, h => through_seq h (elements_through h1 (fun hx => hr (by simp [hx])) (by unfold Inside at *; omega))
    | _, _, .emptyObject h1, hr, _, _, h => through_map h ((through_ws (by unfold Inside at *; omega) h1 (fun hx => hr (by simp [hx])) (.inl (.inl rfl))).weaken (fun _ h => h) fun _ => s_a)
    | _, _, .object h1, hr, _, _, h => through_map h (members_through h1 (fun hx => hr (by simp [hx])) (by unfold Inside at *; omega))
  theorem elements_through {full} {fo : FloatOps F} : ∀ {w x}, Json.Elements full fo w x → b%'\r' ∉ w → ∀ {s b}, Inside s b → Through s b w S A
    | _, _, .one h1 h2 h3, hr, _, _, h => (through_ws h h1 (fun hx => hr (by simp [hx])) (.inl (.inl rfl))).append ((value_through h2 (fun hx => hr (by simp [hx])) h).append
        (through_ws h h3 (fun hx => hr (by simp [hx])) (.inr rfl)))
    | _, _, .more h1 h2 h3 h4, hr, _, _, h => (through_ws h h1 (fun hx => hr (by simp [hx])) (.inl (.inl rfl))).append ((value_through h2 (fun hx => hr (by simp [hx])) h).append
        ((through_ws h h3 (fun hx => hr (by simp [hx])) (.inr rfl)).append ((through_comma h).append (elements_through h4 (fun hx => hr (by simp [hx])) h))))
  theorem member_through {full} {fo : FloatOps F} : ∀ {w x}, Json.Member full fo w x → b%'\r' ∉ w → ∀ {s b}, Inside s b → Through s b w S A
    | _, _, .mk (a := a) (k := k) (b := b) (c := c) (w := w) (d := d) h1 h2 h3 h4 h5 h6 _, hr, _, _, h => by
      have hs := (through_string h h2).append ((through_ws h h3 (fun hx => hr (by simp [hx])) (.inl (.inr rfl))).append ((through_colon h).append
        ((through_ws h h4 (fun hx => hr (by simp [hx])) (.inl (.inl rfl))).append ((value_through h5 (fun hx => hr (by simp [hx])) h).append
          (through_ws h h6 (fun hx => hr (by simp [hx])) (.inr rfl))))))
      have := (through_ws h h1 (fun hx => hr (by simp [hx])) (.inl (.inl rfl))).append hs
      simpa using this
  theorem members_through {full} {fo : FloatOps F} : ∀ {w x}, Json.Members full fo w x → b%'\r' ∉ w → ∀ {s b}, Inside s b → Through s b w S A
    | _, _, .one h1, hr, _, _, h => member_through h1 hr h
    | _, _, .more h1 h2, hr, _, _, h => (member_through h1 (fun hx => hr (by simp [hx])) h).append ((through_comma h).append (members_through h2 (fun hx => hr (by simp [hx])) h))
end

/-- An array or an object that was cut off, though not before its first bracket, is left open. -/
theorem json_cut {full} {fo : FloatOps F} {w x p} (h : Json.Value full fo w x) (hx : (∃ xs, x = .seq xs) ∨ ∃ ps, x = .map ps) (hr : b%'\r' ∉ w) (hp : p <+: w) (h0 : p ≠ [])
    (hne : p ≠ w) : (∃ c r, c ∈ bs!"[{" ∧ p = c :: r) ∧ unclosed p .start 0 0 = true := by
  have key : ∀ (o c : Byte) (v : List Byte) (s b : Int), w = o :: (v ++ [c]) → o ∈ bs!"[{" → Through s b v S A → (∀ u, unclosed (o :: u) .start 0 0 = unclosed u .start s b) →
      (∃ c r, c ∈ bs!"[{" ∧ p = c :: r) ∧ unclosed p .start 0 0 = true := by
    rintro o c v s b rfl ho ht hu
    cases p with
    | nil => exact absurd rfl h0
    | cons y p =>
      obtain ⟨rfl, t, ht'⟩ := List.cons_prefix_cons.1 hp
      refine ⟨⟨_, _, ho, rfl⟩, ?_⟩
      rw [hu]
      rcases List.append_eq_append_iff.1 ht' with ⟨a, rfl, -⟩ | ⟨a, rfl, ha⟩
      · exact ht.cut p ⟨a, rfl⟩ _ rfl
      · cases a with
        | nil => exact ht.cut _ (by simp) _ rfl
        | cons z a =>
          simp at ha
          obtain ⟨rfl, rfl, -⟩ := ha
          exact absurd rfl hne
  have o1 : ∀ u, unclosed (b%'[' :: u) .start 0 0 = unclosed u .start 1 0 := fun u => by
    have hk : marks (b%'[' :: u) = false := marks_cons (by decide) (by decide)
    simp [unclosed, hk]
  have o2 : ∀ u, unclosed (b%'{' :: u) .start 0 0 = unclosed u .start 0 1 := fun u => by
    have hk : marks (b%'{' :: u) = false := marks_cons (by decide) (by decide)
    simp [unclosed, hk]
  have d1 : Inside 1 0 := by unfold Inside; decide
  have d2 : Inside 0 1 := by unfold Inside; decide
  cases h with
  | emptyArray h1 => exact key _ _ _ _ _ rfl (by decide) ((through_ws d1 h1 (fun hx => hr (by simp [hx])) (.inl (.inl rfl))).weaken (fun _ h => h) fun _ => s_a) o1
  | array h1 => exact key _ _ _ _ _ rfl (by decide) (elements_through h1 (fun hx => hr (by simp [hx])) d1) o1
  | emptyObject h1 => exact key _ _ _ _ _ rfl (by decide) ((through_ws d2 h1 (fun hx => hr (by simp [hx])) (.inl (.inl rfl))).weaken (fun _ h => h) fun _ => s_a) o2
  | object h1 => exact key _ _ _ _ _ rfl (by decide) (members_through h1 (fun hx => hr (by simp [hx])) d2) o2
  | _ => rcases hx with ⟨_, h⟩ | ⟨_, h⟩ <;> cases h

end Verif.Props
