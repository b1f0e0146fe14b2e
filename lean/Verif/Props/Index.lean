import Verif.Model.Index
/-!
# C23: indexing for reading and for writing agree
-/
namespace Verif.Props
open Verif Verif.Index

/-- **C23** Writing through `&mut x["key"]` succeeds exactly when reading `x["key"]` does; afterwards `x["key"]` is the
written value. -/
theorem C23_str_write_read {F} (n : Yaml F) (s : List Byte) (v : Yaml F) :
    ((setStr n s v).isSome = (indexStr n s).isSome) ∧
    (∀ n', setStr n s v = some n' → indexStr n' s = some v) := by
  cases n with
  | map es =>
    simp only [setStr, indexStr]
    induction es with
    | nil => simp [updateFirst]
    | cons e es ih =>
      by_cases h : isStrKey s e.1 = true
      · simp [updateFirst, h]
      · simp only [Bool.not_eq_true] at h
        obtain ⟨ih1, ih2⟩ := ih
        simp only [updateFirst, h, Bool.false_eq_true, if_false, List.find?_cons_of_neg, not_false_iff]
        cases hu : updateFirst (fun e => isStrKey s e.1) (fun e => (e.1, v)) es with
        | none => simp [hu] at ih1 ⊢; exact ih1
        | some es' =>
          simp [hu] at ih1 ih2 ⊢
          refine ⟨ih1, ?_⟩
          simpa [h] using ih2
  | _ => simp [setStr, indexStr]

/-- **C23** Writing through `&mut x["key"]` changes no other element: every other string key reads as before, the keys and
the number of entries are unchanged, and in each position either the entry is unchanged or it is the written one. -/
theorem C23_str_write_frame {F} (es : List (Yaml F × Yaml F)) (s : List Byte) (v : Yaml F) (n' : Yaml F)
    (h : setStr (.map es) s v = some n') :
    (∃ es', n' = .map es' ∧ es'.map (·.1) = es.map (·.1) ∧
      ∃ l r, ∃ e : Yaml F × Yaml F, es = l ++ e :: r ∧ isStrKey s e.1 = true ∧ es' = l ++ (e.1, v) :: r ∧
        ∀ x ∈ l, isStrKey s x.1 = false) ∧
    (∀ t, t ≠ s → indexStr n' t = indexStr (.map es) t) := by
  simp only [setStr, Option.map_eq_some_iff] at h
  obtain ⟨es', hu, rfl⟩ := h
  have main : ∃ l r, ∃ e : Yaml F × Yaml F, es = l ++ e :: r ∧ isStrKey s e.1 = true ∧ es' = l ++ (e.1, v) :: r ∧
      ∀ x ∈ l, isStrKey s x.1 = false := by
    induction es generalizing es' with
    | nil => simp [updateFirst] at hu
    | cons e es ih =>
      by_cases hk : isStrKey s e.1 = true
      · simp [updateFirst, hk] at hu
        exact ⟨[], es, e, rfl, hk, hu.symm, by simp⟩
      · simp [updateFirst, hk] at hu
        obtain ⟨a, ha, rfl⟩ := hu
        obtain ⟨l, r, e', h1, h2, h3, h4⟩ := ih a ha
        refine ⟨e :: l, r, e', by simp [h1], h2, by simp [h3], ?_⟩
        intro x hx
        rcases List.mem_cons.1 hx with rfl | hx
        · simpa using hk
        · exact h4 x hx
  refine ⟨⟨es', rfl, ?_, main⟩, ?_⟩
  · obtain ⟨l, r, e, rfl, -, rfl, -⟩ := main; simp
  · intro t ht
    obtain ⟨l, r, e, rfl, hk, rfl, -⟩ := main
    have hne : isStrKey t e.1 = false := by
      unfold isStrKey at *
      split at hk
      · simp at hk
        subst hk
        simp; exact fun h => ht h.symm
      · simp at hk
    simp [indexStr, List.find?_append, hne]

example : (setStr (.map [(.scalar (.str bs!"a"), .bad), (.scalar (.str bs!"b"), .scalar (.int 1))] : Yaml Unit) bs!"b"
    (.scalar .null)) = some (.map [(.scalar (.str bs!"a"), .bad), (.scalar (.str bs!"b"), .scalar .null)]) := rfl

/-- **C23, false for an integer index into a mapping**: `&mut x[5]` on `{5: 1}` refers to the *key* `5`, while `x[5]` reads
the value `1`. After writing `9` through it, the mapping is `{9: 1}` and reading `x[5]` panics. -/
theorem C23_int_index_mapping_false {F} :
    let n : Yaml F := .map [(.scalar (.int 5), .scalar (.int 1))]
    indexUsize n 5 = some (.scalar (.int 1)) ∧
    indexMutUsize n 5 = some (.scalar (.int 5)) ∧
    setUsize n 5 (.scalar (.int 9)) = some (.map [(.scalar (.int 9), .scalar (.int 1))]) ∧
    indexUsize (.map [(.scalar (.int 9), .scalar (.int 1))] : Yaml F) 5 = none := ⟨rfl, rfl, rfl, rfl⟩

/-- **C23, false for every integer key**: on any mapping in which the index is found, writing through the mutable index
leaves all values untouched, and reading the index does not give the written value unless it was there already. -/
theorem C23_int_index_mapping_never_writes_value {F} (es : List (Yaml F × Yaml F)) (i : Nat) (v n' : Yaml F)
    (h : setUsize (.map es) i v = some n') : ∃ es', n' = .map es' ∧ es'.map (·.2) = es.map (·.2) := by
  simp only [setUsize, Option.map_eq_some_iff] at h
  obtain ⟨es', hu, rfl⟩ := h
  refine ⟨es', rfl, ?_⟩
  induction es generalizing es' with
  | nil => simp [updateFirst] at hu
  | cons e es ih =>
    by_cases hk : isIntKey i e.1 = true
    · simp [updateFirst, hk] at hu; subst hu; simp
    · simp [updateFirst, hk] at hu
      obtain ⟨a, ha, rfl⟩ := hu
      simp [ih a ha]

/-- **C23 (partial: integer indices into sequences only)** On a sequence, writing succeeds exactly when reading does, the
written value is read back, every other index reads as before, and the length is unchanged. -/
theorem C23_int_index_sequence_partial {F} (xs : List (Yaml F)) (i : Nat) (v : Yaml F) :
    ((setUsize (.seq xs) i v).isSome = (indexUsize (.seq xs) i).isSome) ∧
    (indexMutUsize (.seq xs) i = indexUsize (.seq xs) i) ∧
    (∀ n', setUsize (.seq xs) i v = some n' →
      indexUsize n' i = some v ∧ (∀ j, j ≠ i → indexUsize n' j = indexUsize (.seq xs) j) ∧
      ∃ ys, n' = .seq ys ∧ ys.length = xs.length) := by
  refine ⟨?_, rfl, ?_⟩
  · simp only [setUsize, indexUsize]; split <;> simp_all
  · intro n' h
    simp only [setUsize] at h
    split at h
    · injection h with h; subst h
      refine ⟨by simp [indexUsize, *], ?_, xs.set i v, rfl, by simp⟩
      intro j hj
      simp [indexUsize, Ne.symm hj]
    · simp at h

example : setUsize (.seq [.bad, .scalar (.int 1)] : Yaml Unit) 1 (.scalar .null) = some (.seq [.bad, .scalar .null]) := rfl

/-- the first value whose key is `k` -/
def FirstAt {F} (k : Yaml F) (es : List (Yaml F × Yaml F)) (v : Yaml F) : Prop :=
  ∃ l r, es = l ++ (k, v) :: r ∧ ∀ e ∈ l, e.1 ≠ k

theorem find_first {F} {p : Yaml F → Bool} {k : Yaml F} (hp : ∀ x, p x = true ↔ x = k) (es : List (Yaml F × Yaml F)) (v : Yaml F) :
    (es.find? fun e => p e.1).map (·.2) = some v ↔ FirstAt k es v := by
  induction es with
  | nil => simp [FirstAt]
  | cons e es ih =>
    by_cases h : p e.1 = true
    · have hk := (hp _).1 h
      rw [List.find?_cons_of_pos (by exact h)]
      constructor
      · intro hv
        simp only [Option.map_some, Option.some.injEq] at hv
        exact ⟨[], es, by rw [← hk, ← hv]; rfl, by simp⟩
      · rintro ⟨l, r, h1, h2⟩
        cases l with
        | nil => simp only [List.nil_append, List.cons.injEq] at h1; rw [h1.1]; rfl
        | cons x xs =>
          simp only [List.cons_append, List.cons.injEq] at h1
          exact absurd (by rw [← h1.1]; exact hk) (h2 x (by simp))
    · rw [List.find?_cons_of_neg (by exact h), ih]
      constructor
      · rintro ⟨l, r, rfl, h2⟩
        refine ⟨e :: l, r, rfl, ?_⟩
        intro x hx
        rw [List.mem_cons] at hx
        rcases hx with rfl | hx
        · exact fun hh => h ((hp _).2 hh)
        · exact h2 x hx
      · rintro ⟨l, r, h1, h2⟩
        cases l with
        | nil =>
          simp only [List.nil_append, List.cons.injEq] at h1
          exact absurd ((hp _).2 (by rw [h1.1])) h
        | cons x xs =>
          simp only [List.cons_append, List.cons.injEq] at h1
          exact ⟨xs, r, h1.2, fun y hy => h2 y (by simp [hy])⟩

/-- **C23** `x["key"]` on a mapping is the first value whose key is that string. -/
theorem C23_str_reads {F} (es : List (Yaml F × Yaml F)) (s : List Byte) (v : Yaml F) : indexStr (.map es) s = some v ↔ FirstAt (.scalar (.str s)) es v := by
  refine find_first (fun x => ?_) es v
  unfold isStrKey
  split
  · simp
  · next h => simp only [Bool.false_eq_true, false_iff]; exact fun hh => h s hh

/-- **C23** `x[i]` on a mapping is the first value whose key is the number `i`, or the number with the same 64 bits if `i` is 2^63 or more:
then it is negative. -/
theorem C23_int_reads {F} (es : List (Yaml F × Yaml F)) (i : Nat) (hi : i < 2 ^ 64) (v : Yaml F) :
    ∃ j : Int, -2 ^ 63 ≤ j ∧ j < 2 ^ 63 ∧ (∃ c : Int, (i : Int) = j + c * 2 ^ 64) ∧ (i < 2 ^ 63 → j = i) ∧
      (indexUsize (.map es) i = some v ↔ FirstAt (.scalar (.int j)) es v) := by
  refine ⟨castSigned i, ?_, ?_, ?_, ?_, find_first (fun x => ?_) es v⟩
  · unfold castSigned; split <;> omega
  · unfold castSigned; split <;> omega
  · unfold castSigned; split
    · exact ⟨0, by omega⟩
    · exact ⟨1, by omega⟩
  · unfold castSigned; intro h; split <;> omega
  · unfold isIntKey
    split
    · simp
    · next h => simp only [Bool.false_eq_true, false_iff]; exact fun hh => h _ hh

example : FirstAt (.scalar (.int (-2 ^ 63))) [(.scalar (.int 1), .bad), (.scalar (.int (-2 ^ 63)), (.scalar .null : Yaml Unit))] (.scalar .null) :=
  ⟨[_], [], rfl, by simp⟩

example : indexUsize (.map [(.scalar (.int 1), .bad), (.scalar (.int (-2 ^ 63)), (.scalar .null : Yaml Unit))]) (2 ^ 63) = some (.scalar .null) := rfl

end Verif.Props
