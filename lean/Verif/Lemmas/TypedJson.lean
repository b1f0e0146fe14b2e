import Verif.Lemmas.ScanJsonValue
import Verif.Spec.TypedJson
import Verif.Model.FromStr
import Verif.Props.De
/-!
# JSON texts as values of Rust types
-/
namespace Verif.Props
open Verif Verif.Spec Verif.Spec.Json Verif.Scanner Verif.De Verif.ParserIter
variable {F : Type}

/-- the text `w` is read as the node `evs` -/
structure JNode (w : List Byte) (evs : List Event) : Prop where
  goal : VGoal w evs
  node : Node evs
  text : ∀ v, items evs = [.scalar v] → v.tag = none ∧ (v.value = w ∨ Str false w v.value)

theorem jnode_word {w} (h : JWord w) : JNode w [.scalar ⟨w, .plain, 0, none⟩] :=
  ⟨word_goal h, .scalar _, fun v hv => by
    have : YamEvent.scalar ⟨w, .plain, 0, none⟩ = .scalar v := by simpa [items, notAlias, isAlias, item] using hv
    cases this
    exact ⟨rfl, .inl rfl⟩⟩

theorem jnode_string {w s} (h : Str false w s) : JNode w [.scalar ⟨s, .doubleQuote, 0, none⟩] := by
  have h0 := h
  obtain ⟨k, h, rfl⟩ := h
  exact ⟨string_goal (json_chars h), .scalar _, fun v hv => by
    have : YamEvent.scalar ⟨s, .doubleQuote, 0, none⟩ = .scalar v := by simpa [items, notAlias, isAlias, item] using hv
    cases this
    exact ⟨rfl, .inr h0⟩⟩

theorem items_seq (evs : List Event) : items (.sequenceStart 0 none :: (evs ++ [.sequenceEnd])) = .seqStart 0 none :: (items evs ++ [.seqEnd]) := by
  simp [items, notAlias, isAlias, item]

theorem items_map (evs : List Event) : items (.mappingStart 0 none :: (evs ++ [.mappingEnd])) = .mapStart 0 none :: (items evs ++ [.mapEnd]) := by
  simp [items, notAlias, isAlias, item]

theorem items_scalar (v : ScalarValue) : items [.scalar v] = [.scalar v] := rfl

theorem items_member (n : List Byte) (evs es : List Event) : items ([.scalar ⟨n, .doubleQuote, 0, none⟩] ++ (evs ++ es)) =
    .scalar ⟨n, .doubleQuote, 0, none⟩ :: (items evs ++ items es) := by
  rw [items_append, items_append]; rfl

theorem jnode_seq {w evs} (h : VGoal w (.sequenceStart 0 none :: (evs ++ [.sequenceEnd]))) (hn : Nodes evs) : JNode w (.sequenceStart 0 none :: (evs ++ [.sequenceEnd])) :=
  ⟨h, .seq 0 none hn, fun v hv => by rw [items_seq] at hv; cases hv⟩

theorem jnode_map {w evs} (h : VGoal w (.mappingStart 0 none :: (evs ++ [.mappingEnd]))) (hn : Pairs evs) : JNode w (.mappingStart 0 none :: (evs ++ [.mappingEnd])) :=
  ⟨h, .map 0 none hn, fun v hv => by rw [items_map] at hv; cases hv⟩

theorem resolves_string (fo : FloatOps F) (s) : Resolves fo [.scalar ⟨s, .doubleQuote, 0, none⟩] (.str s) :=
  ⟨_, rfl, by simp [Scalar.parseFromCowAndMetadata]⟩

theorem resolves_word {fo : FloatOps F} {w x} (h : JScalar fo w x) : Resolves fo [.scalar ⟨w, .plain, 0, none⟩] x := by
  refine ⟨_, rfl, ?_⟩
  have := (word_value h).2
  simp only [Scalar.valueFromCowAndMetadata] at this
  revert this
  cases Scalar.parseFromCowAndMetadata fo w .plain none with
  | none => intro h; cases h
  | some y => intro h; cases h; rfl

/-! ## Members and elements -/

theorem field_goal {n w t evs} (h : Field false n w t) (hg : VGoal w evs) : MGoal t n evs := by
  obtain ⟨h1, h2, h3, h4, h5, h6⟩ := h
  exact member_goal (.of h1) (json_chars h2) (.of h3) (.of h4) hg (.of h5) (by
    rcases h6 with h | h
    · cases h
    · exact h)

theorem items_reads {α : Type} {P : List Byte → α → Prop} {R : List YamEvent → α → Prop} {w xs} (hP : ∀ w x, P w x → ∃ evs, JNode w evs ∧ R (items evs) x)
    (h : Items false P w xs) : ∃ evs, EGoal w evs ∧ Nodes evs ∧ Each R (items evs) xs := by
  induction h with
  | one h1 h2 h3 =>
    obtain ⟨evs, hn, hr⟩ := hP _ _ h2
    exact ⟨_, one_goal (.of h1) hn.goal (.of h3), .cons hn.node .nil, by rw [items_append]; exact .cons hr .nil⟩
  | more h1 h2 h3 _ ih =>
    obtain ⟨evs, hn, hr⟩ := hP _ _ h2
    obtain ⟨evs', hg, hn', hr'⟩ := ih
    exact ⟨_, more_goal (.of h1) hn.goal (.of h3) hg, .cons hn.node hn', by rw [items_append]; exact .cons hr hr'⟩

theorem array_reads {α : Type} {P : List Byte → α → Prop} {R : List YamEvent → α → Prop} {w xs} (hP : ∀ w x, P w x → ∃ evs, JNode w evs ∧ R (items evs) x)
    (h : Array false P w xs) : ∃ evs, JNode w (.sequenceStart 0 none :: (evs ++ [.sequenceEnd])) ∧ Each R (items evs) xs := by
  cases h with
  | empty h => exact ⟨[], jnode_seq (emptyArray_goal (.of h)) .nil, .nil⟩
  | items h =>
    obtain ⟨evs, h1, h2, h3⟩ := items_reads hP h
    exact ⟨evs, jnode_seq (array_goal h1) h2, h3⟩

/-- members: `R` is what is to be read of them, one after the other -/
theorem fields_reads {α : Type} {P : List Byte → List Byte → α → Prop} {skip : List Byte → List Byte → Prop} {R : List YamEvent → List (List Byte × α) → Prop} {w xs}
    (h0 : R [] [])
    (hP : ∀ n w x, P n w x → ∃ evs, JNode w evs ∧ ∀ es xs, R es xs → R (.scalar ⟨n, .doubleQuote, 0, none⟩ :: (items evs ++ es)) ((n, x) :: xs))
    (hS : ∀ n w, skip n w → ∃ evs, JNode w evs ∧ ∀ es xs, R es xs → R (.scalar ⟨n, .doubleQuote, 0, none⟩ :: (items evs ++ es)) xs)
    (h : Fields false P skip w xs) : ∃ evs, MsGoal w evs ∧ Pairs evs ∧ R (items evs) xs := by
  induction h with
  | one h1 h2 =>
    obtain ⟨evs, hn, hr⟩ := hP _ _ _ h2
    exact ⟨_, oneMember_goal (field_goal h1 hn.goal), .cons (.scalar _) hn.node .nil, by rw [items_member]; exact hr _ _ h0⟩
  | oneSkipped h1 h2 =>
    obtain ⟨evs, hn, hr⟩ := hS _ _ h2
    exact ⟨_, oneMember_goal (field_goal h1 hn.goal), .cons (.scalar _) hn.node .nil, by rw [items_member]; exact hr _ _ h0⟩
  | more h1 h2 _ ih =>
    obtain ⟨evs, hn, hr⟩ := hP _ _ _ h2
    obtain ⟨evs', hg, hn', hr'⟩ := ih
    exact ⟨_, moreMembers_goal (field_goal h1 hn.goal) hg, .cons (.scalar _) hn.node hn', by rw [items_member]; exact hr _ _ hr'⟩
  | moreSkipped h1 h2 _ ih =>
    obtain ⟨evs, hn, hr⟩ := hS _ _ h2
    obtain ⟨evs', hg, hn', hr'⟩ := ih
    exact ⟨_, moreMembers_goal (field_goal h1 hn.goal) hg, .cons (.scalar _) hn.node hn', by rw [items_member]; exact hr _ _ hr'⟩

theorem object_reads {α : Type} {P : List Byte → List Byte → α → Prop} {skip : List Byte → List Byte → Prop} {R : List YamEvent → List (List Byte × α) → Prop} {w xs}
    (h0 : R [] [])
    (hP : ∀ n w x, P n w x → ∃ evs, JNode w evs ∧ ∀ es xs, R es xs → R (.scalar ⟨n, .doubleQuote, 0, none⟩ :: (items evs ++ es)) ((n, x) :: xs))
    (hS : ∀ n w, skip n w → ∃ evs, JNode w evs ∧ ∀ es xs, R es xs → R (.scalar ⟨n, .doubleQuote, 0, none⟩ :: (items evs ++ es)) xs)
    (h : Object false P skip w xs) : ∃ evs, JNode w (.mappingStart 0 none :: (evs ++ [.mappingEnd])) ∧ R (items evs) xs := by
  cases h with
  | empty h => exact ⟨[], jnode_map (emptyObject_goal (.of h)) .nil, h0⟩
  | fields h =>
    obtain ⟨evs, h1, h2, h3⟩ := fields_reads h0 hP hS h
    exact ⟨evs, jnode_map (object_goal h1) h2, h3⟩

/-! ## Values that are ignored -/

theorem resolvable_of {fo : FloatOps F} {v x} (h : Resolves fo [.scalar v] x) : Resolvable fo v := by
  obtain ⟨u, h1, h2⟩ := h
  cases h1
  exact ⟨_, h2⟩

theorem scalar_ignored {fo : FloatOps F} {w x} (h : Value false fo w (.scalar x)) : ∃ v, JNode w [.scalar v] ∧ Resolvable fo v := by
  have word : ∀ {x}, JScalar fo w x → ∃ v, JNode w [.scalar v] ∧ Resolvable fo v := fun h => ⟨_, jnode_word (word_value h).1, resolvable_of (resolves_word h)⟩
  cases h with
  | null => exact word (.inl ⟨rfl, rfl⟩)
  | true => exact word (.inr (.inl ⟨rfl, rfl⟩))
  | false => exact word (.inr (.inr (.inl ⟨rfl, rfl⟩)))
  | int h1 h2 => exact word (.inr (.inr (.inr (.inl ⟨_, h1, h2, rfl⟩))))
  | float h1 h2 h3 => exact word (.inr (.inr (.inr (.inr ⟨_, h1, h2, h3, rfl⟩))))
  | string h => exact ⟨_, jnode_string ⟨_, h, rfl⟩, resolvable_of (resolves_string fo _)⟩

theorem scalars_ignored {fo : FloatOps F} {w xs} (h : Elements false fo w xs) (hx : ∀ y ∈ xs, ∃ x, y = .scalar x) :
    ∃ evs, ∃ vs : List ScalarValue, EGoal w evs ∧ Nodes evs ∧ items evs = vs.map .scalar ∧ ∀ v ∈ vs, Resolvable fo v := by
  refine Elements.rec (motive_1 := fun _ _ _ => True) (motive_3 := fun _ _ _ => True) (motive_4 := fun _ _ _ => True)
    (motive_2 := fun w xs _ => (∀ y ∈ xs, ∃ x, y = .scalar x) → ∃ evs, ∃ vs : List ScalarValue, EGoal w evs ∧ Nodes evs ∧ items evs = vs.map .scalar ∧ ∀ v ∈ vs, Resolvable fo v)
    ?_ ?_ ?_ ?_ ?_ ?_ ?_ ?_ ?_ ?_ ?_ ?_ ?_ ?_ ?_ h hx
  all_goals try exact fun _ => trivial
  all_goals try (intros; trivial)
  · intro a w x b h1 h2 h3 _ hx
    obtain ⟨x, rfl⟩ := hx x (by simp)
    obtain ⟨v, hn, hr⟩ := scalar_ignored h2
    exact ⟨_, [v], one_goal (.of h1) hn.goal (.of h3), .cons hn.node .nil, rfl, by simpa using hr⟩
  · intro a w x b r xs h1 h2 h3 h4 _ ih hx
    obtain ⟨x, rfl⟩ := hx x (by simp)
    obtain ⟨v, hn, hr⟩ := scalar_ignored h2
    obtain ⟨evs, vs, hg, hn', he, hr'⟩ := ih (fun y hy => hx y (by simp [hy]))
    refine ⟨_, v :: vs, more_goal (.of h1) hn.goal (.of h3) hg, .cons hn.node hn', by rw [items_append, he]; rfl, ?_⟩
    intro u hu
    rcases List.mem_cons.1 hu with rfl | hu
    · exact hr
    · exact hr' u hu

mutual
  theorem flat_ignored {fo : FloatOps F} {w x} : Value false fo w x → Flat x → ∃ evs, JNode w evs ∧ PlainNode fo (items evs)
    | .null, _ => have ⟨_, h1, h2⟩ := scalar_ignored (.null (fo := fo)); ⟨_, h1, .scalar h2⟩
    | .true, _ => have ⟨_, h1, h2⟩ := scalar_ignored (.true (fo := fo)); ⟨_, h1, .scalar h2⟩
    | .false, _ => have ⟨_, h1, h2⟩ := scalar_ignored (.false (fo := fo)); ⟨_, h1, .scalar h2⟩
    | .int a b, _ => have ⟨_, h1, h2⟩ := scalar_ignored (.int (fo := fo) a b); ⟨_, h1, .scalar h2⟩
    | .float a b c, _ => have ⟨_, h1, h2⟩ := scalar_ignored (.float (fo := fo) a b c); ⟨_, h1, .scalar h2⟩
    | .string a, _ => have ⟨_, h1, h2⟩ := scalar_ignored (.string (fo := fo) a); ⟨_, h1, .scalar h2⟩
    | .emptyArray h, _ => ⟨_, jnode_seq (emptyArray_goal (.of h)) .nil, by rw [items_seq]; exact .seq (vs := []) 0 none (by simp)⟩
    | .array h, hf =>
      have ⟨_, vs, h1, h2, h3, h4⟩ := scalars_ignored h (by cases hf; assumption)
      ⟨_, jnode_seq (array_goal h1) h2, by rw [items_seq, h3]; exact .seq 0 none h4⟩
    | .emptyObject h, _ => ⟨_, jnode_map (emptyObject_goal (.of h)) .nil, by rw [items_map]; exact .map 0 none .nil⟩
    | .object h, hf =>
      have ⟨_, h1, h2, h3⟩ := members_ignored h (by cases hf; assumption)
      ⟨_, jnode_map (object_goal h1) h2, by rw [items_map]; exact .map 0 none h3⟩
  theorem member_ignored {fo : FloatOps F} {w p} : Member false fo w p → Flat p.2 → ∃ k evs, MGoal w k evs ∧ Node evs ∧ PlainNode fo (items evs)
    | .mk h1 h2 h3 h4 h5 h6 h7, hf =>
      have ⟨_, hn, hp⟩ := flat_ignored h5 hf
      ⟨_, _, member_goal (.of h1) (json_chars h2) (.of h3) (.of h4) hn.goal (.of h6) (by
        rcases h7 with h | h
        · cases h
        · exact h), hn.node, hp⟩
  theorem members_ignored {fo : FloatOps F} {w ps} : Members false fo w ps → (∀ p ∈ ps, Flat p.2) → ∃ evs, MsGoal w evs ∧ Pairs evs ∧ PlainPairs fo (items evs)
    | .one h, hf =>
      have ⟨_, _, hg, hn, hp⟩ := member_ignored h (hf _ (by simp))
      ⟨_, oneMember_goal hg, .cons (.scalar _) hn .nil, by
        rw [items_member]
        exact .cons (resolvable_of (resolves_string fo _)) hp .nil⟩
    | .more h1 h2, hf =>
      have ⟨_, _, hg, hn, hp⟩ := member_ignored h1 (hf _ (by simp))
      have ⟨_, hg', hn', hp'⟩ := members_ignored h2 (fun p hp => hf p (by simp [hp]))
      ⟨_, moreMembers_goal hg hg', .cons (.scalar _) hn hn', by
        rw [items_member]
        exact .cons (resolvable_of (resolves_string fo _)) hp hp'⟩
end

/-! ## Values of types -/

theorem decimal_zero {i : List Byte} (h : IntPart i) (h0 : decimal i = 0) : i = bs!"0" := by
  obtain ⟨hn, hd, hz⟩ := h
  cases i with
  | nil => exact absurd rfl hn
  | cons d r =>
    by_cases h48 : d = 48
    · subst h48; exact hz rfl
    · exfalso
      have hd0 := hd d (by simp)
      have mono : ∀ (r : List Byte) v, 0 < v → 0 < r.foldl (fun v d => v * 10 + (d - 48)) v := by
        intro r
        induction r with
        | nil => intro v h; exact h
        | cons x r ih => intro v h; exact ih _ (by show 0 < v * 10 + (x - 48); omega)
      have := mono r (0 * 10 + (d - 48)) (by omega)
      simp only [decimal, List.foldl_cons] at h0
      omega

theorem intText_reads {t w i} (h : IntText false t w i) : DecimalText t.signed w i ∧ t.min ≤ i ∧ i ≤ t.max := by
  obtain ⟨⟨minus, d, hd, rfl, rfl⟩, h1, h2, h3⟩ := h
  refine ⟨?_, h1, h2⟩
  have hn : Core.IsNumeral 10 d (decimal d) := ⟨hd.1, value_decimal hd.2.1⟩
  cases minus
  · exact .dec hn
  · have hs : t.signed = true := by
      rcases h3 with h | h | h
      · cases h
      · exact h
      · cases hs : t.signed with
        | true => rfl
        | false =>
          have hm : t.min = 0 := by cases t <;> first | rfl | cases hs
          rw [hm] at h1
          simp only [if_true] at h1
          exact absurd (by rw [decimal_zero hd (by omega)]; rfl) h
    exact .minus hs hn

theorem key_reads {fo : FloatOps F} {ofInt : Int → F} {k n} {v : Val F} (h : Key false k n v) :
    Reads fo ofInt (textReading fo) k [.scalar ⟨n, .doubleQuote, 0, none⟩] v := by
  cases k with
  | str =>
    rw [Key] at h; subst h; rw [Reads]
    exact ⟨n, resolves_string fo n, rfl⟩
  | int t =>
    rw [Key] at h
    obtain ⟨i, h, rfl⟩ := h
    rw [Reads]
    exact ⟨_, i, rfl, intText_reads h, rfl⟩
  | choice vs =>
    rw [Key] at h
    obtain ⟨h, rfl⟩ := h
    rw [Reads]
    exact .inl ⟨_, n, rfl, rfl, h, rfl⟩
  | _ => rw [Key] at h <;> first | exact h.elim | (intros; simp at *)

theorem not_null {fo : FloatOps F} {w evs} (hn : JNode w evs) (h0 : w ≠ bs!"null") (h1 : ¬ Str false w []) (h2 : ¬ Str false w bs!"null") :
    ∀ v, items evs = [.scalar v] → ¬ (textReading fo).null v := by
  intro v hv h
  obtain ⟨ht, hw⟩ := hn.text v hv
  rcases h with h | h | ⟨-, t, h, -⟩
  · rw [h] at hw
    rcases hw with hw | hw
    · exact hn.goal.1 hw.symm
    · exact h1 hw
  · rw [h] at hw
    rcases hw with hw | hw
    · exact h0 hw.symm
    · exact h2 hw
  · rw [ht] at h; cases h

theorem struct_reads {fo : FloatOps F} {deny names} {declared : List (List Byte × Val F) → List (List Byte × Val F) → Prop} {field : List Byte → List YamEvent → Val F → Prop}
    {P : List Byte → List Byte → Val F → Prop} {w found out} (hP : ∀ n w x, P n w x → ∃ evs, JNode w evs ∧ field n (items evs) x)
    (h : Object false P (fun n u => n ∉ names ∧ deny = false ∧ Ignorable false fo u) w found) (hnd : (found.map (·.1)).Nodup) (hdec : declared found out) :
    ∃ evs, JNode w evs ∧ ReadsStruct fo (textReading fo) deny names declared field (items evs) (.record out) := by
  obtain ⟨evs, h1, h2⟩ := object_reads
    (R := EachField (fun evs n => Resolves fo evs (.str n)) field (· ∈ names) (fun evs => deny = false ∧ (textReading fo).ignored evs))
    .nil (fun n w x hx => by
      obtain ⟨evs, hn, hr⟩ := hP n w x hx
      exact ⟨evs, hn, fun es xs hxs => .cons (a := [_]) (resolves_string fo n) hr hxs⟩)
    (fun n w hx => by
      obtain ⟨hk, hd, x, hv, hf⟩ := hx
      obtain ⟨evs, hn, hr⟩ := flat_ignored hv (by rcases hf with h | h; cases h; exact h)
      exact ⟨evs, hn, fun es xs hxs => .skip (a := [_]) (resolves_string fo n) hk ⟨hd, hr⟩ hxs⟩) h
  refine ⟨_, h1, ?_⟩
  rw [items_map]
  exact ⟨0, none, _, found, out, rfl, h2, hnd, hdec, rfl⟩

theorem word_reads {fo : FloatOps F} {w x} (h : JScalar fo w x) : ∃ evs, JNode w evs ∧ items evs = [.scalar ⟨w, .plain, 0, none⟩] ∧ Resolves fo (items evs) x :=
  ⟨_, jnode_word (word_value h).1, rfl, resolves_word h⟩

mutual
  theorem typed_reads {fo : FloatOps F} {ofInt : Int → F} : (t : Ty) → (w : List Byte) → (v : Val F) → Typed false fo ofInt t w v →
      ∃ evs, JNode w evs ∧ Reads fo ofInt (textReading fo) t (items evs) v
    | .int t, w, v, h => by
      rw [Typed] at h
      obtain ⟨i, h, rfl⟩ := h
      refine ⟨_, jnode_word (number_word (integer_number h.1)), ?_⟩
      rw [Reads]
      exact ⟨_, i, rfl, intText_reads h, rfl⟩
    | .bool, w, v, h => by
      rw [Typed] at h
      rcases h with ⟨rfl, rfl⟩ | ⟨rfl, rfl⟩
      · obtain ⟨evs, h1, -, h2⟩ := word_reads (fo := fo) (w := bs!"true") (.inr (.inl ⟨rfl, rfl⟩))
        exact ⟨evs, h1, by rw [Reads]; exact ⟨_, h2, rfl⟩⟩
      · obtain ⟨evs, h1, -, h2⟩ := word_reads (fo := fo) (w := bs!"false") (.inr (.inr (.inl ⟨rfl, rfl⟩)))
        exact ⟨evs, h1, by rw [Reads]; exact ⟨_, h2, rfl⟩⟩
    | .float, w, v, h => by
      rw [Typed] at h
      rcases h with ⟨i, h1, h2, rfl⟩ | ⟨f, h1, h2, h3, rfl⟩
      · obtain ⟨evs, h1, -, h2⟩ := word_reads (fo := fo) (w := w) (.inr (.inr (.inr (.inl ⟨_, h1, h2, rfl⟩))))
        exact ⟨evs, h1, by rw [Reads]; exact .inr ⟨_, h2, rfl⟩⟩
      · obtain ⟨evs, h1, -, h2⟩ := word_reads (fo := fo) (w := w) (.inr (.inr (.inr (.inr ⟨_, h1, h2, h3, rfl⟩))))
        exact ⟨evs, h1, by rw [Reads]; exact .inl ⟨_, h2, rfl⟩⟩
    | .str, w, v, h => by
      rw [Typed] at h
      obtain ⟨s, h, rfl⟩ := h
      refine ⟨_, jnode_string h, ?_⟩
      rw [Reads]
      exact ⟨s, resolves_string fo s, rfl⟩
    | .unit, w, v, h => by
      rw [Typed] at h
      obtain ⟨rfl, rfl⟩ := h
      obtain ⟨evs, h1, h2, -⟩ := word_reads (fo := fo) (w := bs!"null") (.inl ⟨rfl, rfl⟩)
      refine ⟨evs, h1, ?_⟩
      rw [Reads, h2]
      exact ⟨_, rfl, .inr (.inl rfl), rfl⟩
    | .option t, w, v, h => by
      rw [Typed] at h
      rcases h with ⟨rfl, rfl⟩ | ⟨h1, h2, y, h3, rfl⟩
      · obtain ⟨evs, h1, h2, -⟩ := word_reads (fo := fo) (w := bs!"null") (.inl ⟨rfl, rfl⟩)
        refine ⟨evs, h1, ?_⟩
        rw [Reads, h2]
        exact .inl ⟨_, rfl, .inr (.inl rfl), rfl⟩
      · obtain ⟨evs, hn, hr⟩ := typed_reads t w y h3
        refine ⟨evs, hn, ?_⟩
        rw [Reads]
        rcases h2 with h2 | h2
        · cases h2
        · exact .inr ⟨not_null hn h1 h2.1 h2.2, y, hr, rfl⟩
    | .vec t, w, v, h => by
      rw [Typed] at h
      obtain ⟨vs, h, rfl⟩ := h
      obtain ⟨evs, h1, h2⟩ := array_reads (fun w x hx => typed_reads t w x hx) h
      refine ⟨_, h1, ?_⟩
      rw [Reads, items_seq]
      exact ⟨0, none, _, vs, rfl, h2, rfl⟩
    | .map k t, w, v, h => by
      rw [Typed] at h
      obtain ⟨kvs, h, rfl⟩ := h
      obtain ⟨evs, h1, h2⟩ := object_reads
        (R := fun es xs => EachPair (Reads fo ofInt (textReading fo) k) (Reads fo ofInt (textReading fo) t) es (xs.map (·.2)))
        .nil (fun n w x hx => by
          obtain ⟨evs, hn, hr⟩ := typed_reads t w x.2 hx.2
          exact ⟨evs, hn, fun es xs hxs => .cons (a := [_]) (key_reads hx.1) hr hxs⟩)
        (fun n w hx => hx.elim) h
      refine ⟨_, h1, ?_⟩
      rw [Reads, items_map]
      exact ⟨0, none, _, _, rfl, h2, rfl⟩
    | .tuple ts, w, v, h => by
      rw [Typed] at h
      obtain ⟨u, vs, rfl, h, rfl⟩ := h
      obtain ⟨evs, h1, h0, -, h2⟩ := typedElements_reads ts u vs h
      refine ⟨_, jnode_seq h1 h0, ?_⟩
      rw [Reads, items_seq]
      exact ⟨0, none, _, vs, rfl, h2, rfl⟩
    | .record deny fs, w, v, h => by
      rw [Typed] at h
      obtain ⟨found, out, h, hnd, hdec, rfl⟩ := h
      obtain ⟨evs, h1, h2⟩ := struct_reads (fo := fo) (declared := (Declared · fs)) (fun n w x hx => typedField_reads fs n w x hx) h hnd hdec
      exact ⟨evs, h1, by rw [Reads]; exact h2⟩
    | .choice vs, w, v, h => by
      rw [Typed] at h
      rcases h with ⟨n, h, hu, rfl⟩ | ⟨n, u, t, y, rfl, hf, h, rfl⟩
      · refine ⟨_, jnode_string h, ?_⟩
        rw [Reads]
        exact .inl ⟨_, n, rfl, rfl, hu, rfl⟩
      · obtain ⟨evs, h1, h2⟩ := typedVariant_reads vs n u y h
        refine ⟨_, jnode_map (object_goal (oneMember_goal (field_goal hf h1.goal))) (.cons (.scalar _) h1.node .nil), ?_⟩
        rw [Reads, items_map, items_member]
        exact .inr ⟨0, none, [_], _, n, y, rfl, resolves_string fo n, by simpa [items] using h2, rfl⟩
  theorem typedElements_reads {fo : FloatOps F} {ofInt : Int → F} : (ts : List Ty) → (w : List Byte) → (vs : List (Val F)) → TypedItems false fo ofInt ts w vs →
      ∃ evs, VGoal (91 :: (w ++ [93])) (.sequenceStart 0 none :: (evs ++ [.sequenceEnd])) ∧ Nodes evs ∧ (ts ≠ [] → EGoal w evs) ∧
        ReadsTuple fo ofInt (textReading fo) ts (items evs) vs
    | [], w, vs, h => by
      rw [TypedItems] at h
      exact ⟨[], emptyArray_goal (.of h.1), .nil, fun h => absurd rfl h, by rw [ReadsTuple]; exact ⟨rfl, h.2⟩⟩
    | t :: ts, w, vs, h => by
      rw [TypedItems] at h
      obtain ⟨a, u, b, v, ha, h, hb, ⟨rfl, rfl, rfl⟩ | ⟨hts, r, rest, rfl, hr, rfl⟩⟩ := h
      · obtain ⟨evs, h1, h2⟩ := typed_reads t u v h
        have hg := one_goal (.of ha) h1.goal (.of hb)
        refine ⟨_, array_goal hg, .cons h1.node .nil, fun _ => hg, ?_⟩
        rw [ReadsTuple, items_append]
        exact ⟨_, _, v, [], rfl, h2, by rw [ReadsTuple]; exact ⟨rfl, rfl⟩, rfl⟩
      · obtain ⟨evs, h1, h2⟩ := typed_reads t u v h
        obtain ⟨evs', -, g2, g1, g3⟩ := typedElements_reads ts r rest hr
        have hg := more_goal (.of ha) h1.goal (.of hb) (g1 hts)
        refine ⟨_, array_goal hg, .cons h1.node g2, fun _ => hg, ?_⟩
        rw [ReadsTuple, items_append]
        exact ⟨_, _, v, rest, rfl, h2, g3, rfl⟩
  theorem typedField_reads {fo : FloatOps F} {ofInt : Int → F} : (fs : List (List Byte × Ty)) → (n w : List Byte) → (v : Val F) → TypedField false fo ofInt n fs w v →
      ∃ evs, JNode w evs ∧ ReadsField fo ofInt (textReading fo) n fs (items evs) v
    | [], n, w, v, h => by rw [TypedField] at h; exact h.elim
    | (x, t) :: fs, n, w, v, h => by
      rw [TypedField] at h
      rcases h with ⟨h1, h2⟩ | ⟨h1, h2⟩
      · obtain ⟨evs, h3, h4⟩ := typed_reads t w v h2
        exact ⟨evs, h3, by rw [ReadsField]; exact .inl ⟨h1, h4⟩⟩
      · obtain ⟨evs, h3, h4⟩ := typedField_reads fs n w v h2
        exact ⟨evs, h3, by rw [ReadsField]; exact .inr ⟨h1, h4⟩⟩
  theorem typedVariant_reads {fo : FloatOps F} {ofInt : Int → F} : (vs : List (List Byte × Variant)) → (n w : List Byte) → (v : Val F) → TypedVariant false fo ofInt n vs w v →
      ∃ evs, JNode w evs ∧ ReadsVariant fo ofInt (textReading fo) n vs (items evs) v
    | [], n, w, v, h => by rw [TypedVariant] at h; exact h.elim
    | (x, t) :: vs, n, w, v, h => by
      rw [TypedVariant] at h
      rcases h with ⟨h1, h2⟩ | ⟨h1, h2⟩
      · obtain ⟨evs, h3, h4⟩ := typedContents_reads t w v h2
        exact ⟨evs, h3, by rw [ReadsVariant]; exact .inl ⟨h1, h4⟩⟩
      · obtain ⟨evs, h3, h4⟩ := typedVariant_reads vs n w v h2
        exact ⟨evs, h3, by rw [ReadsVariant]; exact .inr ⟨h1, h4⟩⟩
  theorem typedContents_reads {fo : FloatOps F} {ofInt : Int → F} : (c : Variant) → (w : List Byte) → (v : Val F) → TypedContents false fo ofInt c w v →
      ∃ evs, JNode w evs ∧ ReadsContents fo ofInt (textReading fo) c (items evs) v
    | .unit, w, v, h => by rw [TypedContents] at h; exact h.elim
    | .newtype t, w, v, h => by
      rw [TypedContents] at h
      obtain ⟨evs, h3, h4⟩ := typed_reads t w v h
      exact ⟨evs, h3, by rw [ReadsContents]; exact h4⟩
    | .tuple ts, w, v, h => by
      rw [TypedContents] at h
      obtain ⟨u, vs, rfl, h, rfl⟩ := h
      obtain ⟨evs, h1, h0, -, h2⟩ := typedElements_reads ts u vs h
      refine ⟨_, jnode_seq h1 h0, ?_⟩
      rw [ReadsContents, items_seq]
      exact ⟨0, none, _, vs, rfl, h2, rfl⟩
    | .struct deny fs, w, v, h => by
      rw [TypedContents] at h
      obtain ⟨found, out, h, hnd, hdec, rfl⟩ := h
      obtain ⟨evs, h1, h2⟩ := struct_reads (fo := fo) (declared := (Declared · fs)) (fun n w x hx => typedField_reads fs n w x hx) h hnd hdec
      exact ⟨evs, h1, by rw [ReadsContents]; exact h2⟩
end

/-- the events of a text, as the parser delivers them -/
theorem json_delivers {a w b evs} (ha : JWs a) (h : JNode w evs) (hb : JWs b) : ∃ N, ∀ cfg n, N ≤ cfg.fuel → N ≤ n →
    ∃ s, Delivers (Loader.parserOn cfg n (a ++ (w ++ b))) (.streamStart :: .documentStart false :: (evs ++ .documentEnd :: [.streamEnd])) s := by
  obtain ⟨tts, hd, hs⟩ := scan_json ha h.goal hb
  refine ⟨(a ++ (w ++ b)).length + tts.length + 5, fun cfg n hf hn => ?_⟩
  obtain ⟨toks, h3, h4⟩ := hs cfg n (by omega) (by omega)
  have hdocs : DerivesDocs true [] (tts ++ [.streamEnd]) (.documentStart false :: (evs ++ [.documentEnd, .streamEnd])) := by
    have := DerivesDocsL.implicit (closed := false) (hd (fun _ => none) .block []) .stop
    simpa using this
  obtain ⟨s, hs, -⟩ := Props.C42_complete_partial hdocs toks h4 .ended (afterNext cfg n (Scanner.new (a ++ (w ++ b)))).mark
  refine ⟨s, ?_⟩
  unfold Loader.parserOn
  rw [h3]
  exact hs

end Verif.Props
