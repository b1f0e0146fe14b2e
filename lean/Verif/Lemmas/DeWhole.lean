import Verif.Props.De
/-!
# Lemmas for C66: what the deserialiser has read when it succeeds, whatever the parser does
-/
namespace Verif.Props
open Verif Verif.Parser Verif.ParserIter Verif.De Verif.Spec

/-- the iterator is inside a document of the parser's run -/
structure InDoc (s0 : PSt) (it : ItSt) : Prop where
  state : it.state = .inDocument
  live : it.p.streamEndEmitted = false
  run : ∃ evs, Delivers s0 evs it.p

theorem next_of_impl {s e sp s'} (hl : s.streamEndEmitted = false) (h : nextEventImpl s = (.ok (e, sp), s')) (he : e ≠ .streamEnd) :
    nextEvent s = (.ok (some (e, sp)), s') := by
  unfold nextEvent
  rw [hl, h]
  simp [he]

theorem live_of_impl {s0 evs s e sp s'} (hf : RunFacts s0 [] s0) (hd : Delivers s0 evs s) (hl : s.streamEndEmitted = false)
    (h : nextEventImpl s = (.ok (e, sp), s')) (he : e ≠ .streamEnd) : s'.streamEndEmitted = false ∧ Parser.measure s' < Parser.measure s := by
  have rf := run_facts hf hd
  obtain ⟨-, s1, h1, ho, -, -, -⟩ := next_facts rf.invc rf.live (next_of_impl hl h he)
  rw [h] at h1
  simp only [Prod.mk.injEq] at h1
  rw [h1.2]
  exact ⟨by rw [ho.kept.2.2.2.1]; exact hl, ho.meas⟩

/-- one call of `process_doc` that gives an item -/
theorem processDoc_item {s0} (hf : RunFacts s0 [] s0) (n : Nat) : ∀ {it o it'}, InDoc s0 it → processDoc n it = (.ok o, it') →
    ∃ evs, Delivers it.p evs it'.p ∧ items evs = [o] ∧ Parser.measure it'.p < Parser.measure it.p ∧ (o = .docEnd ∨ InDoc s0 it') := by
  induction n with
  | zero => intro it o it' _ h; simp [processDoc] at h
  | succ n ih =>
    intro it o it' hi h
    simp only [processDoc, withEvent] at h
    cases hn : nextEventImpl it.p with
    | mk r p =>
      rw [hn] at h
      cases r with
      | ok v =>
        obtain ⟨ev, sp⟩ := v
        obtain ⟨evs0, hd0⟩ := hi.run
        by_cases hse : ev = .streamEnd
        · subst hse; simp at h
        have hne := next_of_impl hi.live hn hse
        obtain ⟨hl, hm⟩ := live_of_impl hf hd0 hi.live hn hse
        have hin : InDoc s0 { it with p := p } := ⟨hi.state, hl, _, .snoc hd0 hne⟩
        have one : Delivers it.p [ev] p := .snoc (evs := []) .nil hne
        cases ev <;> simp only [Prod.mk.injEq, Res.ok.injEq, reduceCtorEq, false_and] at h
        case alias id =>
          obtain ⟨evs, h1, h2, h3, h4⟩ := ih hin h
          exact ⟨_ :: evs, delivers_trans one h1, by simpa [items, notAlias, isAlias] using h2, by simp only at h3; omega, h4⟩
        case comment c =>
          obtain ⟨evs, h1, h2, h3, h4⟩ := ih hin h
          exact ⟨_ :: evs, delivers_trans one h1, by simpa [items, notAlias, isAlias, List.filterMap_cons, item] using h2, by simp only at h3; omega, h4⟩
        case documentEnd =>
          obtain ⟨rfl, rfl⟩ := h
          exact ⟨_, one, rfl, hm, .inl rfl⟩
        all_goals
          obtain ⟨rfl, rfl⟩ := h
          exact ⟨_, one, rfl, hm, .inr hin⟩
      | _ => simp at h

theorem next_item {s0} (hf : RunFacts s0 [] s0) {it o it'} (hi : InDoc s0 it) (h : ParserIter.next it = (.ok (some o), it')) :
    ∃ evs, Delivers it.p evs it'.p ∧ items evs = [o] ∧ Parser.measure it'.p < Parser.measure it.p ∧ (o = .docEnd ∨ InDoc s0 it') := by
  unfold ParserIter.next at h
  rw [hi.state] at h
  dsimp only at h
  cases hp : processDoc (it.p.toks.length + 3) it with
  | mk r it1 =>
    rw [hp] at h
    cases r with
    | ok e =>
      refine processDoc_item hf (it.p.toks.length + 3) hi ?_
      rw [hp]
      cases e <;> simp at h <;> (obtain ⟨rfl, rfl⟩ := h; rfl)
    | _ => simp at h

/-- the items of a document up to its end, or up to where there are no more -/
theorem items_ahead {s0} (hf : RunFacts s0 [] s0) (n : Nat) : ∀ {it}, InDoc s0 it → Parser.measure it.p ≤ n → ∃ L it', Feeds it L it' ∧ Enough true L it' ∧ .docEnd ∉ L.dropLast := by
  induction n with
  | zero =>
    intro it hi hm
    refine ⟨[], it, .nil, .inr ⟨rfl, fun e it1 h => ?_⟩, by simp⟩
    obtain ⟨_, _, _, h3, _⟩ := next_item hf hi h
    omega
  | succ n ih =>
    intro it hi hm
    by_cases hs : Stuck it
    · exact ⟨[], it, .nil, .inr ⟨rfl, hs⟩, by simp⟩
    · unfold Stuck at hs
      simp only [ne_eq, Classical.not_forall, Classical.not_not] at hs
      obtain ⟨e, it1, h⟩ := hs
      obtain ⟨_, _, _, h3, h4⟩ := next_item hf hi h
      by_cases he : e = .docEnd
      · subst he; exact ⟨[.docEnd], it1, .cons h .nil, .inl (by simp), by simp⟩
      · obtain ⟨L, it', h5, h6, h7⟩ := ih (h4.resolve_left he) (by omega)
        refine ⟨e :: L, it', .cons h h5, ?_, ?_⟩
        rotate_left
        · cases L with
          | nil => simp
          | cons x xs => simpa [Ne.symm he] using h7
        rcases h6 with h6 | h6
        · exact .inl (by simp [h6])
        · exact .inr h6

/-- the value's items do not reach the end of the document -/
theorem shape_noEnd {evs rest} (h : NodeShape evs) (hd : .docEnd ∉ (evs ++ rest).dropLast) : .docEnd ∉ evs := by
  intro hm
  cases rest with
  | cons x xs => rw [List.dropLast_append_of_ne_nil (by simp)] at hd; exact hd (by simp [hm])
  | nil =>
    rw [List.append_nil] at hd
    cases h with
    | scalar x => simp at hm
    | seq a tag body =>
      rw [← List.cons_append, List.dropLast_concat] at hd
      simp at hm hd; exact hd hm
    | map a tag body =>
      rw [← List.cons_append, List.dropLast_concat] at hd
      simp at hm hd; exact hd hm

/-- items that were given are events that were delivered -/
theorem feeds_delivers {s0} (hf : RunFacts s0 [] s0) {it L it'} (h : Feeds it L it') : InDoc s0 it → .docEnd ∉ L → ∃ evs, Delivers it.p evs it'.p ∧ items evs = L := by
  induction h with
  | nil => intro _ _; exact ⟨[], .nil, rfl⟩
  | cons hn _ ih =>
    intro hi hd
    simp only [List.mem_cons, not_or] at hd
    obtain ⟨evs, h1, h2, -, h4⟩ := next_item hf hi hn
    obtain ⟨evs', h5, h6⟩ := ih (h4.resolve_left fun hh => hd.1 hh.symm) hd.2
    exact ⟨evs ++ evs', delivers_trans h1 h5, by rw [items_append, h2, h6]; rfl⟩

/-- the first item -/
theorem next_first {toks tail m k o it'} (h : ParserIter.next (ParserIter.start (new toks tail m k)) = (.ok (some o), it')) :
    o = .docStart ∧ Later it' ∧ ∃ b, Delivers (new toks tail m k) [.streamStart, .documentStart b] it'.p ∧ InDoc (new toks tail m k) it' := by
  have h0 := next_start_later h
  have rf := new_facts toks tail m k
  generalize hs0 : new toks tail m k = s0 at h rf ⊢
  have hl0 : s0.streamEndEmitted = false := by rw [← hs0]; rfl
  refine ⟨h0.1, h0.2, ?_⟩
  simp only [ParserIter.next, ParserIter.start, processStart, withEvent] at h
  cases h1 : nextEventImpl s0 with
  | mk r p1 =>
    rw [h1] at h
    cases r with
    | ok v =>
      obtain ⟨ev, sp⟩ := v
      simp only at h
      by_cases hev : ev = .streamStart
      · subst hev
        simp only [ne_eq, not_true_eq_false, if_false] at h
        have n1 := next_of_impl hl0 h1 (by simp)
        have d1 : Delivers s0 [.streamStart] p1 := .snoc (evs := []) .nil n1
        have l1 := (live_of_impl rf .nil hl0 h1 (by simp)).1
        cases h2 : nextEventImpl p1 with
        | mk r2 p2 =>
          rw [h2] at h
          cases r2 with
          | ok v2 =>
            obtain ⟨ev2, sp2⟩ := v2
            cases ev2 <;> simp at h
            case documentStart b =>
              have n2 := next_of_impl l1 h2 (by simp)
              have l2 := (live_of_impl rf d1 l1 h2 (by simp)).1
              have d2 : Delivers s0 [.streamStart, .documentStart b] p2 := .snoc d1 n2
              rw [← h.2]
              exact ⟨b, d2, rfl, l2, _, d2⟩
          | _ => simp at h
      · simp [hev] at h
    | _ => simp at h

/-- any type looks for the start of the document first -/
theorem skipDoc_first {it it1 : ItSt} (hn : ParserIter.next it = (.ok (some .docStart), it1)) (hl : Later it1) :
    skipDoc (fresh it) = skipDoc ⟨it1, .docStart, false⟩ := by
  have h1 : nextEl (fresh it) = .ok (some .docStart, ⟨it1, .docStart, true⟩) := by simp [nextEl, fresh, hn]
  unfold skipDoc
  rw [bind_ok h1]
  dsimp only
  rw [bind_ok (skip_run _)]
  dsimp only
  cases h2 : nextEl ⟨it1, .docStart, false⟩ with
  | error e => rw [bind_err h2]
  | ok r =>
    obtain ⟨o, s1⟩ := r
    rw [bind_ok h2]
    cases o with
    | none => rfl
    | some e =>
      have hne : e ≠ .docStart := by
        unfold nextEl at h2
        simp only [Bool.false_eq_true, if_false] at h2
        cases h3 : ParserIter.next it1 with
        | mk r it2 =>
          rw [h3] at h2
          cases r with
          | ok v =>
            cases v with
            | none => simp at h2
            | some e' =>
              simp only [Except.ok.injEq, Prod.mk.injEq, Option.some.injEq] at h2
              rw [← h2.1]
              exact (next_later hl h3).2
          | _ => simp at h2
      exact (skipDoc_tail hne _).symm

/-- without options, nothing is made of nothing -/
theorem deTy_nothing {F : Type} {n : Nat} {fo : FloatOps F} {ofInt : Int → F} {t : Ty} (ho : WithoutOptions t = true) {s : DSt} {r}
    (h : ∀ e s1, skipDoc s ≠ .ok (some e, s1)) : deTy fo ofInt n t s ≠ .ok r := by
  have key : ∀ {α : Type} {k : Option YamEvent → DM α} {r}, (∀ s, k none s ≠ .ok r) → (skipDoc >>= k) s ≠ .ok r := by
    intro α k r hk
    cases hs : skipDoc s with
    | error e => rw [bind_err hs]; simp
    | ok x =>
      obtain ⟨o, s1⟩ := x
      cases o with
      | some e => exact absurd hs (h e s1)
      | none => rw [bind_ok hs]; exact hk _
  have key2 : ∀ {α β : Type} {k : Option YamEvent → DM α} {f : α → DM β} {r}, (∀ s r, k none s ≠ .ok r) → ((skipDoc >>= k) >>= f) s ≠ .ok r := by
    intro α β k f r hk hh
    obtain ⟨a, s1, h1, -⟩ := bind_inv hh
    exact key (fun s => hk s _) h1
  cases t with
  | option t => simp [WithoutOptions] at ho
  | unit =>
    rw [deTy]
    unfold deUnit peekNull
    intro hh
    obtain ⟨b, s1, h1, h2⟩ := bind_inv hh
    cases b with
    | false => simp [dfail] at h2
    | true => exact key (r := (true, s1)) (fun s => by simp [pure_run]) h1
  | vec t => rw [deTy]; exact key2 fun s r => by dsimp only; rw [bind_ok (last_run _)]; simp [dfail]
  | map k v => rw [deTy]; exact key2 fun s r => by dsimp only; rw [bind_ok (last_run _)]; simp [dfail]
  | tuple ts => rw [deTy]; exact key2 fun s r => by simp [dfail]
  | record d fs => rw [deTy]; exact key2 fun s r => by simp [dfail]
  | _ => rw [deTy]; exact key fun s => by simp [dfail]

end Verif.Props
