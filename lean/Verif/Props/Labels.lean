import Verif.Props.Flow
/-!
# C59: anchors, aliases and tags

`Label`, `Known`, `Marked` and `Items` are in `Verif.Spec.Block`. C54, C57 and C58 have anchors, aliases and tags at any depth of a text.
-/
namespace Verif.Props
open Verif Verif.Spec Verif.Spec.Block Verif.Spec.Core Verif.Scanner
variable {F : Type}

/-- C59, the full statement. A text that is one node with an anchor, a tag or both loads, with enough iterations, as the value of the node under
that tag. After any items of a sequence, an alias loads as the value of the last node before it with that anchor. -/
def C59_full (fo : FloatOps F) : Prop :=
  (∀ f t x E b, Marked true fo (.scalar .null) [] 0 f t x E → End true f b → ∃ N, ∀ cfg n, N ≤ cfg.fuel → N ≤ n → Loader.loadFrom fo cfg n (t ++ b) = .ok [x]) ∧
  ∀ f t xs E g a x b, Items true fo (.scalar .null) [] 0 f t xs E → Gap f 0 g → Name a → Known E a x → Tail b →
    ∃ N, ∀ cfg n, N ≤ cfg.fuel → N ≤ n → Loader.loadFrom fo cfg n (t ++ (g ++ (bs!"- *" ++ (a ++ b)))) = .ok [.seq (xs ++ [x])]

theorem label_head {full l a tg} (h : Label full l a tg) : ∃ r, l = b%'&' :: r ∨ l = b%'!' :: r := by
  cases h with
  | anchor => exact ⟨_, .inl rfl⟩
  | tag h => cases h <;> exact ⟨_, .inr rfl⟩
  | anchorTag => exact ⟨_, .inl rfl⟩
  | tagAnchor _ h => cases h <;> exact ⟨_, .inr rfl⟩

theorem marked_head {full} {fo : FloatOps F} {absent E p f t x E'} (h : Marked full fo absent E p f t x E') : ∃ c r, t = c :: r ∧ c ∈ bs!"&!*" := by
  cases h with
  | alias => exact ⟨_, _, rfl, by decide⟩
  | missing h => obtain ⟨r, rfl | rfl⟩ := label_head h <;> exact ⟨_, _, rfl, by decide⟩
  | inline h => obtain ⟨r, rfl | rfl⟩ := label_head h <;> exact ⟨_, _, rfl, by decide⟩
  | under h => obtain ⟨r, rfl | rfl⟩ := label_head h <;> exact ⟨_, _, rfl, by decide⟩

theorem not_bom {c : Byte} {r : List Byte} (h : c ≠ 0xEF) : (c :: r).take 3 ≠ [0xEF, 0xBB, 0xBF] := by
  intro e
  simp at e
  exact h e.1

/-- one more item -/
theorem items_snoc {full} {fo : FloatOps F} {absent n f f' g r x E₁ E'} (hg : Gap f n g) (h' : Item full fo absent E₁ n f' r x E') :
    ∀ {E t xs}, Items full fo absent E n f t xs E₁ → Items full fo absent E n f' (t ++ (g ++ r)) (xs ++ [x]) E'
  | _, _, _, .one h => .more h hg (.one h')
  | _, _, _, .more h hg₁ hr => by
    have := Items.more h hg₁ (items_snoc hg h' hr)
    simpa using this

theorem items_head {full} {fo : FloatOps F} {absent E n f t xs E'} (h : Items full fo absent E n f t xs E') : ∃ r, t = b%'-' :: r := by
  cases h with
  | one h => cases h <;> exact ⟨_, rfl⟩
  | more h => cases h <;> exact ⟨_, rfl⟩

/-- C59, the first part, with the empty string for a node that is missing, and without tags of the core schema on anything but plain scalars (except `!!str`,
`!!seq` and `!!map`), before numbers in other than decimal notation or capital letters, and in the form `!<…>`. What is missing: these, for
which the claim is false, and what is missing in C54. -/
theorem C59_node_partial {fo : FloatOps F} {f t x E b} (h : Marked false fo (.scalar (.str [])) [] 0 f t x E) (hb : End false f b) :
    ∃ N, ∀ cfg n, N ≤ cfg.fuel → N ≤ n → Loader.loadFrom fo cfg n (t ++ b) = .ok [x] ∧ Loader.loadSingle fo cfg n (t ++ b) = .ok x := by
  refine C54_block_partial ⟨[], 0, f, t, b, E, .nil, .marked h, hb, rfl, ?_⟩
  obtain ⟨c, r, rfl, hc⟩ := marked_head h
  exact not_bom (by rintro rfl; exact absurd hc (by decide))

/-- C59, the second part, with the same exceptions in the items before the alias. -/
theorem C59_alias_partial {fo : FloatOps F} {f t xs E g a x b} (h : Items false fo (.scalar (.str [])) [] 0 f t xs E) (hg : Gap f 0 g) (ha : Name a) (hk : Known E a x)
    (hb : Tail b) : ∃ N, ∀ cfg n, N ≤ cfg.fuel → N ≤ n → Loader.loadFrom fo cfg n (t ++ (g ++ (bs!"- *" ++ (a ++ b)))) = .ok [.seq (xs ++ [x])] := by
  have h2 : Item false fo (.scalar (.str [])) E 0 none (bs!"- *" ++ a) x E := .inline (m := 0) (.marked (.alias ha hk))
  have h3 := items_snoc hg h2 h
  obtain ⟨N, hN⟩ := C54_block_partial (t := t ++ (g ++ (bs!"- *" ++ (a ++ b)))) ⟨[], 0, none, _, b, E, .nil, .seq h3, hb, by simp [spaces], by
    obtain ⟨r, rfl⟩ := items_head h
    exact not_bom (by decide)⟩
  exact ⟨N, fun cfg n hf hn => (hN cfg n hf hn).1⟩

/-- An anchor, any scalar or flow collection, and an alias: the alias loads as a copy, if there is no other anchor with that name in the node. -/
theorem C59_copy_partial {fo : FloatOps F} {f t x I g a b} (h : Bare false fo (.scalar (.str [])) [(a, none)] 1 none f t x ((a, none) :: I)) (hI : ∀ e ∈ I, e.1 ≠ a)
    (hg : Gap f 0 g) (ha : Name a) (hb : Tail b) :
    ∃ N, ∀ cfg n, N ≤ cfg.fuel → N ≤ n →
      Loader.loadFrom fo cfg n ((bs!"- &" ++ (a ++ (bs!" " ++ t))) ++ (g ++ (bs!"- *" ++ (a ++ b)))) = .ok [.seq [x, x]] := by
  have h1 : Items false fo (.scalar (.str [])) [] 0 f (bs!"- &" ++ (a ++ (bs!" " ++ t))) [x] ((a, some x) :: I) :=
    .one (.inline (m := 0) (.marked (.inline (m := 0) (a := some a) (.anchor ha) h .some)))
  exact C59_alias_partial h1 hg ha ⟨[], I, rfl, hI⟩ hb

/-- The same below a label, and for block collections. -/
theorem C59_copy_under_partial {fo : FloatOps F} {f t x I m g' g a b} (h : Body false fo (.scalar (.str [])) [(a, none)] 1 m none f t x ((a, none) :: I)) (hI : ∀ e ∈ I, e.1 ≠ a)
    (hg' : Break m g') (hm : 1 ≤ m) (hg : Gap f 0 g) (ha : Name a) (hb : Tail b) :
    ∃ N, ∀ cfg n, N ≤ cfg.fuel → N ≤ n →
      Loader.loadFrom fo cfg n ((bs!"- &" ++ (a ++ (g' ++ t))) ++ (g ++ (bs!"- *" ++ (a ++ b)))) = .ok [.seq [x, x]] := by
  have h1 : Items false fo (.scalar (.str [])) [] 0 f (bs!"- &" ++ (a ++ (g' ++ t))) [x] ((a, some x) :: I) :=
    .one (.inline (m := 0) (.marked (.under (a := some a) (.anchor ha) hg' hm h .some)))
  exact C59_alias_partial h1 hg ha ⟨[], I, rfl, hI⟩ hb
/-! ## Cases -/

/-- an anchor with a tag, `!!str`, an anchor above a mapping, an anchor of the same name further on, and aliases in block and flow style -/
def labelText : List Byte := bs!"- &a !t x\n- !!str 12\n- &b\n  k: *a\n  l: &a [1, 2]\n- [*a, *b]"

def labelTree : Yaml F :=
  .seq [.tagged ⟨bs!"!", bs!"t"⟩ (.scalar (.str bs!"x")), .scalar (.str bs!"12"),
    .map [(.scalar (.str bs!"k"), .tagged ⟨bs!"!", bs!"t"⟩ (.scalar (.str bs!"x"))), (.scalar (.str bs!"l"), .seq [.scalar (.int 1), .scalar (.int 2)])],
    .seq [.seq [.scalar (.int 1), .scalar (.int 2)],
      .map [(.scalar (.str bs!"k"), .tagged ⟨bs!"!", bs!"t"⟩ (.scalar (.str bs!"x"))), (.scalar (.str bs!"l"), .seq [.scalar (.int 1), .scalar (.int 2)])]]]

theorem label_hello {full} {fo : FloatOps F} {absent} : Text full fo absent labelText labelTree := by
  have w : ∀ {p}, ∀ c ∈ bs!"klx", Tall full fo p [c] (.scalar (.str [c])) := fun c hc => by
    simp at hc
    rcases hc with rfl | rfl | rfl <;> exact block_word ⟨by simp, by simp [Block.Ink], by simp, by simp⟩ (by decide) (resolves_str rfl (by decide))
  have na : Name bs!"a" := ⟨by simp, by simp [Block.Ink]⟩
  have nb : Name bs!"b" := ⟨by simp, by simp [Block.Ink]⟩
  have s0 : ∀ {p}, Space p [] := .inl ⟨0, rfl⟩
  have s1 : ∀ {p}, Space p bs!" " := .inl ⟨1, rfl⟩
  have d : ∀ {p E}, ∀ c ∈ [1, 2], Flow full fo absent p E .plain [48 + c] (.scalar (.int c)) E := fun c hc => by
    simp at hc
    rcases hc with rfl | rfl
    · exact flow_word ⟨by simp, by simp [Block.Ink], by simp, by simp⟩ (by decide) (by simp) (.int (.dec (v := 1) ⟨by simp, by decide⟩) (by unfold Fits64; decide))
    · exact flow_word ⟨by simp, by simp [Block.Ink], by simp, by simp⟩ (by decide) (by simp) (.int (.dec (v := 2) ⟨by simp, by decide⟩) (by unfold Fits64; decide))
  let X : Yaml F := .tagged ⟨bs!"!", bs!"t"⟩ (.scalar (.str bs!"x"))
  let L : Yaml F := .seq [.scalar (.int 1), .scalar (.int 2)]
  let M : Yaml F := .map [(.scalar (.str bs!"k"), X), (.scalar (.str bs!"l"), L)]
  refine ⟨[], 0, none, labelText, [], [(bs!"a", some X), (bs!"b", some M), (bs!"a", some L)], .nil, .seq ?_, .inl (.inl ⟨0, rfl⟩), rfl, by decide⟩
  refine .more (E₁ := [(bs!"a", some X)]) (f₀ := none) (t := bs!"- &a !t x") (g := bs!"\n") (r := bs!"- !!str 12\n- &b\n  k: *a\n  l: &a [1, 2]\n- [*a, *b]") (x := X) ?_ gap_lf ?_
  · refine .inline (m := 0) (t := bs!"&a !t x") (.marked (.inline (l := bs!"&a !t") (a := some bs!"a") (tg := some ⟨bs!"!", bs!"t"⟩) (m := 0) (t := bs!"x") (E₁ := [(bs!"a", none)]) ?_ (.leaf ?_) (.some (I := []))))
    · exact .anchorTag (a := bs!"a") (n := 0) (w := bs!"!t") na (.primary (s := bs!"t") (by simp) (by simp [UriByte]))
    · exact .plain (begins (by decide)) (.one (.one ⟨by simp, by simp [Block.Ink], by simp, by simp⟩)) (.custom (by decide) (resolves_str rfl (by decide)))
  refine .more (E₁ := [(bs!"a", some X)]) (f₀ := none) (t := bs!"- !!str 12") (g := bs!"\n") (r := bs!"- &b\n  k: *a\n  l: &a [1, 2]\n- [*a, *b]") ?_ gap_lf ?_
  · refine .inline (m := 0) (t := bs!"!!str 12") (.marked (.inline (l := bs!"!!str") (a := none) (tg := some ⟨coreTags, bs!"str"⟩) (m := 0) (t := bs!"12") ?_ (.leaf ?_) .none))
    · exact .tag (.secondary (s := bs!"str") (by simp) (by simp [UriByte]))
    · exact .plain (begins (by decide)) (.one (.one ⟨by simp, by simp [Block.Ink], by simp, by simp⟩)) .str
  refine .more (E₁ := [(bs!"a", some X), (bs!"b", some M), (bs!"a", some L)]) (f₀ := none) (t := bs!"- &b\n  k: *a\n  l: &a [1, 2]") (g := bs!"\n") (r := bs!"- [*a, *b]") (x := M) ?_ gap_lf (.one ?_)
  · refine .inline (m := 0) (t := bs!"&b\n  k: *a\n  l: &a [1, 2]") (.marked (.under (l := bs!"&b") (a := some bs!"b") (tg := none) (m := 2) (g := bs!"\n  ") (t := bs!"k: *a\n  l: &a [1, 2]")
      (E₁ := [(bs!"a", some X), (bs!"b", none), (bs!"a", some L)]) (.anchor nb) break_lf (by decide) (.map ?_ .untagged) (.some (E := [(bs!"a", some X)]) (I := [(bs!"a", some L)]))))
    refine .more (E₁ := [(bs!"a", some X), (bs!"b", none)]) (f₀ := none) (t := bs!"k: *a") (g := bs!"\n  ") (r := bs!"l: &a [1, 2]") ?_ gap_lf (.one ?_)
    · exact .marked (k := bs!"k") (j := 0) (m := 0) (t := bs!"*a") ⟨w 107 (by simp), by simp⟩ (by decide) (.alias na ⟨[], [(bs!"b", none)], rfl, by simp⟩)
    · refine .marked (k := bs!"l") (j := 0) (m := 0) (t := bs!"&a [1, 2]") ⟨w 108 (by simp), by simp⟩ (by decide) ?_
      refine .inline (l := bs!"&a") (a := some bs!"a") (tg := none) (m := 0) (t := bs!"[1, 2]") (E₁ := [(bs!"a", some X), (bs!"b", none), (bs!"a", none)]) (.anchor na)
        (.flow (.seq (g := []) (r := bs!"1, 2") (xs := [.scalar (.int 1), .scalar (.int 2)]) s0 ?_ .untagged)) (.some (E := [(bs!"a", some X), (bs!"b", none)]) (I := []))
      exact .more (t := bs!"1") (g := []) (g' := bs!" ") (r := bs!"2") (.node (d 1 (by simp))) s0 s1 (.last (t := bs!"2") (g := []) (.node (d 2 (by simp))) s0)
  · refine .inline (m := 0) (t := bs!"[*a, *b]") (.flow (.seq (g := []) (r := bs!"*a, *b") s0 ?_ .untagged))
    exact .more (t := bs!"*a") (g := []) (g' := bs!" ") (r := bs!"*b") (.node (.alias na ⟨[(bs!"a", some X), (bs!"b", some M)], [], rfl, by simp⟩)) s0 s1
      (.last (t := bs!"*b") (g := []) (.node (.alias nb ⟨[(bs!"a", some X)], [(bs!"a", some L)], rfl, by simp⟩)) s0)

/-- and it loads -/
example (fo : FloatOps F) : ∃ N, ∀ cfg n, N ≤ cfg.fuel → N ≤ n → Loader.loadFrom fo cfg n labelText = .ok [labelTree] ∧ Loader.loadSingle fo cfg n labelText = .ok labelTree :=
  C54_block_partial label_hello

/-- a block scalar and its copy -/
example (fo : FloatOps F) : ∃ N, ∀ cfg n, N ≤ cfg.fuel → N ≤ n →
    Loader.loadFrom fo cfg n bs!"- &x |-\n\n   # a\n    b\n\n\n- *x" = .ok [.seq [.scalar (.str bs!"\n# a\n b"), .scalar (.str bs!"\n# a\n b")]] :=
  C59_copy_partial (a := bs!"x") (I := []) (t := bs!"|-\n\n   # a\n    b\n\n") (g := bs!"\n") (b := []) (.block (scroll_literal (by decide)) .untagged) (by simp) (.inl ⟨by decide, rfl⟩)
    ⟨by simp, by simp [Block.Ink]⟩ (.inl (.inl ⟨0, rfl⟩))

/-! ## What is false -/

/-- C59 is false. `!!int 0x1F` and `!!int "5"` do not load as integers, and a tag of the core schema that is written in full is kept. -/
theorem C59_labels_false (fo : FloatOps F) :
    (∀ absent, (∃ E, Marked true fo absent [] 0 none bs!"!!int 0x1F" (.scalar (.int 31)) E) ∧
      ∀ cfg n, 40 ≤ cfg.fuel → 40 ≤ n → Loader.loadFrom fo cfg n bs!"!!int 0x1F" = .ok [.bad]) ∧
    (∀ absent, (∃ E, Marked true fo absent [] 0 none bs!"!!int \"5\"" (.scalar (.int 5)) E) ∧
      ∀ cfg n, 40 ≤ cfg.fuel → 40 ≤ n → Loader.loadFrom fo cfg n bs!"!!int \"5\"" = .ok [.scalar (.str bs!"5")]) ∧
    (∀ absent, (∃ E, Marked true fo absent [] 0 none bs!"!<tag:yaml.org,2002:str> 12" (.scalar (.str bs!"12")) E) ∧
      ∀ cfg n, 60 ≤ cfg.fuel → 60 ≤ n → Loader.loadFrom fo cfg n bs!"!<tag:yaml.org,2002:str> 12" = .ok [.tagged ⟨[], bs!"tag:yaml.org,2002:str"⟩ (.scalar (.int 12))]) ∧
    ¬ C59_full fo := by
  have hi : ∀ {full}, TagText full bs!"!!int" ⟨coreTags, bs!"int"⟩ := .secondary (s := bs!"int") (by simp) (by simp [UriByte])
  have m1 : ∀ absent : Yaml F, Marked true fo absent [] 0 none bs!"!!int 0x1F" (.scalar (.int 31)) [] := fun absent =>
    .inline (l := bs!"!!int") (a := none) (tg := some ⟨coreTags, bs!"int"⟩) (m := 0) (t := bs!"0x1F") (.tag hi)
      (.leaf (.plain (begins (by decide)) (.one (.one ⟨by simp, by simp [Block.Ink], by simp, by simp⟩)) (.int (.hex (s := bs!"1F") (v := 31) ⟨by simp, by decide⟩) (by unfold Fits64; decide) (by simp)))) .none
  have m2 : ∀ absent : Yaml F, Marked true fo absent [] 0 none bs!"!!int \"5\"" (.scalar (.int 5)) [] := fun absent =>
    .inline (l := bs!"!!int") (a := none) (tg := some ⟨coreTags, bs!"int"⟩) (m := 0) (t := bs!"\"5\"") (.tag hi)
      (.leaf (.double (w := bs!"5") (.raw (by decide) (by decide) (by decide) .nil) (.core rfl (.int (.dec (v := 5) ⟨by simp, by decide⟩) (by unfold Fits64; decide) (by simp))))) .none
  have m3 : ∀ absent : Yaml F, Marked true fo absent [] 0 none bs!"!<tag:yaml.org,2002:str> 12" (.scalar (.str bs!"12")) [] := fun absent =>
    .inline (l := bs!"!<tag:yaml.org,2002:str>") (a := none) (tg := some ⟨coreTags, bs!"str"⟩) (m := 0) (t := bs!"12") (.tag (.verbatimCore (s := bs!"str") rfl (by simp) (by simp [UriByte])))
      (.leaf (.plain (begins (by decide)) (.one (.one ⟨by simp, by simp [Block.Ink], by simp, by simp⟩)) .str)) .none
  have e1 : ∀ cfg n, 40 ≤ cfg.fuel → 40 ≤ n → Loader.loadFrom fo cfg n bs!"!!int 0x1F" = .ok [.bad] := fun cfg n =>
    load_more (i := bs!"!!int 0x1F") (evs := [.streamStart, .documentStart false, .scalar ⟨bs!"0x1F", .plain, 0, some ⟨coreTags, bs!"int"⟩⟩, .documentEnd, .streamEnd]) (by decide +kernel) rfl (by decide +kernel)
  have e2 : ∀ cfg n, 40 ≤ cfg.fuel → 40 ≤ n → Loader.loadFrom fo cfg n bs!"!!int \"5\"" = .ok [.scalar (.str bs!"5")] := fun cfg n =>
    load_more (i := bs!"!!int \"5\"") (evs := [.streamStart, .documentStart false, .scalar ⟨bs!"5", .doubleQuote, 0, some ⟨coreTags, bs!"int"⟩⟩, .documentEnd, .streamEnd]) (by decide +kernel) rfl (by decide +kernel)
  have e3 : ∀ cfg n, 60 ≤ cfg.fuel → 60 ≤ n → Loader.loadFrom fo cfg n bs!"!<tag:yaml.org,2002:str> 12" = .ok [.tagged ⟨[], bs!"tag:yaml.org,2002:str"⟩ (.scalar (.int 12))] := fun cfg n =>
    load_more (i := bs!"!<tag:yaml.org,2002:str> 12") (evs := [.streamStart, .documentStart false, .scalar ⟨bs!"12", .plain, 0, some ⟨[], bs!"tag:yaml.org,2002:str"⟩⟩, .documentEnd, .streamEnd]) (by decide +kernel) rfl (by decide +kernel)
  refine ⟨fun absent => ⟨⟨[], m1 absent⟩, e1⟩, fun absent => ⟨⟨[], m2 absent⟩, e2⟩, fun absent => ⟨⟨[], m3 absent⟩, e3⟩, fun h => ?_⟩
  obtain ⟨N, hN⟩ := h.1 _ _ _ _ [] (m2 _) (.inl (.inl ⟨0, rfl⟩))
  have := hN ⟨N + 40, false⟩ (N + 40) (by simp) (by simp)
  rw [List.append_nil, e2 _ _ (by simp) (by simp)] at this
  cases this

end Verif.Props
