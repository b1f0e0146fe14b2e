import Verif.Model.Loader
import Verif.Spec.Trees
import Verif.Spec.Anchors
import Verif.Lemmas.EventGrammar
/-!
# What the loader does with well-nested events
-/
namespace Verif.Loader
open Verif Verif.Spec Verif.Grammar

variable {F : Type}

theorem onEvents_append (fo : FloatOps F) (s : LdSt F) (es fs : List Event) :
    onEvents fo s (es ++ fs) = (onEvents fo s es).bind fun s' => onEvents fo s' fs := by
  induction es generalizing s with
  | nil => rfl
  | cons e es ih =>
    simp only [List.cons_append, onEvents]
    cases onEvent fo s e <;> simp [ih]

/-- a node may be inserted -/
def Ready (s : LdSt F) : Prop :=
  match s.docStack with
  | [] => True
  | (.seq _, _, _) :: _ => True
  | (.map _, _, _) :: _ => s.keyStack ≠ []
  | _ => False

/-- `s'` is `s` with the node `x` added -/
inductive Put (x : Yaml F) : LdSt F → LdSt F → Prop
  | root {d ks m m' a t} : Put x ⟨d, [], ks, m⟩ ⟨d, [(x, a, t)], ks, m'⟩
  | seq {d items a t r ks m m'} : Put x ⟨d, (.seq items, a, t) :: r, ks, m⟩ ⟨d, (.seq (items ++ [x]), a, t) :: r, ks, m'⟩
  | key {d es a t r k ks m m'} : isBadValue k = true →
      Put x ⟨d, (.map es, a, t) :: r, k :: ks, m⟩ ⟨d, (.map es, a, t) :: r, x :: ks, m'⟩
  | value {d es a t r k ks m m'} : isBadValue k = false →
      Put x ⟨d, (.map es, a, t) :: r, k :: ks, m⟩ ⟨d, (.map (es ++ [(k, x)]), a, t) :: r, .bad :: ks, m'⟩

theorem noteAnchor_map (s : LdSt F) (x : Yaml F) (a : Nat) : (noteAnchor s x a).anchorMap = Anchored.bind s.anchorMap a x := by
  unfold noteAnchor Anchored.bind
  split
  · rename_i h; funext i; simp [h]
  · rename_i h; funext i; simp [h]

theorem insert_put {s : LdSt F} {x : Yaml F} {a t} (h : Ready s) (ht : retag x t = x) :
    ∃ s', insertNewNode s x a t = some s' ∧ Put x s s' ∧ s'.anchorMap = Anchored.bind s.anchorMap a x := by
  have hm := noteAnchor_map s x a
  have e : noteAnchor s x a = ⟨s.docs, s.docStack, s.keyStack, Anchored.bind s.anchorMap a x⟩ := by
    rw [← hm]; unfold noteAnchor; split <;> rfl
  unfold insertNewNode
  simp only [e, ht]
  obtain ⟨d, st, ks, m⟩ := s
  unfold Ready at h
  dsimp only at h ⊢
  split at h
  · exact ⟨_, rfl, .root, rfl⟩
  · exact ⟨_, rfl, .seq, rfl⟩
  · cases ks with
    | nil => exact absurd rfl h
    | cons k ks =>
      dsimp only
      cases hk : isBadValue k with
      | true => exact ⟨_, rfl, .key hk, rfl⟩
      | false => exact ⟨_, rfl, .value hk, rfl⟩
  · exact h.elim

theorem value_not_collection (fo : FloatOps F) (v st t) : retag (Scalar.valueFromCowAndMetadata fo v st t) t =
    Scalar.valueFromCowAndMetadata fo v st t := by
  have : isCollection (Scalar.valueFromCowAndMetadata fo v st t) = false := by
    unfold Scalar.valueFromCowAndMetadata
    dsimp only
    split
    · split
      · rfl
      · split <;> (try cases ‹Scalar F› <;> rfl) <;> rfl
    · split <;> (try cases ‹Scalar F› <;> rfl) <;> rfl
  unfold retag
  split <;> simp [this]

theorem wrapTag_eq (x : Yaml F) (t) : wrapTag x t = taggedAs t x := by
  unfold wrapTag taggedAs
  cases t with
  | none => rfl
  | some t => cases h : t.isYamlCoreSchema <;> simp [h]

theorem good_key {k : Yaml F} (h : UntaggedKey k) : isBadValue k = false := by
  unfold isBadValue
  cases k with
  | bad => exact absurd rfl h.1
  | tagged t x => exact absurd rfl (h.2 t x)
  | scalar s => cases s <;> rfl
  | _ => rfl

mutual
  theorem tree_run {fo : FloatOps F} {A evs x A'} (h : Tree UntaggedKey fo A evs x A') {s : LdSt F} (hs : Ready s)
      (hA : s.anchorMap = A) : ∃ s', onEvents fo s evs = some s' ∧ Put x s s' ∧ s'.anchorMap = A' := by
    match h with
    | .scalar v =>
      obtain ⟨s', h1, h2, h3⟩ := insert_put (a := v.anchorId) hs (value_not_collection fo v.value v.style v.tag)
      exact ⟨s', by simp [onEvents, onEvent, h1], h2, by rw [h3, hA]⟩
    | .alias hx =>
      obtain ⟨s', h1, h2, h3⟩ := insert_put (a := 0) (x := x) (t := none) hs rfl
      refine ⟨s', ?_, h2, ?_⟩
      · simp only [onEvents, onEvent]; rw [hA, hx, Option.getD_some, h1]; rfl
      · rw [h3, hA]; funext i; simp [Anchored.bind]
    | .dangling hx =>
      obtain ⟨s', h1, h2, h3⟩ := insert_put (a := 0) (x := .bad) (t := none) hs rfl
      refine ⟨s', ?_, h2, ?_⟩
      · simp only [onEvents, onEvent]; rw [hA, hx, Option.getD_none, h1]; rfl
      · rw [h3, hA]; funext i; simp [Anchored.bind]
    | .seq (a := a) (t := t) (body := body) (xs := xs) hb =>
      have := trees_run hb (s := { s with docStack := (.seq [], a, t) :: s.docStack }) (items := []) (a := a) (t := t) rfl hA
      obtain ⟨s1, h1, h2, h3, h4, h5⟩ := this
      have e : endCollection s1 = insertNewNode { s1 with docStack := s.docStack } (taggedAs t (.seq xs)) a none := by
        simp [endCollection, h2, wrapTag_eq]
      have hr : Ready { s1 with docStack := s.docStack } := by simp only [Ready, h3] at hs ⊢; exact hs
      obtain ⟨s', i1, i2, i3⟩ := insert_put (a := a) (x := taggedAs t (.seq xs)) (t := none) hr rfl
      refine ⟨s', ?_, ?_, ?_⟩
      · simp only [onEvents, onEvent, Option.bind_some]
        rw [onEvents_append, h1]
        simp [onEvents, onEvent, e, i1]
      · have : { s1 with docStack := s.docStack } = { s with anchorMap := s1.anchorMap } := by
          obtain ⟨_, _, _, _⟩ := s; obtain ⟨_, _, _, _⟩ := s1; simp_all
        rw [this] at i2
        generalize taggedAs t (Yaml.seq xs) = y at i2
        obtain ⟨d, st, ks, m⟩ := s
        dsimp only at i2
        cases i2 with
        | root => exact .root
        | seq => exact .seq
        | key hk => exact .key hk
        | value hk => exact .value hk
      · rw [i3, ← h5]
    | .map (a := a) (t := t) (body := body) (ps := ps) hb =>
      have := pairs_run hb (s := { s with docStack := (.map [], a, t) :: s.docStack, keyStack := .bad :: s.keyStack }) (items := [])
        (a := a) (t := t) (ks := s.keyStack) rfl rfl hA
      obtain ⟨s1, h1, h2, h3, h4, h5⟩ := this
      have e : endCollection { s1 with keyStack := s.keyStack } =
          insertNewNode { s1 with docStack := s.docStack, keyStack := s.keyStack } (taggedAs t (.map ps)) a none := by
        simp [endCollection, h2, wrapTag_eq]
      have hr : Ready { s1 with docStack := s.docStack, keyStack := s.keyStack } := by simp only [Ready] at hs ⊢; exact hs
      obtain ⟨s', i1, i2, i3⟩ := insert_put (a := a) (x := taggedAs t (.map ps)) (t := none) hr rfl
      refine ⟨s', ?_, ?_, ?_⟩
      · simp only [onEvents, onEvent, Option.bind_some]
        rw [onEvents_append, h1]
        simp [onEvents, onEvent, h3, e, i1]
      · have : { s1 with docStack := s.docStack, keyStack := s.keyStack } = { s with anchorMap := s1.anchorMap } := by
          obtain ⟨_, _, _, _⟩ := s; obtain ⟨_, _, _, _⟩ := s1; simp_all
        rw [this] at i2
        generalize taggedAs t (Yaml.map ps) = y at i2
        obtain ⟨d, st, ks, m⟩ := s
        dsimp only at i2
        cases i2 with
        | root => exact .root
        | seq => exact .seq
        | key hk => exact .key hk
        | value hk => exact .value hk
      · rw [i3, ← h5]
  theorem trees_run {fo : FloatOps F} {A evs xs A'} (h : Trees UntaggedKey fo A evs xs A') {s : LdSt F} {items a t r}
      (hd : s.docStack = (.seq items, a, t) :: r) (hA : s.anchorMap = A) :
      ∃ s', onEvents fo s evs = some s' ∧ s'.docStack = (.seq (items ++ xs), a, t) :: r ∧ s'.keyStack = s.keyStack ∧
        s'.docs = s.docs ∧ s'.anchorMap = A' := by
    match h with
    | .nil => exact ⟨s, rfl, by simp [hd], rfl, rfl, hA⟩
    | .cons (x := x) (xs := xs) hx hxs =>
      obtain ⟨s1, h1, h2, h3⟩ := tree_run hx (s := s) (by simp [Ready, hd]) hA
      have hp : s1.docStack = (.seq (items ++ [x]), a, t) :: r ∧ s1.keyStack = s.keyStack ∧ s1.docs = s.docs := by
        cases h2 <;> simp_all
      obtain ⟨s2, i1, i2, i3, i4, i5⟩ := trees_run hxs hp.1 h3
      exact ⟨s2, by rw [onEvents_append, h1]; exact i1, by simp [i2], by rw [i3, hp.2.1], by rw [i4, hp.2.2], i5⟩
  theorem pairs_run {fo : FloatOps F} {A evs ps A'} (h : TreePairs UntaggedKey fo A evs ps A') {s : LdSt F} {items a t r ks}
      (hd : s.docStack = (.map items, a, t) :: r) (hk : s.keyStack = .bad :: ks) (hA : s.anchorMap = A) :
      ∃ s', onEvents fo s evs = some s' ∧ s'.docStack = (.map (items ++ ps), a, t) :: r ∧ s'.keyStack = .bad :: ks ∧
        s'.docs = s.docs ∧ s'.anchorMap = A' := by
    match h with
    | .nil => exact ⟨s, rfl, by simp [hd], hk, rfl, hA⟩
    | .cons (k := k) (v := v) hkt hgood hvt hps =>
      obtain ⟨s1, h1, h2, h3⟩ := tree_run hkt (s := s) (by simp [Ready, hd, hk]) hA
      have hp : s1.docStack = (.map items, a, t) :: r ∧ s1.keyStack = k :: ks ∧ s1.docs = s.docs := by
        cases h2 <;> simp_all
        rename_i hb
        exact absurd hb (by simp [isBadValue, Index.getType])
      obtain ⟨s2, j1, j2, j3⟩ := tree_run hvt (s := s1) (by simp [Ready, hp.1, hp.2.1]) h3
      have hq : s2.docStack = (.map (items ++ [(k, v)]), a, t) :: r ∧ s2.keyStack = .bad :: ks ∧ s2.docs = s.docs := by
        have := good_key hgood
        cases j2 <;> simp_all
      obtain ⟨s3, i1, i2, i3, i4, i5⟩ := pairs_run hps hq.1 hq.2.1 j3
      refine ⟨s3, ?_, by simp [i2], i3, by rw [i4, hq.2.2], i5⟩
      rw [onEvents_append, h1]
      simp only [Option.bind_some]
      rw [onEvents_append, j1]; exact i1
end

theorem docs_run {fo : FloatOps F} {A evs xs} (h : TreeDocs UntaggedKey fo A evs xs) {s : LdSt F} (hd : s.docStack = [])
    (hA : s.anchorMap = A) : ∃ s', onEvents fo s evs = some s' ∧ s'.docStack = [] ∧ s'.docs = s.docs ++ xs := by
  induction h generalizing s with
  | nil => exact ⟨s, rfl, hd, by simp⟩
  | cons e hx _ ih =>
    rename_i n x A1 es xs _
    obtain ⟨s1, h1, h2, h3⟩ := tree_run hx (s := s) (by simp [Ready, hd]) hA
    have hp : ∃ a t, s1.docStack = [(x, a, t)] ∧ s1.docs = s.docs := by cases h2 <;> simp_all
    obtain ⟨a, t, hp, hdoc⟩ := hp
    obtain ⟨s2, i1, i2, i3⟩ := ih (s := { s1 with docs := s1.docs ++ [x], docStack := [] }) rfl h3
    refine ⟨s2, ?_, i2, by simp [i3, hdoc]⟩
    simp only [onEvents, onEvent, Option.bind_some]
    rw [onEvents_append, h1]
    simp only [Option.bind_some, onEvents, onEvent, hp]
    exact i1

/-! ## Any well-nested events: no panic -/

/-- the anchor number of the node that begins `evs` -/
def nodeAnchor (evs : List Event) : Nat := match evs with
  | e :: _ => definedAnchor e
  | [] => 0

mutual
  theorem node_total {fo : FloatOps F} {evs} (h : Node evs) {s : LdSt F} (hs : Ready s) :
      ∃ x s', onEvents fo s evs = some s' ∧ Put x s s' ∧ (0 < nodeAnchor evs → s'.anchorMap (nodeAnchor evs) = some x) := by
    match h with
    | .scalar v =>
      obtain ⟨s', h1, h2, h3⟩ := insert_put (a := v.anchorId) hs (value_not_collection fo v.value v.style v.tag)
      exact ⟨_, s', by simp [onEvents, onEvent, h1], h2, by rw [h3]; intro hh; simp_all [nodeAnchor, definedAnchor, Anchored.bind]⟩
    | .alias id =>
      obtain ⟨s', h1, h2, h3⟩ := insert_put (a := 0) (x := (s.anchorMap id).getD .bad) (t := none) hs rfl
      exact ⟨_, s', by simp [onEvents, onEvent, h1], h2, by rw [h3]; intro hh; simp_all [nodeAnchor, definedAnchor, Anchored.bind]⟩
    | .seq a t (body := body) hb =>
      obtain ⟨xs, s1, h1, h2, h3, h4⟩ := nodes_total (fo := fo) hb (s := { s with docStack := (.seq [], a, t) :: s.docStack })
        (items := []) (a := a) (t := t) rfl
      have e : endCollection s1 = insertNewNode { s1 with docStack := s.docStack } (taggedAs t (.seq xs)) a none := by
        simp [endCollection, h2, wrapTag_eq]
      have hr : Ready { s1 with docStack := s.docStack } := by simp only [Ready, h3] at hs ⊢; exact hs
      obtain ⟨s', i1, i2, i3⟩ := insert_put (a := a) (x := taggedAs t (.seq xs)) (t := none) hr rfl
      refine ⟨taggedAs t (.seq xs), s', ?_, ?_, by rw [i3]; intro hh; simp_all [nodeAnchor, definedAnchor, Anchored.bind]⟩
      · simp only [onEvents, onEvent, Option.bind_some]
        rw [onEvents_append, h1]
        simp [onEvents, onEvent, e, i1]
      · have : { s1 with docStack := s.docStack } = { s with anchorMap := s1.anchorMap } := by
          obtain ⟨_, _, _, _⟩ := s; obtain ⟨_, _, _, _⟩ := s1; simp_all
        rw [this] at i2
        generalize taggedAs t (Yaml.seq xs) = y at i2 ⊢
        obtain ⟨d, st, ks, m⟩ := s
        dsimp only at i2
        cases i2 with
        | root => exact .root
        | seq => exact .seq
        | key hk => exact .key hk
        | value hk => exact .value hk
    | .map a t (body := body) hb =>
      obtain ⟨ps, k, s1, h1, h2, h3, h4⟩ := pairs_total (fo := fo) hb
        (s := { s with docStack := (.map [], a, t) :: s.docStack, keyStack := .bad :: s.keyStack }) (items := [])
        (a := a) (t := t) (k := .bad) (ks := s.keyStack) rfl rfl
      have e : endCollection { s1 with keyStack := s.keyStack } =
          insertNewNode { s1 with docStack := s.docStack, keyStack := s.keyStack } (taggedAs t (.map ps)) a none := by
        simp [endCollection, h2, wrapTag_eq]
      have hr : Ready { s1 with docStack := s.docStack, keyStack := s.keyStack } := by simp only [Ready] at hs ⊢; exact hs
      obtain ⟨s', i1, i2, i3⟩ := insert_put (a := a) (x := taggedAs t (.map ps)) (t := none) hr rfl
      refine ⟨taggedAs t (.map ps), s', ?_, ?_, by rw [i3]; intro hh; simp_all [nodeAnchor, definedAnchor, Anchored.bind]⟩
      · simp only [onEvents, onEvent, Option.bind_some]
        rw [onEvents_append, h1]
        simp [onEvents, onEvent, h3, e, i1]
      · have : { s1 with docStack := s.docStack, keyStack := s.keyStack } = { s with anchorMap := s1.anchorMap } := by
          obtain ⟨_, _, _, _⟩ := s; obtain ⟨_, _, _, _⟩ := s1; simp_all
        rw [this] at i2
        generalize taggedAs t (Yaml.map ps) = y at i2 ⊢
        obtain ⟨d, st, ks, m⟩ := s
        dsimp only at i2
        cases i2 with
        | root => exact .root
        | seq => exact .seq
        | key hk => exact .key hk
        | value hk => exact .value hk
  theorem nodes_total {fo : FloatOps F} {evs} (h : Nodes evs) {s : LdSt F} {items a t r}
      (hd : s.docStack = (.seq items, a, t) :: r) :
      ∃ xs s', onEvents fo s evs = some s' ∧ s'.docStack = (.seq (items ++ xs), a, t) :: r ∧ s'.keyStack = s.keyStack ∧
        s'.docs = s.docs := by
    match h with
    | .nil => exact ⟨[], s, rfl, by simp [hd], rfl, rfl⟩
    | .cons hx hxs =>
      obtain ⟨x, s1, h1, h2, -⟩ := node_total (fo := fo) hx (s := s) (by simp [Ready, hd])
      have hp : s1.docStack = (.seq (items ++ [x]), a, t) :: r ∧ s1.keyStack = s.keyStack ∧ s1.docs = s.docs := by
        cases h2 <;> simp_all
      obtain ⟨xs, s2, i1, i2, i3, i4⟩ := nodes_total (fo := fo) hxs hp.1
      exact ⟨x :: xs, s2, by rw [onEvents_append, h1]; exact i1, by simp [i2], by rw [i3, hp.2.1], by rw [i4, hp.2.2]⟩
  theorem pairs_total {fo : FloatOps F} {evs} (h : Pairs evs) {s : LdSt F} {items a t r k ks}
      (hd : s.docStack = (.map items, a, t) :: r) (hk : s.keyStack = k :: ks) :
      ∃ ps k' s', onEvents fo s evs = some s' ∧ s'.docStack = (.map (items ++ ps), a, t) :: r ∧ s'.keyStack = k' :: ks ∧
        s'.docs = s.docs := by
    match h with
    | .nil => exact ⟨[], k, s, rfl, by simp [hd], hk, rfl⟩
    | .cons hkt hvt hps =>
      have one : ∀ {evs} {s : LdSt F} {items k}, Node evs → s.docStack = (.map items, a, t) :: r → s.keyStack = k :: ks →
          (∃ x s1, onEvents fo s evs = some s1 ∧ Put x s s1 ∧ (0 < nodeAnchor evs → s1.anchorMap (nodeAnchor evs) = some x)) →
          ∃ ps k' s1, onEvents fo s evs = some s1 ∧ s1.docStack = (.map (items ++ ps), a, t) :: r ∧ s1.keyStack = k' :: ks ∧
            s1.docs = s.docs := by
        rintro evs s items k - hd hk ⟨x, s1, h1, h2, -⟩
        cases hb : isBadValue k with
        | true => exact ⟨[], x, s1, h1, by cases h2 <;> simp_all⟩
        | false => exact ⟨[(k, x)], .bad, s1, h1, by cases h2 <;> simp_all⟩
      obtain ⟨ps1, k1, s1, h1, h2, h3, h4⟩ := one hkt hd hk (node_total hkt (by simp [Ready, hd, hk]))
      obtain ⟨ps2, k2, s2, j1, j2, j3, j4⟩ := one hvt h2 h3 (node_total hvt (by simp [Ready, h2, h3]))
      obtain ⟨ps3, k3, s3, i1, i2, i3, i4⟩ := pairs_total (fo := fo) hps j2 j3
      refine ⟨ps1 ++ ps2 ++ ps3, k3, s3, ?_, by simp [i2], i3, by rw [i4, j4, h4]⟩
      rw [onEvents_append, h1]
      simp only [Option.bind_some]
      rw [onEvents_append, j1]; exact i1
end

theorem documents_total {fo : FloatOps F} {evs} (h : Documents evs) {s : LdSt F} (hd : s.docStack = []) :
    ∃ xs s', onEvents fo s evs = some s' ∧ s'.docStack = [] ∧ s'.docs = s.docs ++ xs := by
  induction h generalizing s with
  | nil => exact ⟨[], s, rfl, hd, by simp⟩
  | cons e hx _ ih =>
    obtain ⟨x, s1, h1, h2, -⟩ := node_total (fo := fo) hx (s := s) (by simp [Ready, hd])
    have hp : ∃ a t, s1.docStack = [(x, a, t)] ∧ s1.docs = s.docs := by cases h2 <;> simp_all
    obtain ⟨a, t, hp, hdoc⟩ := hp
    obtain ⟨xs, s2, i1, i2, i3⟩ := ih (s := { s1 with docs := s1.docs ++ [x], docStack := [] }) rfl
    refine ⟨x :: xs, s2, ?_, i2, by simp [i3, hdoc]⟩
    simp only [onEvents, onEvent, Option.bind_some]
    rw [onEvents_append, h1]
    simp only [Option.bind_some, onEvents, onEvent, hp]
    exact i1

theorem stream_total {fo : FloatOps F} {evs} (h : Stream evs) : ∃ s, onEvents fo (init : LdSt F) evs = some s := by
  obtain ⟨h⟩ := h
  obtain ⟨xs, s, h1, -, -⟩ := documents_total (fo := fo) h (s := init) rfl
  refine ⟨s, ?_⟩
  simp only [onEvents, onEvent, Option.bind_some]
  rw [onEvents_append, h1]
  rfl

/-! ## The loader's stacks follow the grammar -/

mutual
  theorem steps_node {evs} (h : Node evs) {f a fs} (ha : after f = some a) : steps (f :: fs) evs = some (a ++ fs) := by
    match h with
    | .scalar v => simp [steps, step, ha]
    | .alias v => simp [steps, step, ha]
    | .seq _ _ hb =>
      simp only [steps, step, ha, Option.map_some, Option.bind_some]
      rw [steps_append, steps_nodes hb]; rfl
    | .map _ _ hb =>
      simp only [steps, step, ha, Option.map_some, Option.bind_some]
      rw [steps_append, steps_pairs hb]; rfl
  theorem steps_nodes {evs} (h : Nodes evs) {fs} : steps (.seq :: fs) evs = some (.seq :: fs) := by
    match h with
    | .nil => rfl
    | .cons hx hxs => rw [steps_append, steps_node hx (a := [.seq]) rfl]; exact steps_nodes hxs
  theorem steps_pairs {evs} (h : Pairs evs) {fs} : steps (.key :: fs) evs = some (.key :: fs) := by
    match h with
    | .nil => rfl
    | .cons hk hv hps =>
      rw [steps_append, steps_node hk (a := [.val]) rfl]
      simp only [Option.bind_some, List.singleton_append]
      rw [steps_append, steps_node hv (a := [.key]) rfl]
      exact steps_pairs hps
end

theorem steps_documents {evs} (h : Documents evs) {fs} : steps (.docStart :: fs) evs = some (.docStart :: fs) := by
  induction h with
  | nil => rfl
  | cons e hn _ ih =>
    simp only [steps, step, Option.bind_some]
    rw [steps_append, steps_node hn (a := []) rfl]
    simpa [steps, step] using ih

theorem steps_stream {evs} (h : Stream evs) : steps [.streamStart] evs = some [] := by
  obtain ⟨h⟩ := h
  simp only [steps, step, Option.bind_some]
  rw [steps_append, steps_documents h]; rfl

theorem steps_prefix {evs} (h : StreamPrefix evs) : ∃ fs, steps [.streamStart] evs = some fs := by
  obtain ⟨r, h⟩ := h
  have := steps_stream h
  rw [steps_append] at this
  cases he : steps [.streamStart] evs with
  | none => simp [he] at this
  | some fs => exact ⟨fs, rfl⟩

/-- open collections and the frames below the node being read -/
inductive Under : List Frame → List (Yaml F × Nat × Option Tag) → List (Yaml F) → Prop
  | doc {ks} : Under [.docEnd] [] ks
  | seq {fs st ks xs a t} : Under fs st ks → Under (.seq :: fs) ((.seq xs, a, t) :: st) ks
  | key {fs st k ks es a t} : Under fs st ks → Under (.key :: fs) ((.map es, a, t) :: st) (k :: ks)
  | val {fs st k ks es a t} : Under fs st ks → Under (.val :: fs) ((.map es, a, t) :: st) (k :: ks)

/-- the stacks when the frames are `fs` -/
inductive Top : List Frame → List (Yaml F × Nat × Option Tag) → List (Yaml F) → Prop
  | streamStart {ks} : Top [.streamStart] [] ks
  | docStart {ks} : Top [.docStart] [] ks
  | done {ks} : Top [] [] ks
  | node {ks} : Top [.node, .docEnd] [] ks
  | docEnd {x ks} : Top [.docEnd] [x] ks
  | under {f fs x st ks} : Under (f :: fs) (x :: st) ks → Top (f :: fs) (x :: st) ks

/-- what a node may be inserted into, and the frames that are left after it -/
inductive Slot : List Frame → List (Yaml F × Nat × Option Tag) → List (Yaml F) → Prop
  | doc {ks} : Slot [.docEnd] [] ks
  | seq {fs st ks xs a t} : Under fs st ks → Slot (.seq :: fs) ((.seq xs, a, t) :: st) ks
  | key {fs st k ks es a t} : Under fs st ks → Slot (.key :: fs) ((.map es, a, t) :: st) (k :: ks)
  | val {fs st k ks es a t} : Under fs st ks → Slot (.val :: fs) ((.map es, a, t) :: st) (k :: ks)

theorem slot_of_under {fs} {st : List (Yaml F × Nat × Option Tag)} {ks} (h : Under fs st ks) : Slot fs st ks := by
  cases h with
  | doc => exact .doc
  | seq h => exact .seq h
  | key h => exact .key h
  | val h => exact .val h

theorem slot_of_top {f a fs} {st : List (Yaml F × Nat × Option Tag)} {ks} (h : Top (f :: fs) st ks) (ha : after f = some a) :
    Slot (a ++ fs) st ks := by
  cases h with
  | under h => cases h <;> simp [after] at ha <;> subst ha <;> first | exact .seq ‹_› | exact .key ‹_› | exact .val ‹_›
  | node => simp [after] at ha; subst ha; exact .doc
  | _ => simp [after] at ha

theorem slot_under {fs} {st : List (Yaml F × Nat × Option Tag)} {ks} (h : Slot fs st ks) : Under fs st ks := by
  cases h with
  | doc => exact .doc
  | seq h => exact .seq h
  | key h => exact .key h
  | val h => exact .val h

theorem ready_of_slot {fs} {s : LdSt F} (h : Slot fs s.docStack s.keyStack) : Ready s := by
  unfold Ready
  generalize s.docStack = st, s.keyStack = ks at h
  cases h <;> simp

theorem insert_top {fs} {s : LdSt F} {x a t} (h : Slot fs s.docStack s.keyStack) :
    ∃ s', insertNewNode s x a t = some s' ∧ Top fs s'.docStack s'.keyStack := by
  obtain ⟨d, st, ks, m⟩ := s
  have e : noteAnchor ⟨d, st, ks, m⟩ x a = ⟨d, st, ks, (noteAnchor ⟨d, st, ks, m⟩ x a).anchorMap⟩ := by unfold noteAnchor; split <;> rfl
  unfold insertNewNode
  rw [e]
  dsimp only at h ⊢
  cases h with
  | doc => exact ⟨_, rfl, .docEnd⟩
  | seq h => exact ⟨_, rfl, .under (.seq h)⟩
  | @key fs st k ks _ _ _ h =>
    dsimp only
    cases isBadValue k with
    | true => exact ⟨_, rfl, .under (.key h)⟩
    | false => exact ⟨_, rfl, .under (.key h)⟩
  | @val fs st k ks _ _ _ h =>
    dsimp only
    cases isBadValue k with
    | true => exact ⟨_, rfl, .under (.val h)⟩
    | false => exact ⟨_, rfl, .under (.val h)⟩

theorem onEvent_top {fo : FloatOps F} {fs fs' e} {s : LdSt F} (h : Top fs s.docStack s.keyStack) (hs : step fs e = some fs') :
    ∃ s', onEvent fo s e = some s' ∧ Top fs' s'.docStack s'.keyStack := by
  unfold step at hs
  split at hs
  · simp only [Option.map_eq_some_iff] at hs
    obtain ⟨a, ha, rfl⟩ := hs
    exact insert_top (slot_of_top h ha)
  · simp only [Option.map_eq_some_iff] at hs
    obtain ⟨a, ha, rfl⟩ := hs
    exact insert_top (slot_of_top h ha)
  · simp only [Option.map_eq_some_iff] at hs
    obtain ⟨a, ha, rfl⟩ := hs
    exact ⟨_, rfl, .under (.seq (slot_under (slot_of_top h ha)))⟩
  · simp only [Option.map_eq_some_iff] at hs
    obtain ⟨a, ha, rfl⟩ := hs
    exact ⟨_, rfl, .under (.key (slot_under (slot_of_top h ha)))⟩
  · cases hs
    obtain ⟨d, st, ks, m⟩ := s
    dsimp only at h
    cases h with
    | under h => cases h with
      | seq h => exact insert_top (slot_of_under h)
  · cases hs
    obtain ⟨d, st, ks, m⟩ := s
    dsimp only at h
    cases h with
    | under h => cases h with
      | key h => exact insert_top (slot_of_under h)
  · cases hs
    obtain ⟨d, st, ks, m⟩ := s
    dsimp only at h
    cases h with
    | streamStart => exact ⟨_, rfl, .docStart⟩
    | under h => cases h
  · cases hs
    obtain ⟨d, st, ks, m⟩ := s
    dsimp only at h
    cases h with
    | docStart => exact ⟨_, rfl, .node⟩
    | under h => cases h
  · cases hs
    obtain ⟨d, st, ks, m⟩ := s
    dsimp only at h
    cases h with
    | docStart => exact ⟨_, rfl, .done⟩
    | under h => cases h
  · cases hs
    obtain ⟨d, st, ks, m⟩ := s
    dsimp only at h
    cases h with
    | docEnd => exact ⟨_, rfl, .docStart⟩
    | under h => cases h
  · simp at hs

theorem onEvents_top {fo : FloatOps F} {fs fs' evs} {s : LdSt F} (h : Top fs s.docStack s.keyStack) (hs : steps fs evs = some fs') :
    ∃ s', onEvents fo s evs = some s' ∧ Top fs' s'.docStack s'.keyStack := by
  induction evs generalizing fs s with
  | nil => cases hs; exact ⟨s, rfl, h⟩
  | cons e es ih =>
    simp only [steps] at hs
    cases he : step fs e with
    | none => simp [he] at hs
    | some g =>
      simp only [he, Option.bind_some] at hs
      obtain ⟨s1, h1, h2⟩ := onEvent_top (fo := fo) h he
      obtain ⟨s', h3, h4⟩ := ih h2 hs
      exact ⟨s', by simp [onEvents, h1, h3], h4⟩

/-- where a node begins, the loader can take one -/
theorem ready_at_node {fo : FloatOps F} {pre n : List Event} (hn : Node n) (hp : StreamPrefix (pre ++ n)) :
    ∃ s fs, onEvents fo (init : LdSt F) pre = some s ∧ Slot fs s.docStack s.keyStack := by
  obtain ⟨fs, h⟩ := steps_prefix hp
  rw [steps_append] at h
  cases he : steps [.streamStart] pre with
  | none => simp [he] at h
  | some g =>
    simp only [he, Option.bind_some] at h
    obtain ⟨s, h1, h2⟩ := onEvents_top (fo := fo) (s := (init : LdSt F)) Top.streamStart he
    have : ∃ f g' a, g = f :: g' ∧ after f = some a := by
      cases g with
      | nil => cases hn <;> simp [steps, step] at h
      | cons f g' =>
        refine ⟨f, g', ?_⟩
        cases hf : after f with
        | some a => exact ⟨a, rfl, rfl⟩
        | none => cases hn <;> simp [steps, step, hf] at h
    obtain ⟨f, g', a, rfl, ha⟩ := this
    exact ⟨s, _, h1, slot_of_top h2 ha⟩

/-! ## Anchors -/

/-- no open collection has the anchor `a` -/
def NoOpen (a : Nat) (s : LdSt F) : Prop := ∀ p ∈ s.docStack, p.2.1 ≠ a

theorem insert_anchor {s s' : LdSt F} {x b t a} (h : insertNewNode s x b t = some s') (hb : b ≠ a) (ho : NoOpen a s) :
    s'.anchorMap a = s.anchorMap a ∧ NoOpen a s' := by
  have hm : (noteAnchor s x b).anchorMap a = s.anchorMap a := by
    rw [noteAnchor_map]; simp [Anchored.bind, Ne.symm hb]
  have hd : (noteAnchor s x b).docStack = s.docStack := by unfold noteAnchor; split <;> rfl
  unfold insertNewNode at h
  dsimp only at h
  unfold NoOpen at *
  rw [← hd] at ho
  generalize noteAnchor s x b = n at *
  split at h
  · cases h; exact ⟨hm, by simp [hb]⟩
  · rename_i hx; rw [hx] at ho; cases h; refine ⟨hm, ?_⟩; simpa using ho
  · rename_i hx; rw [hx] at ho
    split at h
    · simp at h
    · split at h
      · cases h; refine ⟨hm, ?_⟩; simp only [hx]; exact ho
      · cases h; refine ⟨hm, ?_⟩; simpa using ho
  · cases h; exact ⟨hm, ho⟩

theorem onEvent_anchor {fo : FloatOps F} {s s' : LdSt F} {e a} (h : onEvent fo s e = some s') (he : definedAnchor e ≠ a) (ha : 0 < a)
    (ho : NoOpen a s) : s'.anchorMap a = s.anchorMap a ∧ NoOpen a s' := by
  have hend : ∀ {s s' : LdSt F}, NoOpen a s → endCollection s = some s' → s'.anchorMap a = s.anchorMap a ∧ NoOpen a s' := by
    intro s s' ho h
    unfold endCollection at h
    split at h
    · simp at h
    · rename_i hd
      have := insert_anchor (a := a) h (ho (_, _, _) (by rw [hd]; exact List.mem_cons_self)) (fun p hp => ho p (by rw [hd]; simp only at hp; simp [hp]))
      exact this
  cases e with
  | documentStart => cases h; exact ⟨rfl, ho⟩
  | streamStart => cases h; exact ⟨rfl, ho⟩
  | streamEnd => cases h; exact ⟨rfl, ho⟩
  | comment => cases h; exact ⟨rfl, ho⟩
  | documentEnd =>
    simp only [onEvent] at h
    split at h
    · cases h; exact ⟨rfl, ho⟩
    · cases h; exact ⟨rfl, by simp [NoOpen]⟩
    · simp at h
  | sequenceStart b t => cases h; refine ⟨rfl, ?_⟩; intro p hp; simp at hp; rcases hp with rfl | hp; exact he; exact ho p hp
  | mappingStart b t => cases h; refine ⟨rfl, ?_⟩; intro p hp; simp at hp; rcases hp with rfl | hp; exact he; exact ho p hp
  | sequenceEnd => exact hend ho h
  | mappingEnd =>
    simp only [onEvent] at h
    split at h
    · simp at h
    · rename_i ks _; exact hend (s := { s with keyStack := ks }) ho h
  | scalar v => exact insert_anchor h he ho
  | «alias» id => exact insert_anchor h (by omega) ho

theorem onEvents_anchor {fo : FloatOps F} {s s' : LdSt F} {es a} (h : onEvents fo s es = some s') (he : ∀ e ∈ es, definedAnchor e ≠ a)
    (ha : 0 < a) (ho : NoOpen a s) : s'.anchorMap a = s.anchorMap a ∧ NoOpen a s' := by
  induction es generalizing s with
  | nil => cases h; exact ⟨rfl, ho⟩
  | cons e es ih =>
    simp only [onEvents, Option.bind_eq_some_iff] at h
    obtain ⟨s1, h1, h2⟩ := h
    have := onEvent_anchor h1 (he e (by simp)) ha ho
    have := ih h2 (fun e' h' => he e' (by simp [h'])) this.2
    simp_all

end Verif.Loader
