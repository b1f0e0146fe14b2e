import Verif.Spec.Events
/-!
# A pushdown acceptor for the event grammar, and its correctness
-/
namespace Verif.Grammar
open Verif Verif.Spec

/-- What is still expected, innermost first. -/
inductive Frame
  /-- one node -/
  | node
  /-- nodes, then `SequenceEnd` -/
  | seq
  /-- key/value pairs, then `MappingEnd` -/
  | key
  /-- a value, then as `key` -/
  | val
  | streamStart
  /-- documents, then `StreamEnd` -/
  | docStart
  /-- `DocumentEnd`, then as `docStart` -/
  | docEnd
deriving DecidableEq, Repr

/-- What is expected after one node in the given frame (`none`: a node is not allowed here). -/
def after : Frame → Option (List Frame)
  | .node => some []
  | .seq => some [.seq]
  | .key => some [.val]
  | .val => some [.key]
  | _ => none

/-- One event. -/
def step : List Frame → Event → Option (List Frame)
  | f :: fs, .scalar _ => (after f).map (· ++ fs)
  | f :: fs, .alias _ => (after f).map (· ++ fs)
  | f :: fs, .sequenceStart _ _ => (after f).map (fun a => .seq :: (a ++ fs))
  | f :: fs, .mappingStart _ _ => (after f).map (fun a => .key :: (a ++ fs))
  | .seq :: fs, .sequenceEnd => some fs
  | .key :: fs, .mappingEnd => some fs
  | .streamStart :: fs, .streamStart => some (.docStart :: fs)
  | .docStart :: fs, .documentStart _ => some (.node :: .docEnd :: fs)
  | .docStart :: fs, .streamEnd => some fs
  | .docEnd :: fs, .documentEnd => some (.docStart :: fs)
  | _, _ => none

/-- Several events. -/
def steps : List Frame → List Event → Option (List Frame)
  | fs, [] => some fs
  | fs, e :: es => (step fs e).bind (fun fs' => steps fs' es)

theorem steps_append (fs es es') : steps fs (es ++ es') = (steps fs es).bind (fun g => steps g es') := by
  induction es generalizing fs with
  | nil => simp [steps]
  | cons e es ih =>
    simp only [List.cons_append, steps]
    cases step fs e with
    | none => rfl
    | some g => simp [ih]

/-- The events a frame asks for. -/
inductive Lang1 : Frame → List Event → Prop
  | node {es} : Node es → Lang1 .node es
  | seq {es} : Nodes es → Lang1 .seq (es ++ [.sequenceEnd])
  | key {es} : Pairs es → Lang1 .key (es ++ [.mappingEnd])
  | val {v es} : Node v → Pairs es → Lang1 .val (v ++ (es ++ [.mappingEnd]))
  | streamStart {ds} : Documents ds → Lang1 .streamStart (.streamStart :: (ds ++ [.streamEnd]))
  | docStart {ds} : Documents ds → Lang1 .docStart (ds ++ [.streamEnd])
  | docEnd {ds} : Documents ds → Lang1 .docEnd (.documentEnd :: (ds ++ [.streamEnd]))

/-- The events a stack of frames asks for. -/
inductive Lang : List Frame → List Event → Prop
  | nil : Lang [] []
  | cons {f fs es es'} : Lang1 f es → Lang fs es' → Lang (f :: fs) (es ++ es')

/-- Prepending one node to what is expected after it. -/
theorem lang_node {f a fs n r} (ha : after f = some a) (hn : Node n) (h : Lang (a ++ fs) r) : Lang (f :: fs) (n ++ r) := by
  cases f <;> simp [after] at ha
  · subst ha; exact .cons (.node hn) h
  · subst ha
    cases h with
    | cons h1 h2 =>
      cases h1 with
      | seq hs =>
        have := Lang.cons (Lang1.seq (.cons hn hs)) h2
        simpa using this
  · subst ha
    cases h with
    | cons h1 h2 =>
      cases h1 with
      | val hv hp =>
        have := Lang.cons (Lang1.key (.cons hn hv hp)) h2
        simpa using this
  · subst ha
    cases h with
    | cons h1 h2 =>
      cases h1 with
      | key hp =>
        have := Lang.cons (Lang1.val hn hp) h2
        simpa using this

theorem lang_step {fs e fs' r} (hs : step fs e = some fs') (h : Lang fs' r) : Lang fs (e :: r) := by
  unfold step at hs
  split at hs
  · simp only [Option.map_eq_some_iff] at hs
    obtain ⟨a, ha, rfl⟩ := hs
    exact lang_node ha (.scalar _) h
  · simp only [Option.map_eq_some_iff] at hs
    obtain ⟨a, ha, rfl⟩ := hs
    exact lang_node ha (.alias _) h
  · simp only [Option.map_eq_some_iff] at hs
    obtain ⟨a, ha, rfl⟩ := hs
    cases h with
    | cons h1 h2 =>
      cases h1 with
      | seq hb =>
        have := lang_node ha (.seq ‹Nat› ‹Option Tag› hb) h2
        simpa using this
  · simp only [Option.map_eq_some_iff] at hs
    obtain ⟨a, ha, rfl⟩ := hs
    cases h with
    | cons h1 h2 =>
      cases h1 with
      | key hb =>
        have := lang_node ha (.map ‹Nat› ‹Option Tag› hb) h2
        simpa using this
  · cases hs
    simpa using Lang.cons (Lang1.seq .nil) h
  · cases hs
    simpa using Lang.cons (Lang1.key .nil) h
  · cases hs
    cases h with
    | cons h1 h2 =>
      cases h1 with
      | docStart hd => simpa using Lang.cons (Lang1.streamStart hd) h2
  · cases hs
    cases h with
    | cons h1 h2 =>
      cases h1 with
      | node hn =>
        cases h2 with
        | cons h3 h4 =>
          cases h3 with
          | docEnd hd => simpa using Lang.cons (Lang1.docStart (.cons ‹Bool› hn hd)) h4
  · cases hs
    simpa using Lang.cons (Lang1.docStart .nil) h
  · cases hs
    cases h with
    | cons h1 h2 =>
      cases h1 with
      | docStart hd => simpa using Lang.cons (Lang1.docEnd hd) h2
  · cases hs

theorem lang_steps {fs es fs' r} (hs : steps fs es = some fs') (h : Lang fs' r) : Lang fs (es ++ r) := by
  induction es generalizing fs with
  | nil => simp [steps] at hs; subst hs; exact h
  | cons e es ih =>
    simp only [steps, Option.bind_eq_some_iff] at hs
    obtain ⟨g, hg, hs⟩ := hs
    exact lang_step hg (ih hs)

/-- every stack of frames can be completed -/
theorem lang_inhabited (fs : List Frame) : ∃ es, Lang fs es := by
  induction fs with
  | nil => exact ⟨[], .nil⟩
  | cons f fs ih =>
    obtain ⟨es, h⟩ := ih
    cases f
    · exact ⟨_, .cons (.node (.alias 0)) h⟩
    · exact ⟨_, .cons (.seq .nil) h⟩
    · exact ⟨_, .cons (.key .nil) h⟩
    · exact ⟨_, .cons (.val (.alias 0) .nil) h⟩
    · exact ⟨_, .cons (.streamStart .nil) h⟩
    · exact ⟨_, .cons (.docStart .nil) h⟩
    · exact ⟨_, .cons (.docEnd .nil) h⟩

theorem stream_of_lang {es} (h : Lang [.streamStart] es) : Stream es := by
  cases h with
  | cons h1 h2 =>
    cases h1 with
    | streamStart hd => cases h2; simpa using Stream.mk hd

theorem streamPrefix_of_steps {es fs} (h : steps [.streamStart] es = some fs) : StreamPrefix es := by
  obtain ⟨r, hr⟩ := lang_inhabited fs
  exact ⟨r, stream_of_lang (lang_steps h hr)⟩

theorem stream_of_steps {es} (h : steps [.streamStart] es = some []) : Stream es := by
  have := stream_of_lang (lang_steps h .nil)
  simpa using this

end Verif.Grammar
