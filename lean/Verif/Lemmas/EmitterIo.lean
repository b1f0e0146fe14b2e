import Verif.Spec.Writers
import Verif.Lemmas.ScanQuoted
/-!
# The emitter on a writer that may fail

Every function of `Model/EmitterIo.lean` writes what its twin in `Model/Emitter.lean` appends, up to the first call that fails.
-/
namespace Verif.EmitterIo
open Verif Verif.Emitter Verif.Spec

/-- what the emitter that never fails would be in -/
def view (s : IoSt) : ESt := ⟨passed s.calls, s.level⟩

variable {W : Writer}

/-- how far a function came -/
def After (W : Writer) (st : ESt) : Bool × IoSt → Prop
  | (true, s) => AllOk s.calls ∧ Honest W s.calls ∧ view s = st
  | (false, s) => Honest W s.calls ∧ ∃ cs p, s.calls = cs ++ [(p, false)] ∧ AllOk cs ∧ passed cs ++ p <+: st.out

/-- what is appended does not depend on the text before -/
def Adds (f : ESt → ESt) : Prop := ∀ o l, f ⟨o, l⟩ = ⟨o ++ (f ⟨[], l⟩).out, (f ⟨[], l⟩).level⟩

theorem Adds.mono {f} (h : Adds f) (st : ESt) : st.out <+: (f st).out := by
  obtain ⟨o, l⟩ := st
  rw [h o l]
  exact List.prefix_append _ _

theorem Adds.then {f g} (hf : Adds f) (hg : Adds g) : Adds fun st => g (f st) := fun o l => by
  show g (f ⟨o, l⟩) = _
  rw [hf o l, hg (o ++ _) _]
  have := hg (f ⟨[], l⟩).out (f ⟨[], l⟩).level
  simp only [this, List.append_assoc]

/-- `m` does what `f` does, up to the first call that fails -/
def Emits (W : Writer) (m : WM) (f : ESt → ESt) : Prop :=
  Adds f ∧ ∀ s, AllOk s.calls → Honest W s.calls → After W (f (view s)) (m s)

theorem emits_done : Emits W done id := ⟨fun o l => by simp, fun _ h1 h2 => ⟨h1, h2, rfl⟩⟩

theorem Emits.then {m k f g} (hm : Emits W m f) (hk : Emits W k g) : Emits W (m ?; k) (fun st => g (f st)) := by
  refine ⟨hm.1.then hk.1, fun s h1 h2 => ?_⟩
  have h3 := hm.2 s h1 h2
  unfold andThen
  rcases hr : m s with ⟨r, s1⟩
  rw [hr] at h3
  cases r with
  | true =>
    obtain ⟨g1, g2, g3⟩ := h3
    show After W (g (f (view s))) (k s1)
    rw [← g3]
    exact hk.2 s1 g1 g2
  | false =>
    obtain ⟨g1, cs, p, g2, g3, g4⟩ := h3
    exact ⟨g1, cs, p, g2, g3, g4.trans (hk.1.mono _)⟩

theorem emits_write (p : List Byte) : Emits W (write W p) (fun st => st.put p) := by
  refine ⟨fun o l => by simp [ESt.put], fun s h1 h2 => ?_⟩
  have hh : Honest W (s.calls ++ [(p, W (s.calls.map (·.1)) p)]) := by
    intro a c b e
    rcases List.eq_nil_or_concat b with rfl | ⟨b', x, rfl⟩
    · obtain ⟨e1, e2⟩ := List.append_inj' e rfl
      cases e2
      rw [e1]
    · have e' : s.calls ++ [(p, W (s.calls.map (·.1)) p)] = (a ++ c :: b') ++ [x] := by rw [e]; simp
      exact h2 a c b' (List.append_inj' e' rfl).1
  unfold write
  cases hr : W (s.calls.map (·.1)) p with
  | true =>
    rw [hr] at hh
    refine ⟨fun c hc => ?_, hh, ?_⟩
    · rcases List.mem_append.1 hc with hc | hc
      · exact h1 c hc
      · cases List.mem_singleton.1 hc; rfl
    · simp [view, passed, ESt.put]
  | false =>
    rw [hr] at hh
    exact ⟨hh, s.calls, p, rfl, h1, List.prefix_refl _⟩

theorem emits_eq {m f g} (h : Emits W m f) (e : ∀ st, f st = g st) : Emits W m g := by
  rw [← funext e]; exact h

theorem put_put (st : ESt) (a b : List Byte) : (st.put a).put b = st.put (a ++ b) := by simp [ESt.put]
theorem put_nil (st : ESt) : st.put [] = st := by simp [ESt.put]

theorem emits_all : ∀ ps, Emits W (writeAll W ps) (fun st => st.put ps.flatten)
  | [] => emits_eq emits_done fun st => by simp [put_nil]
  | p :: ps => emits_eq ((emits_write p).then (emits_all ps)) fun st => by simp [put_put]

theorem emits_level (d : Int) : Emits W (addLevel d) (fun st => { st with level := st.level + d }) :=
  ⟨fun o l => by simp, fun _ h1 h2 => ⟨h1, h2, rfl⟩⟩

theorem emits_setLevel (l : Int) : Emits W (fun s => (true, { s with level := l })) (fun st => { st with level := l }) :=
  ⟨fun o l => by simp, fun _ h1 h2 => ⟨h1, h2, rfl⟩⟩

theorem emits_run (run : List Byte) : Emits W (if run = [] then done else write W run) (fun st => st.put run) := by
  split
  · next h => subst h; exact emits_eq emits_done fun st => (put_nil st).symm
  · exact emits_write run

theorem emits_escapeLoop : ∀ (v run m), escapeLoop v = some m → Emits W (escapeLoopIo W run v) (fun st => st.put (run ++ m))
  | [], run, m, h => by
    cases h
    rw [List.append_nil]
    exact emits_run run
  | b :: rest, run, m, h => by
    obtain ⟨e, m', h1, rfl, h2⟩ := Verif.Scanner.escapeLoop_cons h
    unfold escapeLoopIo
    rcases h2 with ⟨h2, h3⟩ | ⟨h2, rfl⟩
    · rw [if_pos h2, h3]
      exact emits_eq ((emits_run run).then ((emits_write _).then (emits_escapeLoop rest [] m' h1))) fun st => by simp [put_put]
    · rw [if_neg (by simp [h2])]
      exact emits_eq (emits_escapeLoop rest (run ++ [b]) m' h1) fun st => by simp

theorem emits_escape (v : List Byte) : Emits W (escapeStrIo W v) (fun st => st.put ((escapeStr v).getD [])) := by
  obtain ⟨m, hm⟩ := Verif.Scanner.escapeLoop_split v
  refine emits_eq ((emits_write _).then ((emits_escapeLoop v [] m hm).then (emits_write _))) fun st => ?_
  simp [put_put, escapeStr, hm]

theorem emits_indent (cfg : Config) : Emits W (writeIndentIo W cfg) (writeIndent cfg) := by
  refine ⟨fun o l => ?_, fun s h1 h2 => ?_⟩
  · simp only [writeIndent]
    split <;> simp [ESt.put]
  · unfold writeIndentIo writeIndent
    show After W (if s.level ≤ 0 then _ else _) _
    split
    · exact ⟨h1, h2, rfl⟩
    · have := (emits_all (W := W) (List.replicate (s.level.toNat * cfg.bestIndent) bs!" ")).2 s h1 h2
      rw [show (List.replicate (s.level.toNat * cfg.bestIndent) bs!" ").flatten = List.replicate (s.level.toNat * cfg.bestIndent) b%' ' from by
        generalize s.level.toNat * cfg.bestIndent = n
        induction n with
        | zero => rfl
        | succ n ih => rw [List.replicate_succ, List.flatten_cons, ih]; rfl] at this
      exact this

theorem emits_lines (cfg : Config) : ∀ ls, Emits W (emitLinesIo W cfg ls) (fun st => emitLines cfg st ls)
  | [] => emits_done
  | _ :: ls => (emits_write _).then ((emits_indent cfg).then ((emits_write _).then (emits_lines cfg ls)))

theorem emits_block (cfg : Config) (v : List Byte) : Emits W (emitLiteralBlockIo W cfg v) (fun st => emitLiteralBlock cfg st v) := by
  unfold emitLiteralBlockIo emitLiteralBlock
  split
  · exact (emits_write _).then ((emits_level 1).then ((emits_lines cfg _).then (emits_level (-1))))
  · exact (emits_write _).then ((emits_level 1).then ((emits_lines cfg _).then (emits_level (-1))))

variable {F : Type} {fo : FloatOps F} {cut : Cut}

theorem emits_cut (hc : ∀ b, (cut b).flatten = b) (b : List Byte) : Emits W (writeAll W (cut b)) (fun st => st.put b) :=
  emits_eq (emits_all _) fun st => by rw [hc]

theorem emits_scalar (hc : ∀ b, (cut b).flatten = b) (cfg : Config) (x : Scalar F) :
    Emits W (emitScalarIo W cut fo cfg x) (fun st => emitScalar fo cfg st x) := by
  cases x with
  | str v =>
    simp only [emitScalarIo, emitScalar]
    split
    · exact emits_block cfg v
    split
    · exact emits_escape v
    · exact emits_cut hc v
  | bool b => exact emits_write _
  | int i => exact emits_cut hc _
  | float f => exact emits_cut hc _
  | null => exact emits_write _

theorem emits_collection (cfg : Config) (i e : Bool) : Emits W (writeCollectionIo W cfg i e) (writeCollection cfg i e) := by
  unfold writeCollectionIo
  split
  · next h => exact emits_eq (emits_write _) fun st => by simp [writeCollection, h]
  · next h =>
    refine emits_eq ((emits_write _).then ((emits_level 1).then ((emits_indent cfg).then (emits_level (-1))))) fun st => ?_
    simp only [writeCollection, if_neg h]
    rfl

theorem emits_tagBreak (cfg : Config) (n : Yaml F) : Emits W (tagBreakIo W cfg n) (fun st => if isNonEmptyCollection n then
        let s := { st with level := st.level + 1 }
        let s := writeIndent cfg (s.put bs!"\n")
        { s with level := s.level - 1 }
      else st) := by
  unfold tagBreakIo
  split
  · exact (emits_level 1).then ((emits_write _).then ((emits_indent cfg).then (emits_level (-1))))
  · exact emits_done

mutual
theorem emits_node (hc : ∀ b, (cut b).flatten = b) (cfg : Config) : ∀ y, Emits W (emitNodeIo W cut fo cfg y) (fun st => emitNode fo cfg st y)
  | .seq v => by simpa only [emitNodeIo, emitNode] using emits_sequence hc cfg v
  | .map h => by simpa only [emitNodeIo, emitNode] using emits_mapping hc cfg h
  | .scalar x => by simpa only [emitNodeIo, emitNode] using emits_scalar hc cfg x
  | .bad => by simpa only [emitNodeIo, emitNode] using emits_write _
  | .tagged tag node => by
    simp only [emitNodeIo, emitNode]
    exact (emits_cut hc _).then ((emits_tagBreak cfg node).then (emits_node hc cfg node))
  | .alias _ => by simp only [emitNodeIo, emitNode]; exact emits_done

theorem emits_sequence (hc : ∀ b, (cut b).flatten = b) (cfg : Config) : ∀ l, Emits W (emitSequenceIo W cut fo cfg l) (fun st => emitSequence fo cfg st l)
  | [] => by simp only [emitSequenceIo, emitSequence]; exact emits_write _
  | x :: xs => by
    simp only [emitSequenceIo, emitSequence]
    exact (emits_level 1).then ((emits_write _).then ((emits_val hc cfg true x).then ((emits_items hc cfg xs).then (emits_level (-1)))))

theorem emits_items (hc : ∀ b, (cut b).flatten = b) (cfg : Config) : ∀ l, Emits W (emitItemsIo W cut fo cfg l) (fun st => emitItems fo cfg st l)
  | [] => by simp only [emitItemsIo, emitItems]; exact emits_done
  | x :: xs => by
    simp only [emitItemsIo, emitItems]
    exact (emits_write _).then ((emits_indent cfg).then ((emits_write _).then ((emits_val hc cfg true x).then (emits_items hc cfg xs))))

theorem emits_mapping (hc : ∀ b, (cut b).flatten = b) (cfg : Config) : ∀ l, Emits W (emitMappingIo W cut fo cfg l) (fun st => emitMapping fo cfg st l)
  | [] => by simp only [emitMappingIo, emitMapping]; exact emits_write _
  | e :: es => by
    simp only [emitMappingIo, emitMapping]
    exact (emits_level 1).then ((emits_entry hc cfg e).then ((emits_entries hc cfg es).then (emits_level (-1))))

theorem emits_entries (hc : ∀ b, (cut b).flatten = b) (cfg : Config) : ∀ l, Emits W (emitEntriesIo W cut fo cfg l) (fun st => emitEntries fo cfg st l)
  | [] => by simp only [emitEntriesIo, emitEntries]; exact emits_done
  | e :: es => by
    simp only [emitEntriesIo, emitEntries]
    exact (emits_write _).then ((emits_indent cfg).then ((emits_entry hc cfg e).then (emits_entries hc cfg es)))

theorem emits_entry (hc : ∀ b, (cut b).flatten = b) (cfg : Config) : ∀ e, Emits W (emitEntryIo W cut fo cfg e) (fun st => emitEntry fo cfg st e)
  | (key, value) => by
    simp only [emitEntryIo, emitEntry]
    split
    · exact (emits_write _).then ((emits_val hc cfg true key).then ((emits_write _).then ((emits_indent cfg).then ((emits_write _).then (emits_val hc cfg true value)))))
    · exact (emits_node hc cfg key).then ((emits_write _).then (emits_val hc cfg false value))

theorem emits_val (hc : ∀ b, (cut b).flatten = b) (cfg : Config) (i : Bool) : ∀ y, Emits W (emitValIo W cut fo cfg i y) (fun st => emitVal fo cfg i st y)
  | .seq v => by simp only [emitValIo, emitVal]; exact (emits_collection cfg i _).then (emits_sequence hc cfg v)
  | .map v => by simp only [emitValIo, emitVal]; exact (emits_collection cfg i _).then (emits_mapping hc cfg v)
  | .scalar x => by simp only [emitValIo, emitVal]; exact (emits_write _).then (emits_scalar hc cfg x)
  | .bad => by simp only [emitValIo, emitVal]; exact (emits_write _).then (emits_write _)
  | .tagged tag node => by
    simp only [emitValIo, emitVal]
    exact (emits_write _).then ((emits_cut hc _).then ((emits_tagBreak cfg node).then (emits_node hc cfg node)))
  | .alias _ => by simp only [emitValIo, emitVal]; exact emits_write _
end

theorem emits_dump (hc : ∀ b, (cut b).flatten = b) (cfg : Config) (y : Yaml F) :
    Emits W (dumpIo W cut fo cfg y) (fun st => emitNode fo cfg ⟨st.out ++ bs!"---\n", -1⟩ y) :=
  (emits_write _).then ((emits_setLevel (-1)).then (emits_node hc cfg y))

end Verif.EmitterIo
