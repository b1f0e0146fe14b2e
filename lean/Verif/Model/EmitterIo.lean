import Verif.Model.Emitter
/-!
# The emitter on a writer that may fail: `yam-core/src/saphyr_emitter/mod.rs`

`Model/Emitter.lean` is about a writer that never fails. Here the writer is any `fmt::Write`: it answers every call of `write_str` as it likes,
depending on all calls before. Every function stops at the first call that fails (`?`), and leaves `level` as it is at that moment.
-/
namespace Verif.EmitterIo
open Verif Verif.Emitter

/-- A writer: does `write_str` succeed for this piece, after the calls with these pieces? (`&mut dyn fmt::Write`: mod.rs 11) -/
abbrev Writer := List (List Byte) → List Byte → Bool

/-- Into how many pieces `write!` cuts a value that it formats is up to the standard library and to `Display`; this function says it for every value. -/
abbrev Cut := List Byte → List (List Byte)

/-- The calls of the writer so far, each with its answer, and the field `level`: mod.rs 11, 14 -/
structure IoSt where
  calls : List (List Byte × Bool)
  level : Int
deriving DecidableEq, Repr

/-- A function of the emitter that returns `EmitResult`: mod.rs 20. `true` is `Ok(())`. -/
abbrev WM := IoSt → Bool × IoSt

/-- `Ok(())` -/
def done : WM := fun s => (true, s)

/-- `m?; k` -/
def andThen (m k : WM) : WM := fun s =>
  match m s with
  | (true, s') => k s'
  | (false, s') => (false, s')

@[inherit_doc] infixr:60 " ?; " => andThen

/-- `self.writer.write_str(p)` -/
def write (W : Writer) (p : List Byte) : WM := fun s =>
  let r := W (s.calls.map (·.1)) p
  (r, { s with calls := s.calls ++ [(p, r)] })

/-- `write!(self.writer, …)` with several pieces -/
def writeAll (W : Writer) : List (List Byte) → WM
  | [] => done
  | p :: ps => write W p ?; writeAll W ps

/-- `self.level += d` -/
def addLevel (d : Int) : WM := fun s => (true, { s with level := s.level + d })

/-- The loop of `escape_str`: mod.rs 29–85. `run` is the text from `start` to the byte looked at. -/
def escapeLoopIo (W : Writer) (run : List Byte) : List Byte → WM
  | [] => if run = [] then done else write W run
  | b :: rest =>
    if needsEscape b then
      (if run = [] then done else write W run) ?; write W ((escapeOf b).getD []) ?; escapeLoopIo W [] rest
    else escapeLoopIo W (run ++ [b]) rest

/-- `escape_str`: mod.rs 23–89. Its `unreachable!()` is not reached (`escapeStr_total`). -/
def escapeStrIo (W : Writer) (v : List Byte) : WM := write W bs!"\"" ?; escapeLoopIo W [] v ?; write W bs!"\""

/-- `write_indent`: mod.rs 161–171 -/
def writeIndentIo (W : Writer) (cfg : Config) : WM := fun s =>
  if s.level ≤ 0 then (true, s) else writeAll W (List.replicate (s.level.toNat * cfg.bestIndent) bs!" ") s

/-- The loop of `emit_literal_block`: mod.rs 249–254 -/
def emitLinesIo (W : Writer) (cfg : Config) : List (List Byte) → WM
  | [] => done
  | l :: ls => write W bs!"\n" ?; writeIndentIo W cfg ?; write W l ?; emitLinesIo W cfg ls

/-- `emit_literal_block`: mod.rs 239–257 -/
def emitLiteralBlockIo (W : Writer) (cfg : Config) (v : List Byte) : WM :=
  (if v.getLast? = some b%'\n' then write W bs!"|" else write W bs!"|-") ?; addLevel 1 ?; emitLinesIo W cfg (lines v) ?; addLevel (-1)

/-- The scalar arms of `emit_node`: mod.rs 177–203 -/
def emitScalarIo {F} (W : Writer) (cut : Cut) (fo : FloatOps F) (cfg : Config) : Scalar F → WM
  | .str v =>
    if shouldEmitStringAsBlock cfg v then emitLiteralBlockIo W cfg v
    else if needQuotes fo v then escapeStrIo W v
    else writeAll W (cut v)
  | .bool b => write W (if b then bs!"true" else bs!"false")
  | .int i => writeAll W (cut (Scalar.displayI64 i))
  | .float f => writeAll W (cut (fo.display f))
  | .null => write W bs!"~"

/-- The macro `write_collection!`: mod.rs 312–323 -/
def writeCollectionIo (W : Writer) (cfg : Config) (inline isEmpty : Bool) : WM :=
  if (inline && cfg.compact) || isEmpty then write W bs!" "
  else write W bs!"\n" ?; addLevel 1 ?; writeIndentIo W cfg ?; addLevel (-1)

/-- the line break after a tag: mod.rs 226–231 -/
def tagBreakIo {F} (W : Writer) (cfg : Config) (node : Yaml F) : WM :=
  if isNonEmptyCollection node then addLevel 1 ?; write W bs!"\n" ?; writeIndentIo W cfg ?; addLevel (-1) else done

mutual
/-- `emit_node`: mod.rs 173–237 -/
def emitNodeIo {F} (W : Writer) (cut : Cut) (fo : FloatOps F) (cfg : Config) : Yaml F → WM
  | .seq v => emitSequenceIo W cut fo cfg v
  | .map h => emitMappingIo W cut fo cfg h
  | .scalar x => emitScalarIo W cut fo cfg x
  | .bad => write W bs!"~"
  | .tagged tag node => writeAll W (cut (displayTag tag ++ bs!" ")) ?; tagBreakIo W cfg node ?; emitNodeIo W cut fo cfg node
  | .alias _ => done

/-- `emit_sequence`: mod.rs 259–275 -/
def emitSequenceIo {F} (W : Writer) (cut : Cut) (fo : FloatOps F) (cfg : Config) : List (Yaml F) → WM
  | [] => write W bs!"[]"
  | x :: xs => addLevel 1 ?; write W bs!"-" ?; emitValIo W cut fo cfg true x ?; emitItemsIo W cut fo cfg xs ?; addLevel (-1)

/-- The turns `cnt > 0` of the loop of `emit_sequence`: mod.rs 264–271 -/
def emitItemsIo {F} (W : Writer) (cut : Cut) (fo : FloatOps F) (cfg : Config) : List (Yaml F) → WM
  | [] => done
  | x :: xs => write W bs!"\n" ?; writeIndentIo W cfg ?; write W bs!"-" ?; emitValIo W cut fo cfg true x ?; emitItemsIo W cut fo cfg xs

/-- `emit_mapping`: mod.rs 277–305 -/
def emitMappingIo {F} (W : Writer) (cut : Cut) (fo : FloatOps F) (cfg : Config) : List (Yaml F × Yaml F) → WM
  | [] => write W bs!"{}"
  | e :: es => addLevel 1 ?; emitEntryIo W cut fo cfg e ?; emitEntriesIo W cut fo cfg es ?; addLevel (-1)

/-- The turns `cnt > 0` of the loop of `emit_mapping`: mod.rs 282–301 -/
def emitEntriesIo {F} (W : Writer) (cut : Cut) (fo : FloatOps F) (cfg : Config) : List (Yaml F × Yaml F) → WM
  | [] => done
  | e :: es => write W bs!"\n" ?; writeIndentIo W cfg ?; emitEntryIo W cut fo cfg e ?; emitEntriesIo W cut fo cfg es

/-- One entry: mod.rs 283–284, 289–300 -/
def emitEntryIo {F} (W : Writer) (cut : Cut) (fo : FloatOps F) (cfg : Config) : Yaml F × Yaml F → WM
  | (key, value) =>
    if isComplexKey key then
      write W bs!"?" ?; emitValIo W cut fo cfg true key ?; write W bs!"\n" ?; writeIndentIo W cfg ?; write W bs!":" ?;
        emitValIo W cut fo cfg true value
    else emitNodeIo W cut fo cfg key ?; write W bs!":" ?; emitValIo W cut fo cfg false value

/-- `emit_val`: mod.rs 311–339. The last arm calls `emit_node`, which is unfolded here for the kinds of nodes that are left. -/
def emitValIo {F} (W : Writer) (cut : Cut) (fo : FloatOps F) (cfg : Config) (inline : Bool) : Yaml F → WM
  | .seq v => writeCollectionIo W cfg inline v.isEmpty ?; emitSequenceIo W cut fo cfg v
  | .map v => writeCollectionIo W cfg inline v.isEmpty ?; emitMappingIo W cut fo cfg v
  | .scalar x => write W bs!" " ?; emitScalarIo W cut fo cfg x
  | .bad => write W bs!" " ?; write W bs!"~"
  | .tagged tag node =>
    write W bs!" " ?; writeAll W (cut (displayTag tag ++ bs!" ")) ?; tagBreakIo W cfg node ?; emitNodeIo W cut fo cfg node
  | .alias _ => write W bs!" "
end

/-- `dump`: mod.rs 154–159 -/
def dumpIo {F} (W : Writer) (cut : Cut) (fo : FloatOps F) (cfg : Config) (doc : Yaml F) : WM :=
  write W bs!"---\n" ?; (fun s => (true, { s with level := -1 })) ?; emitNodeIo W cut fo cfg doc

end Verif.EmitterIo
