import Verif.Model.Parser
/-!
# The push interface of the parser: `Parser::load` and its helpers, `yam-core/src/parsing/parser.rs` 612–748
-/
namespace Verif.Parser
open Verif

/-- State of a `load` call: the parser and the events sent to the receiver so far (oldest first). -/
structure LSt where
  p : PSt
  out : List (Event × Span)
deriving DecidableEq, Repr

/-- Code working on the parser and a receiver. -/
def LM (α : Type) : Type := LSt → Res α × LSt

instance : Monad LM where
  pure a := fun s => (.ok a, s)
  bind m f := fun s =>
    match m s with
    | (.ok a, s') => f a s'
    | (.err e, s') => (.err e, s')
    | (.panic, s') => (.panic, s')
    | (.hang, s') => (.hang, s')

/-- a parser action inside `load` -/
def liftP {α} (m : PM α) : LM α := fun s =>
  match m s.p with
  | (r, p') => (r, { s with p := p' })

/-- `recv.on_event(ev, span)` -/
def onEvent (ev : Event) (sp : Span) : LM Unit := fun s => (.ok (), { s with out := s.out ++ [(ev, sp)] })

mutual
  /-- `load_node`: parser.rs 686–709. The fuel is an artefact of the model; `load` supplies enough (proved). -/
  def loadNode : Nat → Event → Span → LM Unit
    | 0, _, _ => fun s => (.hang, s)
    | fuel + 1, ev, sp =>
      match ev with
      | .alias _ => onEvent ev sp
      | .scalar _ => onEvent ev sp
      | .sequenceStart _ _ => do
        onEvent ev sp
        loadSequence fuel
      | .mappingStart _ _ => do
        onEvent ev sp
        loadMapping fuel
      | _ => liftP panic

  /-- `load_mapping`: parser.rs 711–732 -/
  def loadMapping : Nat → LM Unit
    | 0 => fun s => (.hang, s)
    | fuel + 1 => do
      let (kev, ksp) ← liftP nextEventImpl
      if kev = .mappingEnd then onEvent kev ksp
      else do
        loadNode fuel kev ksp
        let (ev, sp) ← liftP nextEventImpl
        loadNode fuel ev sp
        loadMapping fuel

  /-- `load_sequence`: parser.rs 734–748 -/
  def loadSequence : Nat → LM Unit
    | 0 => fun s => (.hang, s)
    | fuel + 1 => do
      let (ev, sp) ← liftP nextEventImpl
      if ev = .sequenceEnd then onEvent ev sp
      else do
        loadNode fuel ev sp
        loadSequence fuel
end

/-- `load_document`: parser.rs 661–684 -/
def loadDocument (fuel : Nat) (ev : Event) (sp : Span) : LM Unit :=
  match ev with
  | .documentStart _ => do
    onEvent ev sp
    let (ev, sp) ← liftP nextEventImpl
    loadNode fuel ev sp
    let (ev, sp) ← liftP nextEventImpl
    -- `assert_eq!(ev, Event::DocumentEnd)`
    if ev = .documentEnd then onEvent ev sp else liftP panic
  | _ => liftP (throwAt sp "did not find expected <document-start>")

/-- the `loop` of `load`: parser.rs 642–657 -/
def loadLoop (multi : Bool) : Nat → LM Unit
  | 0 => fun s => (.hang, s)
  | fuel + 1 => do
    let (ev, sp) ← liftP nextEventImpl
    if ev = .streamEnd then onEvent ev sp
    else do
      liftP (modify fun s => { s with anchors := [] })
      loadDocument fuel ev sp
      if multi then loadLoop multi fuel else pure ()

/-- enough fuel for everything the tokens can still give -/
def loadFuel (s : PSt) : Nat := 20 * (s.toks.length + 10)

/-- `load` after the stream start: parser.rs 637–658 -/
def loadRest (multi : Bool) (fuel : Nat) : LM Unit := do
  let ended ← liftP (gets (·.ended))
  if ended then do
    let m ← liftP (gets (·.endMark))
    onEvent .streamEnd (.empty m)
  else loadLoop multi fuel

/-- `load`: parser.rs 625–659 -/
def load (multi : Bool) : LM Unit := fun s =>
  if s.p.started then loadRest multi (loadFuel s.p) s
  else
    (do
      let (ev, sp) ← liftP nextEventImpl
      if ev ≠ .streamStart then liftP (throwAt sp "did not find expected <stream-start>")
      else do
        onEvent ev sp
        loadRest multi (loadFuel s.p) : LM Unit) s

end Verif.Parser
