import Verif.Model.Parser
/-!
# Specification: pulling events until something stops it
-/
namespace Verif.Spec
open Verif Verif.Parser

/-- how pulling ended -/
inductive PullStop
  /-- the number of calls was used up -/
  | more
  /-- `next_event` returned `None` -/
  | ended
  /-- `next_event` returned this error -/
  | failed (e : YErr)
  | panicked
  | hung
deriving DecidableEq, Repr

/-- at most `n` calls to `next_event`: the events, with their spans, and how it ended -/
def pullAll : Nat → PSt → List (Event × Span) × PullStop
  | 0, _ => ([], .more)
  | n + 1, s =>
    match nextEvent s with
    | (.ok (some e), s') => (e :: (pullAll n s').1, (pullAll n s').2)
    | (.ok none, _) => ([], .ended)
    | (.err e, _) => ([], .failed e)
    | (.panic, _) => ([], .panicked)
    | (.hang, _) => ([], .hung)

end Verif.Spec
