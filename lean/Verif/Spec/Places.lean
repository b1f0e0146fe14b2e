import Verif.Spec.ScannerRuns
import Verif.Model.ParserLoad
import Verif.Spec.PullRuns
/-!
# Specification: changing the places in tokens, events and errors
-/
namespace Verif.Spec
open Verif

/-- a span with both ends changed -/
def Span.mapM (f : Marker → Marker) (s : Span) : Span := ⟨f s.start, f s.stop⟩

/-- a token at another place -/
def Token.mapM (f : Marker → Marker) (t : Token) : Token := ⟨Span.mapM f t.span, t.tt⟩

/-- an event at another place -/
def evMapM (f : Marker → Marker) (e : Event × Span) : Event × Span := (e.1, Span.mapM f e.2)

/-- an error at another place -/
def YErr.mapM (f : Marker → Marker) : YErr → YErr
  | .scanner m msg => .scanner (f m) msg
  | e => e

/-- the end of a run of the scanner with the error at another place -/
def ScanStop.mapM (f : Marker → Marker) : ScanStop → ScanStop
  | .failed e => .failed (YErr.mapM f e)
  | x => x

/-- what follows the last token, with the error at another place -/
def tailMapM (f : Marker → Marker) : Parser.Tail → Parser.Tail
  | .error e => .error (YErr.mapM f e)
  | t => t

/-- the end of a run of the parser with the error at another place -/
def PullStop.mapM (f : Marker → Marker) : PullStop → PullStop
  | .failed e => .failed (YErr.mapM f e)
  | x => x

/-- an outcome with the error at another place -/
def resMapM {α} (f : Marker → Marker) : Res α → Res α
  | .err e => .err (YErr.mapM f e)
  | r => r

/-- only line and column of a place are kept, the offset is forgotten -/
def lineCol (m : Marker) : Marker := { m with pos := 0 }

example : Token.mapM lineCol ⟨⟨⟨7, 3, 2⟩, ⟨9, 5, 2⟩⟩, .key⟩ = ⟨⟨⟨0, 3, 2⟩, ⟨0, 5, 2⟩⟩, .key⟩ := rfl

end Verif.Spec
