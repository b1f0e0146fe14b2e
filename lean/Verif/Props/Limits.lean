import Verif.Lemmas.ScanFuel
import Verif.Model.LoadText
/-!
# C09: the iteration limit of the model

The loops of the scanner are modelled with a limit on their iterations (`Cfg.fuel`), and a run of the scanner with a limit on the
number of calls. The limits are no part of the library. Once a run has stopped, with the stream end or with an error, larger limits
change nothing: what is proved for one limit holds for the unlimited loops of the library.
-/
namespace Verif.Props
open Verif Verif.Spec Verif.Scanner
variable {F : Type}

/-- If the scan of a text stops within some limits, then it gives the same tokens and the same end within all larger limits, and so do
both ways of loading the text. What is missing for C09: that every scan stops (which is false, `C09_scan_finishes_false`). -/
theorem C09_limits_partial {f k i} {d : Bool} (fo : FloatOps F)
    (h : (scanInput ⟨f, d⟩ i k).2 = .ended ∨ ∃ e, (scanInput ⟨f, d⟩ i k).2 = .failed e)
    {f' k'} (hf : f ≤ f') (hk : k ≤ k') :
    scanInput ⟨f', d⟩ i k' = scanInput ⟨f, d⟩ i k ∧
    Loader.loadFrom fo ⟨f', d⟩ k' i = Loader.loadFrom fo ⟨f, d⟩ k i ∧
    Loader.loadSingle fo ⟨f', d⟩ k' i = Loader.loadSingle fo ⟨f, d⟩ k i := by
  have C : More ⟨f, d⟩ ⟨f', d⟩ := ⟨hf, rfl⟩
  refine ⟨(scan_longer C hk h).1, ?_, ?_⟩
  · rw [Loader.loadFrom, Loader.loadFrom, parserOn_more C hk h]
  · rw [Loader.loadSingle, Loader.loadSingle, parserOn_more C hk h]

/-- `a: [b, "c"]` stops within 12 iterations and 20 calls, `"a` fails within them -/
example : (scanInput ⟨12, true⟩ bs!"a: [b, \"c\"]" 20).2 = .ended ∧ ∃ e, (scanInput ⟨12, true⟩ bs!"\"a" 20).2 = .failed e :=
  ⟨by decide +kernel, .scanner ⟨0, 1, 1⟩ "while scanning a quoted scalar, found unexpected end of stream", by decide +kernel⟩

end Verif.Props
