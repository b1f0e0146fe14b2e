import Verif.Model.EmitterIo
/-!
# Specification: calls of a writer

The calls of `write_str` are kept in the order in which they were made, each with the piece of text it was given and with the answer of the writer.
-/
namespace Verif.Spec
open Verif

/-- the text that was passed to the writer, whether it took it or not -/
def passed (l : List (List Byte × Bool)) : List Byte := (l.map (·.1)).flatten

/-- all calls succeeded -/
def AllOk (l : List (List Byte × Bool)) : Prop := ∀ c ∈ l, c.2 = true

/-- the answers are those of the writer -/
def Honest (W : EmitterIo.Writer) (l : List (List Byte × Bool)) : Prop := ∀ a c b, l = a ++ c :: b → c.2 = W (a.map (·.1)) c.1

/-- a writer that has room for `n` bytes and refuses what does not fit -/
def room (n : Nat) : EmitterIo.Writer := fun before p => decide ((before.flatten ++ p).length ≤ n)

end Verif.Spec
