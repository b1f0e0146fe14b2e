import Verif.Model.Tokens
/-!
# Specification: the grammar of event streams

A stream is `StreamStart`, then documents, then `StreamEnd`. A document is `DocumentStart`, one node, `DocumentEnd`.
A node is a scalar, an alias, a sequence of nodes, or a mapping of key/value node pairs.
-/
namespace Verif.Spec

mutual
  /-- the events of one node -/
  inductive Node : List Event → Prop
    | scalar (v : ScalarValue) : Node [.scalar v]
    | alias (id : Nat) : Node [.alias id]
    | seq (a : Nat) (t : Option Tag) {body} : Nodes body → Node (.sequenceStart a t :: (body ++ [.sequenceEnd]))
    | map (a : Nat) (t : Option Tag) {body} : Pairs body → Node (.mappingStart a t :: (body ++ [.mappingEnd]))
  /-- the events of any number of nodes -/
  inductive Nodes : List Event → Prop
    | nil : Nodes []
    | cons {x xs} : Node x → Nodes xs → Nodes (x ++ xs)
  /-- the events of any number of key/value pairs -/
  inductive Pairs : List Event → Prop
    | nil : Pairs []
    | cons {k v xs} : Node k → Node v → Pairs xs → Pairs (k ++ (v ++ xs))
end

/-- the events of any number of documents -/
inductive Documents : List Event → Prop
  | nil : Documents []
  | cons (explicit : Bool) {n ds} : Node n → Documents ds →
      Documents (.documentStart explicit :: (n ++ (.documentEnd :: ds)))

/-- the events of a complete stream -/
inductive Stream : List Event → Prop
  | mk {ds} : Documents ds → Stream (.streamStart :: (ds ++ [.streamEnd]))

/-- `evs` is the beginning of some complete stream -/
def StreamPrefix (evs : List Event) : Prop := ∃ rest, Stream (evs ++ rest)

end Verif.Spec
