import Verif.Spec.TokenGrammar
/-!
# Specification: the token sequences on which the parser follows the grammar of YAML exactly
-/
namespace Verif.Spec
open Verif

/-- two tokens that the parser treats otherwise than YAML when they stand beside each other: `KEY` before something that cannot begin a
key, and `%TAG` before another directive -/
def odd : TokenType → TokenType → Bool
  | .key, .value => true
  | .key, .flowEntry => true
  | .key, .flowSequenceEnd => true
  | .tagDirective _ _, d => isDirectiveTok d
  | _, _ => false

/-- no such tokens stand beside each other -/
def Usual (toks : List TokenType) : Prop := ∀ a b, [a, b] <:+: toks → odd a b = false

end Verif.Spec
