import Verif.Model.Tree
import Verif.Model.Node

/-! The order of the nodes of a sentence. -/

namespace Spec
open Model

/-- Token `i` is the last word of an expression held together by `FLAT`. -/
def endsFlat (t : Tree Dep Nat) (i : Nat) : Bool :=
  decide (t.children i = [] ∧ (t.parent i).map Prod.fst = some .FLAT)

/-- Token `i` has a particle. -/
def hasParticle (t : Tree Dep Nat) (i : Nat) : Bool :=
  (t.children i).any fun c => decide (c.1 = .PART)

/-- The tokens of a sentence of `n` tokens: last words of flat expressions, then words with particles, then the others,
each group in the order of the text. -/
def nodeOrder (t : Tree Dep Nat) (n : Nat) : List Nat :=
  (List.range n).filter (endsFlat t) ++ (List.range n).filter (hasParticle t) ++
    (List.range n).filter fun i => !endsFlat t i && !hasParticle t i

end Spec
