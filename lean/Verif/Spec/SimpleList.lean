import Verif.Spec.Simple

/-! Coordinated tokens in order. -/

namespace Spec
open Py Model

/-- The token, those coordinated to it by "and", and those coordinated by "or", each in the order of the arcs. -/
def together (t : Tree Dep Nat) (i : Nat) : List Nat :=
  i :: (((t.children i).filter fun x => x.1 = .AND).map Prod.snd ++ ((t.children i).filter fun x => x.1 = .OR).map Prod.snd)

/-- No marker ("of", "than", "if"). -/
def withoutMarker (t : Tree Dep Nat) (i : Nat) : Bool := (t.children i).all fun x => x.1 ∉ [.MARK, .CMARK, .IMARK]

end Spec
