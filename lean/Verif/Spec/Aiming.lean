import Verif.Spec.Simple

/-! Sentences with a clause of a verb alone as object: "people want to sing". -/

namespace Spec
open Py Model

/-- Apart from function words and coordinated nouns, the parse consists of the verb `v`, its subject `s` and its object, the clause of
the verb `u` alone. -/
structure Aiming (t : Tree Dep Nat) (v s u : Nat) : Prop where
  subj : (.SUBJ, s) ∈ t.children v
  clause : (.OBJ, u) ∈ t.children v
  only : ∀ d x, (d, x) ∈ t.children v → d ∉ functional → (d, x) = (.SUBJ, s) ∨ (d, x) = (.OBJ, u)
  inner : ∀ d x, (d, x) ∈ t.children u → d ∈ functional
  others : ∀ i d x, (d, x) ∈ t.children i → i ≠ v → i ≠ u → d ∉ functional → d = .AND ∨ d = .OR

end Spec
