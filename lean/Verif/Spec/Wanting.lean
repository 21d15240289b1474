import Verif.Spec.Simple

/-! Sentences with a clause as object: "people want foxes to bake cakes". -/

namespace Spec
open Py Model

/-- Apart from function words and coordinated nouns, the parse consists of the verb `v`, its subject `s` and its object, the clause of
the verb `u`, its subject `a` and its object `o`. -/
structure Wanting (t : Tree Dep Nat) (v s u a o : Nat) : Prop where
  subj : (.SUBJ, s) ∈ t.children v
  clause : (.OBJ, u) ∈ t.children v
  actor : (.SUBJ, a) ∈ t.children u
  obj : (.OBJ, o) ∈ t.children u
  only : ∀ d x, (d, x) ∈ t.children v → d ∉ functional → (d, x) = (.SUBJ, s) ∨ (d, x) = (.OBJ, u)
  inner : ∀ d x, (d, x) ∈ t.children u → d ∉ functional → (d, x) = (.SUBJ, a) ∨ (d, x) = (.OBJ, o)
  others : ∀ i d x, (d, x) ∈ t.children i → i ≠ v → i ≠ u → d ∉ functional → d = .AND ∨ d = .OR

end Spec
