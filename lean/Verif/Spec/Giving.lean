import Verif.Spec.Simple

/-! Sentences of a subject, a verb, a recipient and an object: "foxes bake him cakes". -/

namespace Spec
open Py Model

/-- Apart from function words and coordinated nouns, the parse consists of the verb `v`, its subject `s`, its recipient `r` and its
object `o`. -/
structure Giving (t : Tree Dep Nat) (v s r o : Nat) : Prop where
  subj : (.SUBJ, s) ∈ t.children v
  recipient : (.IOBJ, r) ∈ t.children v
  obj : (.OBJ, o) ∈ t.children v
  only : ∀ d x, (d, x) ∈ t.children v → d ∉ functional → (d, x) = (.SUBJ, s) ∨ (d, x) = (.IOBJ, r) ∨ (d, x) = (.OBJ, o)
  others : ∀ p d x, (d, x) ∈ t.children p → p ≠ v → d ∉ functional → d = .AND ∨ d = .OR

end Spec
