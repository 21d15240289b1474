import Verif.Spec.Simple

/-! Sentences of a subject, a verb, an object and a property of the object: "people call him John". -/

namespace Spec
open Py Model

/-- Apart from function words and coordinated words, the parse consists of the verb `v`, its subject `s`, its object `o` and the
property `p` of the object. -/
structure Calling (t : Tree Dep Nat) (v s o p : Nat) : Prop where
  subj : (.SUBJ, s) ∈ t.children v
  obj : (.OBJ, o) ∈ t.children v
  prop : (.IPROP, p) ∈ t.children v
  only : ∀ d x, (d, x) ∈ t.children v → d ∉ functional → (d, x) = (.SUBJ, s) ∨ (d, x) = (.OBJ, o) ∨ (d, x) = (.IPROP, p)
  others : ∀ i d x, (d, x) ∈ t.children i → i ≠ v → d ∉ functional → d = .AND ∨ d = .OR

end Spec
