import Verif.Spec.Simple

/-! Sentences that only say that something exists: "there are no foxes". -/

namespace Spec
open Py Model

/-- Apart from function words and coordinated nouns, the parse consists of the verb `v`, of `e` that exists, and of subjects, objects
and recipients of the verb. -/
structure Existing (t : Tree Dep Nat) (v e : Nat) : Prop where
  exist : (.EXIST, e) ∈ t.children v
  only : ∀ d x, (d, x) ∈ t.children v → d ∉ functional → d ∈ [.EXIST, .SUBJ, .OBJ, .IOBJ]
  others : ∀ i d x, (d, x) ∈ t.children i → i ≠ v → d ∉ functional → d = .AND ∨ d = .OR

end Spec
