import Verif.Spec.Simple

/-! Sentences of a subject, a verb and an object whose nouns have adjectives: "red foxes bake nice cakes". -/

namespace Spec
open Py Model

/-- Apart from function words, coordinated words and adjectives of nouns, the parse consists of the verb `v`, its subject `s` and its
object `o`. The adjectives are not listed as nouns. -/
structure Described (c : Logic) (tokens : List Str) (tg : List Tag) (t : Tree Dep Nat) (v s o : Nat) : Prop where
  subj : (.SUBJ, s) ∈ t.children v
  obj : (.OBJ, o) ∈ t.children v
  only : ∀ d x, (d, x) ∈ t.children v → d ∉ functional → (d, x) = (.SUBJ, s) ∨ (d, x) = (.OBJ, o)
  others : ∀ i d x, (d, x) ∈ t.children i → i ≠ v → d ∉ functional → d = .AND ∨ d = .OR ∨ d = .CPL
  adj : ∀ i x, (.CPL, x) ∈ t.children i → (∃ tag ∈ nominal, tg[i]? = some tag) ∧ tg[x]? = some .ADJ ∧
    ∃ l, LemmaOf c tokens tg x l ∧ l ∉ c.nouns

end Spec
