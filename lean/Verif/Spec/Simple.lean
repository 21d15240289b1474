import Verif.Spec.Exactly

/-! Simple sentences: a subject, a verb and at most one object or property. -/

namespace Spec
open Py Model

/-- Apart from function words and coordinated nouns, the parse consists of the verb `v`, its subject `s` and what else is attached
to `v`. -/
structure Frame (t : Tree Dep Nat) (v s : Nat) (rest : Option (Dep × Nat)) : Prop where
  subj : (.SUBJ, s) ∈ t.children v
  also : ∀ y ∈ rest, y ∈ t.children v
  only : ∀ d x, (d, x) ∈ t.children v → d ∉ functional → (d, x) = (.SUBJ, s) ∨ some (d, x) = rest
  others : ∀ p d x, (d, x) ∈ t.children p → p ≠ v → d ∉ functional → d = .AND ∨ d = .OR

/-- Token `i`, a nominal, is called by its lemma, a pronoun by its subject form. -/
def Noun (c : Logic) (tokens : List Str) (tg : List Tag) (i : Nat) (a : Argument) : Prop :=
  ∃ l tag, LemmaOf c tokens tg i l ∧ tg[i]? = some tag ∧ tag ∈ nominal ∧ NounCode tag a.code ∧ a.isAff = true ∧
    a.word = if tag = .PRON then (Props.subjectOf l).getD l else l

/-- The token and those coordinated to it are nominals. -/
def Nouns (t : Tree Dep Nat) (tg : List Tag) (i : Nat) : Prop := ∀ x, Member t i x → ∃ tag ∈ nominal, tg[x]? = some tag

end Spec
