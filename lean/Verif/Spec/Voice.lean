import Verif.Spec.Provenance

/-! Active and passive forms. -/

namespace Spec
open Py Model

/-- The verb `v` of an active form and the participle `x` of a passive one belong together: they have the same particles, and
the participle is the past participle of a verb of the sentence, or a word of the sentence that, read as a verb, is the past of
this verb. -/
def Voices (c : Logic) (tokens : List Str) (v x : Str) : Prop :=
  ∃ l q ps, Particles c tokens ps ∧ v = List.intercalate c!" " (l :: ps) ∧ x = List.intercalate c!" " (q :: ps) ∧
    ((BaseForm c tokens l ∧ pastParticiple c.lemmatizer.lm [[]] c.reversedPps l = .ok q) ∨
      ∃ y s tag suffix, SentText tokens y ∧ standardize c.lemmatizer.lm (c.lower y) = .ok s ∧
        c.lemmatizer.call s .VERB = .ok (l, some .PAST) ∧ c.lemmatizer.call s tag = .ok (q, suffix))

/-- Only verbs that are no copulas are negated in the parse, and no verbs of several words. -/
def OnlyVerbsNegated (tg : List Tag) (t : Tree Dep Nat) : Prop :=
  ∀ k x, (.NEG, x) ∈ t.children k → tg[k]? = some .VERB ∧ ∀ y, (.PROP, y) ∉ t.children k ∧ (.FLAT, y) ∉ t.children k

end Spec
