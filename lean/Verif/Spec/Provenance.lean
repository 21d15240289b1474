import Verif.Props.Normalization
import Verif.Model.Pipeline

/-! Where the words of tuples come from. -/

namespace Spec
open Py Model

variable (c : Logic) (tokens : List Str)

/-- A token of the sentence, or several joined by blanks. -/
def SentText (x : Str) : Prop := ∃ texts, texts ≠ [] ∧ (∀ t ∈ texts, t ∈ tokens) ∧ x = List.intercalate c!" " texts

/-- The lower-cased text, or its lemma for some tag. -/
def BaseForm (l : Str) : Prop := ∃ x, SentText tokens x ∧ (l = c.lower x ∨
  ∃ s tag suffix, standardize c.lemmatizer.lm (c.lower x) = .ok s ∧ c.lemmatizer.call s tag = .ok (l, suffix))

/-- Lower-cased tokens of the sentence. -/
def Particles (ps : List Str) : Prop := ∀ p ∈ ps, ∃ t ∈ tokens, p = c.lower t

/-- A word made of words of the sentence: base forms and particles, the subject form of an object pronoun, or a past
participle with particles. -/
inductive Derived : Str → Prop
  | words {ls ps : List Str} : ls ≠ [] → (∀ l ∈ ls, BaseForm c tokens l) → Particles c tokens ps →
      Derived (List.intercalate c!" " (ls ++ ps))
  | pronoun {l w : Str} : BaseForm c tokens l → Props.subjectOf l = some w → Derived w
  | participle {l w : Str} {ps : List Str} : BaseForm c tokens l →
      pastParticiple c.lemmatizer.lm [[]] c.reversedPps l = .ok w → Particles c tokens ps →
      Derived (List.intercalate c!" " (w :: ps))

/-- An argument made of words of the sentence; only linking verbs (code C) may begin with "be". -/
def DerivedArg (a : Argument) : Prop :=
  Derived c tokens a.word ∨ a.code = c!"C" ∧ (a.word = c!"be" ∨ ∃ w, Derived c tokens w ∧ a.word = c!"be " ++ w)

end Spec
