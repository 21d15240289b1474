import Verif.Model.Pipeline

/-! Sentences of the same parse that differ in some of their nouns. -/

namespace Spec
open Py Model

/-- Tags of nouns with a meaning of their own. -/
def namingTags : List Tag := [.NOUN, .PROPN]

/-- `l` is the lemma the pipeline gives to the word `w` under the tag. -/
def LemmaFor (c : Logic) (tag : Tag) (w l : Str) : Prop :=
  ∃ s x, standardize c.lemmatizer.lm (c.lower w) = .ok s ∧ c.lemmatizer.call s tag = .ok (l, x)

/-- Words that argument finding reads: relative and reflexive pronouns, and the marker of agents. -/
def readWords : List Str :=
  [c!"that", c!"which", c!"who", c!"myself", c!"yourself", c!"yourselves", c!"himself", c!"herself", c!"itself",
   c!"ourself", c!"ourselves", c!"theirself", c!"themselves", c!"oneself", c!"by"]

/-- `w` is a word that only names something: its lemma is neither an adjective nor a word that is read. -/
def Naming (c : Logic) (tag : Tag) (w : Str) : Prop :=
  tag ∈ namingTags ∧ ∀ l, LemmaFor c tag w l → l ∉ c.lemmatizer.adjs ∧ l ∉ readWords

/-- `tag` is the tag of a token of the flat expression that starts at `p`. -/
def TagAt (tags : List Tag) (t : Tree Dep Nat) (p : Nat) (tag : Tag) : Prop :=
  ∃ j : Nat, Relation.ReflTransGen (fun a b => (Dep.FLAT, b) ∈ t.children a) p j ∧ tags[j]? = some tag

/-- Both sentences have the same words, except for nouns that are neither function words nor in flat expressions. -/
structure NounsReplaced (c : Logic) (tags : List Tag) (t : Tree Dep Nat) (tokens tokens' : List Str) : Prop where
  length : tokens'.length = tokens.length
  noun : ∀ (i : Nat) w w', tokens[i]? = some w → tokens'[i]? = some w' → w ≠ w' →
    ∃ tag, tags[i]? = some tag ∧ Naming c tag w ∧ Naming c tag w'
  place : ∀ (i : Nat) w w', tokens[i]? = some w → tokens'[i]? = some w' → w ≠ w' →
    (∀ l p, (l, i) ∈ t.children p → l ∉ functionalDeps ∧ l ≠ .FLAT) ∧ ∀ j, (.FLAT, j) ∉ t.children i

/-- Nouns are used as nouns: none has a property of its own, as a verb has, and none is coordinated to an adjective. -/
structure NounsAsNouns (tags : List Tag) (t : Tree Dep Nat) : Prop where
  copula : ∀ p l j, l ∈ propDeps → (l, j) ∈ t.children p → ∀ tag, TagAt tags t p tag → tag ∉ namingTags
  conj : ∀ p l j, l ∈ [Dep.AND, .OR] → (l, j) ∈ t.children p → TagAt tags t p .ADJ → ∀ tag, TagAt tags t j tag →
    tag ∉ namingTags

/-- The lemmas of a noun and of the noun that replaces it. -/
def LemmaReplaced (c : Logic) (tags : List Tag) (tokens tokens' : List Str) (l l' : Str) : Prop :=
  ∃ (i : Nat) (w w' : Str) (tag : Tag), tokens[i]? = some w ∧ tokens'[i]? = some w' ∧ tags[i]? = some tag ∧ LemmaFor c tag w l ∧ LemmaFor c tag w' l'

/-- The same phrase, with the lemmas of the replaced nouns in their places. -/
def PhraseReplaced (c : Logic) (tags : List Tag) (tokens tokens' : List Str) (a a' : Str) : Prop :=
  ∃ ls ls', a = List.intercalate c!" " ls ∧ a' = List.intercalate c!" " ls' ∧
    List.Forall₂ (fun l l' => l' = l ∨ LemmaReplaced c tags tokens tokens' l l') ls ls'

/-- The same argument, or two common or proper nouns in the same place. -/
def ArgReplaced (c : Logic) (tags : List Tag) (tokens tokens' : List Str) (a a' : Argument) : Prop :=
  a'.code = a.code ∧ a'.isAff = a.isAff ∧
    (a'.word = a.word ∨ a.code ∈ [c!"N", c!"P"] ∧ PhraseReplaced c tags tokens tokens' a.word a'.word)

end Spec
