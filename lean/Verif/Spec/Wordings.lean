import Verif.Model.Pipeline

/-! Sentences of the same parse that differ in words that do not matter. -/

namespace Spec
open Py Model

/-- Arcs to articles, auxiliaries, modals, negations, interjections, and to the markers of comparisons and infinitives. -/
def silentDeps : List Dep := [.ART, .AUX, .MODAL, .NEG, .INTJ, .CMARK, .IMARK]

/-- The token takes part in no arc. -/
def OffTree (t : Tree Dep Nat) (i : Nat) : Prop := ∀ l j, (l, j) ∉ t.children i ∧ (l, i) ∉ t.children j

/-- The token is a particle or goes on a flat expression. -/
def Merged (t : Tree Dep Nat) (i : Nat) : Prop := ∃ p, (.PART, i) ∈ t.children p ∨ (.FLAT, i) ∈ t.children p

/-- The token is a function word, attached by the label, on which only function words hang. -/
def FunctionLeaf (t : Tree Dep Nat) (l : Dep) (i : Nat) : Prop :=
  (∃ p, (l, i) ∈ t.children p ∧ ¬ Merged t p) ∧ ∀ d j, (d, j) ∈ t.children i → d ∈ functionalDeps

/-- `w` and `w'` at place `i` make no difference: they differ in letter case only, or the token is not in the parse, or it
is a function word; if it is a marker, neither word is "by". -/
def SameSense (lower : Str → Str) (t : Tree Dep Nat) (i : Nat) (w w' : Str) : Prop :=
  lower w' = lower w ∨ OffTree t i ∨ (∃ l ∈ silentDeps, FunctionLeaf t l i) ∨
    (FunctionLeaf t .MARK i ∧ lower w ≠ c!"by" ∧ lower w' ≠ c!"by")

/-- Both sentences have the same words up to words that make no difference, and the same words in flat expressions. -/
structure Reworded (lower : Str → Str) (t : Tree Dep Nat) (tokens tokens' : List Str) : Prop where
  length : tokens'.length = tokens.length
  word : ∀ (i : Nat) w w', tokens[i]? = some w → tokens'[i]? = some w' → w ≠ w' → SameSense lower t i w w'
  flat : ∀ (i : Nat) w w', tokens[i]? = some w → tokens'[i]? = some w' → w ≠ w' →
    (∀ p, (.FLAT, i) ∉ t.children p) ∧ ∀ j, (.FLAT, j) ∉ t.children i

end Spec
