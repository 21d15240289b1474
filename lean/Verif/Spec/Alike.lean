import Verif.Spec.Statements

/-! Sentences with the same words in the same arcs, at different places. -/

namespace Spec
open Py Model

/-- Labels of articles, auxiliaries, modals and interjections. -/
def light : List Dep := [.ART, .AUX, .MODAL, .INTJ]

/-- Labels of complements, properties and coordinated words. -/
def hinges : List Dep := [.CPL, .PROP, .IPROP, .AND, .OR]

/-- The token takes part in an arc, and not as an article, auxiliary, modal or interjection. -/
def Content (t : Tree Dep Nat) (i : Nat) : Prop :=
  ((∃ d x, (d, x) ∈ t.children i) ∨ ∃ d p, (d, i) ∈ t.children p) ∧ ∀ d p, (d, i) ∈ t.children p → d ∉ light

/-- The token is the word "by". -/
def IsBy (lower : Str → Str) (tokens : List Str) (i : Nat) : Prop := ∃ tok, tokens[i]? = some tok ∧ lower tok = c!"by"

/-- Token `i` of the first sentence stands at `σ i` in the second one: the order is the same and the arcs are the same, apart from
those of articles, auxiliaries, modals and interjections, and a complement, a property, a coordinated word and a word without parent
have something attached to them other than particles in both sentences or in none. Words and particles are the same up to letter case, words have the same tags, and markers are "by" in both
sentences or in none. All other tokens, of negations and markers and those outside the parse, are arbitrary, and either sentence may
have more of the latter. -/
structure Moved (lower : Str → Str) (σ : Nat → Nat) (t : Tree Dep Nat) (tokens : List Str) (tg : List Tag) (t' : Tree Dep Nat)
    (tokens' : List Str) (tg' : List Tag) : Prop where
  order : ∀ i j, i < j → σ i < σ j
  arcs : ∀ i, (t'.children (σ i)).filter (fun x => x.1 ∉ light) =
    ((t.children i).filter fun x => x.1 ∉ light).map fun x => (x.1, σ x.2)
  bare : ∀ i, (∀ d p, (d, i) ∈ t.children p → d ∈ light ++ hinges) → ((∀ x ∈ t'.children (σ i), x.1 = .PART) ↔ ∀ x ∈ t.children i, x.1 = .PART)
  rest : ∀ k, (∀ i, σ i ≠ k) → t'.children k = []
  word : ∀ i, Content t i → (∀ d p, (d, i) ∈ t.children p → d ∈ functional → d = .PART) →
    tokens'[σ i]?.map lower = tokens[i]?.map lower
  tag : ∀ i, Content t i → (∀ d p, (d, i) ∈ t.children p → d ∉ functional) → tg'[σ i]? = tg[i]?
  marker : ∀ i p, (.MARK, i) ∈ t.children p → (IsBy lower tokens' (σ i) ↔ IsBy lower tokens i)

end Spec
