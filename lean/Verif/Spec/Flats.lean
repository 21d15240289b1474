import Verif.Spec.Nodes

/-! Sentences whose flat expressions count as one word. -/

namespace Spec
open Py Model

/-- The tokens `i`, …, `i + n` form a flat expression ("New York City"): each is attached to the one before it by `FLAT`, and to
nothing else; only the first one, which is no particle and has none, is attached to another word or has other words attached. -/
structure FlatRun (t : Tree Dep Nat) (i n : Nat) : Prop where
  next : ∀ k, i ≤ k → k < i + n → ∀ x, (.FLAT, x) ∈ t.children k ↔ x = k + 1
  inner : ∀ k, i < k → k ≤ i + n → ∀ d x, (d, x) ∈ t.children k → d = .FLAT
  leaf : t.children (i + n) = []
  one : ∀ k, i < k → k ≤ i + n → ∀ d p, (d, k) ∈ t.children p → p + 1 = k
  top : ∀ d p, (d, i) ∈ t.children p → d ≠ .FLAT ∧ d ≠ .PART
  noPart : ∀ x, (.PART, x) ∉ t.children i
  attached : ∃ d x, ((d, x) ∈ t.children i ∨ (d, i) ∈ t.children x) ∧ d ≠ .FLAT

/-- The sentence with the tree `t`, `tokens` and tags `tg` is the one with `t₀`, `tokens₀` and `tg₀` where the flat expressions
that begin at token `i` and have `width i` further tokens are one word: token `i` is their text with the tag of their last token,
and the further tokens are outside the parse. -/
structure OneWord (width : Nat → Nat) (t₀ : Tree Dep Nat) (tokens₀ : List Str) (tg₀ : List Tag) (t : Tree Dep Nat)
    (tokens : List Str) (tg : List Tag) : Prop where
  run : ∀ i, width i ≠ 0 → FlatRun t₀ i (width i)
  head : ∀ i, width i ≠ 0 → t.children i = (t₀.children i).filter fun x => x.1 ≠ .FLAT
  rest : ∀ i k, i < k → k ≤ i + width i → t.children k = []
  other : ∀ k, width k = 0 → (∀ i, i < k → i + width i < k) → t.children k = t₀.children k
  word : ∀ i, width i ≠ 0 → tokens[i]? = some (List.intercalate c!" " ((tokens₀.drop i).take (width i + 1)))
  same : ∀ i, width i = 0 → tokens[i]? = tokens₀[i]?
  tag : ∀ i, tg[i]? = tg₀[i + width i]?

end Spec
