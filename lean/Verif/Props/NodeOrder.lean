import Verif.Lemmas.NodeOrder
import Verif.Props.Nodes

/-! C136: the order of the nodes of a sentence. -/

namespace Props
open Py Model Spec

section
variable {S W : Type} {nets : Networks W} {vectorize : S → Except PyErr (Nat × W)} {sentences : List S}
  {tags : List (List Tag)} {trees : List (Option (Tree Dep Nat))}

/-- **C136.** If no word has two flat words below it, or a flat word and a particle, the nodes come in this order: flat
expressions, words with particles, the others, each group in the order of the text. -/
theorem C136_node_order (h : Returned nets vectorize sentences tags trees) (i : Nat) (t : Tree Dep Nat)
    (ht : trees[i]? = some (some t)) (tg : List Tag) (hg : tags[i]? = some tg) (lower : Str → Str) (tokens : List Str)
    (hl : tokens.length = tg.length) (heap : Heap) (dict : Dict Nat Ref) (nt : Option (Tree Dep Ref))
    (hn : nodify lower tokens tg (some t) = .ok (heap, dict, nt))
    (h1 : ∀ p x y, (.FLAT, x) ∈ t.children p → (.FLAT, y) ∈ t.children p → x = y)
    (h2 : ∀ p x y, (.FLAT, x) ∈ t.children p → (.PART, y) ∉ t.children p) :
    List.Sublist dict.keys (nodeOrder t tokens.length) := by
  obtain ⟨arcs, H, h3, h4⟩ := h.idxTree ht hg
  rw [← hl] at H
  exact nodify_order H hl.symm h3 h4 h1 h2 hn

end

/-- No token stands twice in the order, so that it fixes the place of every node. -/
theorem C136_no_repetition (t : Tree Dep Nat) (n : Nat) : (nodeOrder t n).Nodup := by
  have hdisj : ∀ i, hasParticle t i = true → endsFlat t i = false := by
    intro i hi
    obtain ⟨c, hc, -⟩ := List.any_eq_true.mp hi
    have : t.children i ≠ [] := List.ne_nil_of_mem hc
    simp [endsFlat, this]
  unfold nodeOrder
  refine List.nodup_append.mpr ⟨List.nodup_append.mpr ⟨List.nodup_range.filter _, List.nodup_range.filter _, ?_⟩,
    List.nodup_range.filter _, ?_⟩
  · rintro a ha b hb rfl
    have h1 := (List.mem_filter.mp ha).2
    rw [hdisj _ (List.mem_filter.mp hb).2] at h1
    cases h1
  · rintro a ha b hb rfl
    have h1 := (List.mem_filter.mp hb).2
    simp only [Bool.and_eq_true, Bool.not_eq_true'] at h1
    rcases List.mem_append.mp ha with ha | ha
    · have := (List.mem_filter.mp ha).2
      rw [h1.1] at this
      cases this
    · have := (List.mem_filter.mp ha).2
      rw [h1.2] at this
      cases this

/-- "the bank of New York City set up": "New York City", "set", "bank" -/
example : ((buildParseTree sampleArcs).toOption.join.map fun t => nodeOrder t 8) = some [5, 6, 0, 1, 2, 3, 4, 7] ∧
    ((buildParseTree sampleArcs).bind (nodify id sampleTokens (List.replicate 8 .NOUN))).map (fun x => x.2.1.keys) =
      .ok [5, 6, 1] := by
  decide +kernel

/-- The tree of this example meets the hypotheses on flat words. -/
example (t : Tree Dep Nat) (ht : buildParseTree sampleArcs = .ok (some t)) :
    (∀ p x y, (.FLAT, x) ∈ t.children p → (.FLAT, y) ∈ t.children p → x = y) ∧
    (∀ p x y, (.FLAT, x) ∈ t.children p → (.PART, y) ∉ t.children p) := by
  obtain ⟨r, -, hb⟩ := buildParseTree_some ht
  simp only [(buildTree_inv hb).mem_children, sampleArcs, List.mem_cons, Prod.mk.injEq, List.not_mem_nil, reduceCtorEq,
    false_and, true_and, false_or, or_false]
  refine ⟨?_, ?_⟩ <;> intros <;> omega

/-- With two flat words below the same word the order is another: the expression has the place of its first ending,
but the index of its last. -/
example : ((buildParseTree [(.FLAT, 0, 1), (.FLAT, 0, 4), (.FLAT, 2, 3), (.CPL, 0, 2)]).bind
    (nodify id [c!"a", c!"b", c!"c", c!"d", c!"e"] (List.replicate 5 .PROPN))).map (fun x => x.2.1.keys) =
      .ok [4, 3] := by
  decide +kernel

end Props
