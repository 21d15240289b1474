import Verif.Lemmas.Tree

/-! Properties C06 - C10: the dependency tree container. -/

namespace Props
open Py Model Spec

variable {L N : Type} [DecidableEq L] [DecidableEq N]

/-- A history used by the examples: 2 is the root, 1 and 3 depend on it, 0 on 1, 4 on 3. -/
def demoHist : List (String × Nat × Nat) := [("a", 2, 1), ("b", 2, 3), ("a", 1, 0), ("a", 3, 4), ("a", 2, 5)]

/-- C06: for every history, the methods are exactly the corresponding views of the history: `parent` is the latest
registration, `children_via` lists the registrations in order, `children` groups them by label in order of first use. -/
theorem C06_tree_views (root : N) (hist : List (L × N × N)) (t : Tree L N) (h : buildTree root hist = .ok t) :
    (∀ c, t.parent c = lastParent hist c) ∧
    (∀ p l, t.childrenVia p l = labelled hist p l) ∧
    (∀ p, t.children p = (labelsOf hist p).flatMap fun l => (labelled hist p l).map fun c => (l, c)) := by
  have inv := buildTree_inv h
  exact ⟨inv.parent, inv.childrenVia, inv.children⟩

/-- C06: when every child is registered at most once the parent and children views agree. -/
theorem C06_tree_consistent (root : N) (hist : List (L × N × N)) (t : Tree L N) (h : buildTree root hist = .ok t)
    (hs : SingleHead hist) (l : L) (p c : N) :
    (t.parent c = some (l, p) ↔ c ∈ t.childrenVia p l) ∧ (c ∈ t.childrenVia p l ↔ (l, c) ∈ t.children p) := by
  have inv := buildTree_inv h
  rw [inv.parent, inv.childrenVia, inv.mem_children, mem_labelled]
  exact ⟨⟨lastParent_mem, lastParent_of_single hs⟩, Iff.rfl⟩

/-- C06: the only possible failure of a history is registering a node as its own child. -/
theorem C06_tree_total (root : N) (hist : List (L × N × N)) :
    (∃ t, buildTree root hist = .ok t) ↔ ∀ a ∈ hist, a.2.1 ≠ a.2.2 :=
  ⟨fun ⟨_, h⟩ => (buildTree_inv h).ne, buildTree_total root hist⟩

/-- C06: the boolean queries agree with the list queries. -/
theorem C06_tree_queries (root : N) (hist : List (L × N × N)) (t : Tree L N) (h : buildTree root hist = .ok t)
    (n : N) (l : L) (ls : List L) :
    (t.hasParentVia n l = true ↔ ∃ p, t.parent n = some (l, p)) ∧
    (t.hasParentViaSet n ls = true ↔ ∃ l' ∈ ls, ∃ p, t.parent n = some (l', p)) ∧
    (t.hasChildVia n l = true ↔ ∃ c, c ∈ t.childrenVia n l) ∧
    (t.hasChildViaSet n ls = true ↔ ∃ l' ∈ ls, ∃ c, c ∈ t.childrenVia n l') ∧
    (t.childVia n l = .ok (t.childrenVia n l).head?) ∧
    (t.hasNode n = true ↔ ∃ a ∈ hist, a.2.1 = n ∨ a.2.2 = n) :=
  tree_queries root hist t h n l ls

example : ∃ t, buildTree 2 demoHist = .ok t ∧ SingleHead demoHist ∧ t.children 2 = [("a", 1), ("a", 5), ("b", 3)] ∧
    t.parent 0 = some ("a", 1) := by
  refine ⟨_, rfl, ?_, ?_, ?_⟩ <;> decide +kernel

/-- C07: size, nodes and iteration. -/
theorem C07_tree_enumeration (root : N) (hist : List (L × N × N)) (t : Tree L N) (h : buildTree root hist = .ok t) :
    t.len = t.nodes.length ∧ t.nodes = root :: firstSeen (hist.map fun a => a.2.2) ∧
    (t.arcs.map fun a => a.2.2) = firstSeen (hist.map fun a => a.2.2) ∧
    (∀ l p c, (l, p, c) ∈ t.arcs ↔ lastParent hist c = some (l, p)) ∧
    ((∀ a ∈ hist, a.2.2 ≠ root) → t.nodes.Nodup) := by
  have inv := buildTree_inv h
  have hn : t.nodes = root :: firstSeen (hist.map fun a => a.2.2) := by
    simp [Tree.nodes, inv.root_eq, inv.parKeys]
  refine ⟨by simp [Tree.len, Tree.nodes, Nat.add_comm], hn, ?_, ?_, ?_⟩
  · rw [← inv.parKeys]
    simp [Tree.arcs, Dict.keys]
  · intro l p c
    rw [← inv.par, ← Dict.mem_iff_get? inv.wfPar]
    simp only [Tree.arcs, List.mem_map, Prod.mk.injEq, Prod.exists]
    constructor
    · rintro ⟨a, b, d, hm, rfl, rfl, rfl⟩
      exact hm
    · intro hm
      exact ⟨c, l, p, hm, rfl, rfl, rfl⟩
  · intro hr
    rw [hn, List.nodup_cons]
    refine ⟨?_, nodup_firstSeen _⟩
    rw [mem_firstSeen, List.mem_map]
    rintro ⟨a, ha, he⟩
    exact hr a ha he

example : ∃ t, buildTree 2 demoHist = .ok t ∧ t.len = 6 ∧ t.nodes = [2, 1, 3, 0, 4, 5] ∧
    ∀ a ∈ demoHist, a.2.2 ≠ 2 := by
  refine ⟨_, rfl, ?_, ?_, ?_⟩ <;> decide +kernel

/-- C08: without cycle `ancestors_via` terminates (for every fuel beyond the number of registered children) and returns
the maximal label chain, furthest ancestor first. -/
theorem C08_ancestors_via (t : Tree L N) (hac : Acyclic fun a b => ∃ l, t.parent a = some (l, b)) (n : N) (l : L)
    (fuel : Nat) (hf : t.len ≤ fuel) :
    ∃ path, t.ancestorsVia fuel n l = some path ∧ UpChain t.parent l n path.reverse := by
  have hs := climb_isSome t l hac fuel n [] (by simp) (by simp) (by simp) (by simp [Tree.len] at hf ⊢; omega)
  obtain ⟨path, hp⟩ := Option.isSome_iff_exists.mp hs
  refine ⟨path.reverse, by simp [Tree.ancestorsVia, hp], ?_⟩
  rw [List.reverse_reverse]
  exact climb_upChain t l fuel n path hp

/-- C08: the chain is unique, so it determines the answer; and whatever the tree, any answer is that chain. -/
theorem C08_ancestors_via_sound (t : Tree L N) (n : N) (l : L) (fuel : Nat) (path : List N)
    (h : t.ancestorsVia fuel n l = some path) :
    UpChain t.parent l n path.reverse ∧ ∀ q, UpChain t.parent l n q → q = path.reverse := by
  simp only [Tree.ancestorsVia, Option.map_eq_some_iff] at h
  obtain ⟨p, hp, rfl⟩ := h
  rw [List.reverse_reverse]
  have := climb_upChain t l fuel n p hp
  exact ⟨this, fun q hq => upChain_unique hq this⟩

/-- C08: if the chain of a node runs into a label cycle, the recursion never ends: no fuel suffices. -/
theorem C08_ancestors_via_cycle (t : Tree L N) (n m : N) (l : L)
    (hr : Relation.ReflTransGen (fun a b => t.parent a = some (l, b)) n m)
    (hc : Relation.TransGen (fun a b => t.parent a = some (l, b)) m m) (fuel : Nat) :
    t.ancestorsVia fuel n l = none := by
  simp [Tree.ancestorsVia, climb_none_of_reach t l hc fuel n hr]

example : ∃ t, buildTree 2 demoHist = .ok t ∧ t.ancestorsVia 6 0 "a" = some [2, 1] ∧
    Acyclic fun a b => ∃ l, t.parent a = some (l, b) := by
  refine ⟨_, rfl, by decide +kernel, ?_⟩
  apply acyclic_of_rank (fun n => if n = 2 then 2 else if n = 1 ∨ n = 3 then 1 else 0)
  rintro a b ⟨l, h⟩
  rw [(buildTree_inv (root := 2) (hist := demoHist) rfl).parent] at h
  have hm := lastParent_mem h
  revert hm
  have : ∀ e ∈ demoHist, (fun n => if n = 2 then 2 else if n = 1 ∨ n = 3 then 1 else 0) e.2.2 <
      (fun n => if n = 2 then 2 else if n = 1 ∨ n = 3 then 1 else 0) e.2.1 := by decide +kernel
  exact this _

example : ∃ t, buildTree 9 [("a", 0, 1), ("a", 1, 0), ("a", 0, 2)] = .ok t ∧
    Relation.ReflTransGen (fun a b => t.parent a = some ("a", b)) 2 0 ∧
    Relation.TransGen (fun a b => t.parent a = some ("a", b)) 0 0 := by
  refine ⟨_, rfl, Relation.ReflTransGen.single (by decide +kernel), ?_⟩
  exact Relation.TransGen.tail (Relation.TransGen.single (b := 1) (by decide +kernel)) (by decide +kernel)

/-- C09: without cycle `descendants_via` terminates and returns exactly the nodes reachable downwards via the label. -/
theorem C09_descendants_via (t : Tree L N) (n : N) (l : L) (hac : Acyclic fun a b => b ∈ t.childrenVia a l)
    (fuel : Nat) (hf : t.children'.keys.length < fuel) :
    ∃ out, t.descendantsVia fuel n l = some out ∧
      ∀ x, x ∈ out ↔ Relation.TransGen (fun a b => b ∈ t.childrenVia a l) n x := by
  have hs := descend_isSome t l hac fuel n [] (by simp) (by simp) (by simp) (by simpa using hf)
  obtain ⟨out, ho⟩ := Option.isSome_iff_exists.mp hs
  exact ⟨out, ho, mem_descend t l fuel n out ho⟩

/-- C09: whatever the tree and fuel, any answer is the set of reachable nodes. -/
theorem C09_descendants_via_sound (t : Tree L N) (n : N) (l : L) (fuel : Nat) (out : List N)
    (h : t.descendantsVia fuel n l = some out) (x : N) :
    x ∈ out ↔ Relation.TransGen (fun a b => b ∈ t.childrenVia a l) n x :=
  mem_descend t l fuel n out h x

example : ∃ t, buildTree 2 demoHist = .ok t ∧ t.descendantsVia 6 2 "a" = some [1, 0, 5] ∧
    (Acyclic fun a b => b ∈ t.childrenVia a "a") ∧ t.children'.keys.length < 6 := by
  refine ⟨_, rfl, by decide +kernel, ?_, by decide +kernel⟩
  apply acyclic_of_rank (fun n => if n = 2 then 0 else if n = 1 ∨ n = 3 then 1 else 2)
  intro a b h
  rw [(buildTree_inv (root := 2) (hist := demoHist) rfl).childrenVia, mem_labelled] at h
  have : ∀ e ∈ demoHist, (fun n => if n = 2 then 0 else if n = 1 ∨ n = 3 then 1 else 2) e.2.1 <
      (fun n => if n = 2 then 0 else if n = 1 ∨ n = 3 then 1 else 2) e.2.2 := by decide +kernel
  exact this _ h

/-- C10: siblings are the other children of the parent. -/
theorem C10_siblings (t : Tree L N) (n : N) :
    t.siblings n = match t.parent n with
      | some (_, p) => (t.children p).filter fun q => q.2 ≠ n
      | none => [] := by
  unfold Tree.siblings Tree.parent
  cases t.parents.get? n with
  | none => rfl
  | some q =>
    obtain ⟨l, p⟩ := q
    simp only [Tree.children]
    cases t.children'.get? p with
    | none => rfl
    | some e =>
      simp only [List.filter_flatMap]
      apply List.flatMap_congr
      intro a _
      rw [List.filter_map]
      rfl

example : ∃ t, buildTree 2 demoHist = .ok t ∧ t.siblings 1 = [("a", 5), ("b", 3)] := by
  refine ⟨_, rfl, ?_⟩; decide +kernel

end Props
