import Verif.Lemmas.Chunker

/-! Properties of noun chunks (C54) and of tag fixing (C55). -/

namespace Props
open Py Model Spec

/-- C54: chunking raises nothing on any tree. A node gets a chunk iff it is one of the nodes, has a compound noun and
is not a compound noun itself; the chunk is then the lemmas of the node and of all its direct and indirect compounds,
once each, in sentence order, the node last. Nothing else changes. -/
theorem C54_chunks (h : Heap) (root : Ref) (hist : List (Dep × Ref × Ref)) (t : Tree Dep Ref)
    (hb : buildTree root hist = .ok t) (nodes : List Ref) (hnd : nodes.Nodup) :
    ∃ h', chunker h t nodes = .ok h' ∧ h'.next = h.next ∧ ∀ r,
      (r ∈ nodes → (∃ c, Compound h t nodes c r) → (∀ p, ¬ Compound h t nodes r p) →
        ∃ ns, ChunkNouns h t nodes r ns ∧
          h'.node r = { h.node r with chunk := some (join c!" " (ns.map fun n => (h.node n).lem)) }) ∧
      (r ∉ nodes ∨ (∀ c, ¬ Compound h t nodes c r) ∨ (∃ p, Compound h t nodes r p) → h'.node r = h.node r) := by
  choose ns s hs using fun (h' : {h' : Heap // ∀ r, SameButChunk (h.node r) (h'.node r)}) (r : Ref) =>
    chunkOf_spec (h := h) hist root hb hnd h'.1 h'.2 r
  have h0 : ∀ r, SameButChunk (h.node r) (h.node r) := fun r => ⟨_, rfl⟩
  -- the chunk does not depend on the chunks already set
  have hf : ∀ h', (∀ r, SameButChunk (h.node r) (h'.node r)) → ∀ r,
      chunkOf h' (compounds h t nodes).1 r = .ok (s ⟨h, h0⟩ r) := by
    intro h' hh r
    rw [← (hs ⟨h, h0⟩ r).1]
    have e1 : ∀ x, (h'.node x).idx = (h.node x).idx := by
      intro x; obtain ⟨y, hy⟩ := hh x; rw [hy]
    have e2 : ∀ x, (h'.node x).lem = (h.node x).lem := by
      intro x; obtain ⟨y, hy⟩ := hh x; rw [hy]
    simp only [chunkOf, e1, e2]
  obtain ⟨h', e1, e2, e3⟩ := chunk_loop (h := h) (compounds h t nodes).1 (s ⟨h, h0⟩) hf
    (nodes.filter fun r => (compounds h t nodes).1.has r ∧ r ∉ (compounds h t nodes).2) h h0
  refine ⟨h', e1, e2, ?_⟩
  obtain ⟨_, k2, k3⟩ := compounds_spec (h := h) (t := t) (nodes := nodes)
  have hkey : ∀ p, (compounds h t nodes).1.has p = true ↔ ∃ c, Compound h t nodes c p := by
    intro p
    rw [Dict.has_iff, k2]
    constructor
    · rintro ⟨c, h1, h2⟩; exact ⟨c, (compoundParent_iff hist root hb c p).mp ⟨h1, h2⟩⟩
    · rintro ⟨c, hc⟩; exact ⟨c, (compoundParent_iff hist root hb c p).mpr hc⟩
  have hpar : ∀ c, c ∈ (compounds h t nodes).2 ↔ ∃ p, Compound h t nodes c p := by
    intro c
    rw [k3, List.mem_filter, Option.isSome_iff_exists]
    constructor
    · rintro ⟨h1, p, h2⟩; exact ⟨p, (compoundParent_iff hist root hb c p).mp ⟨h1, h2⟩⟩
    · rintro ⟨p, hp⟩
      have := (compoundParent_iff hist root hb c p).mpr hp
      exact ⟨this.1, p, this.2⟩
  intro r
  constructor
  · intro hr hc hp
    refine ⟨ns ⟨h, h0⟩ r, (hs ⟨h, h0⟩ r).2.1, ?_⟩
    rw [e3, if_pos, (hs ⟨h, h0⟩ r).2.2]
    simp only [List.mem_filter, decide_eq_true_eq, hkey, hpar]
    exact ⟨hr, hc, fun ⟨p, h⟩ => hp p h⟩
  · intro hor
    rw [e3, if_neg]
    simp only [List.mem_filter, decide_eq_true_eq, hkey, hpar]
    rintro ⟨a1, ⟨c, a2⟩, a3⟩
    rcases hor with h | h | h
    · exact h a1
    · exact h c a2
    · exact a3 h

/-- A heap of nouns for examples. -/
def nounHeap (words : List Str) : Heap :=
  words.zipIdx.foldl (fun h w => (h.alloc (Node.new id w.2 w.1 .NOUN)).1) Heap.empty

/-- "city council tax office": "city" below "council", "council" and "tax" below "office". -/
def chunkArcs : List (Dep × Ref × Ref) := [(.CPL, 3, 1), (.CPL, 3, 2), (.CPL, 1, 0)]

example : (∃ t, buildTree (3 : Ref) chunkArcs = .ok t ∧
    (chunker (nounHeap [c!"city", c!"council", c!"tax", c!"office"]) t [3, 0, 2, 1]).map (fun h =>
      [0, 1, 2, 3].map fun r => (h.node r).chunk) = .ok [none, none, none, some c!"city council tax office"]) := by
  refine ⟨_, rfl, ?_⟩
  decide +kernel

/-- C55: the effect of fixing. Only tags of listed nodes change; a nominal whose lemma is in the adjective lexicon
becomes `ADJ` if it stands where tags are fixed, an `ADJ` whose lemma is in the noun lexicon becomes `NOUN`; any other
node keeps its tag. -/
theorem C55_fix_effect (adjs nouns : List Str) (h : Heap) (root : Ref) (hist : List (Dep × Ref × Ref)) (t : Tree Dep Ref)
    (hb : buildTree root hist = .ok t) (nodes : List Ref) (hnd : nodes.Nodup) :
    ∃ tag : Ref → Tag, (∀ r, (fixAll adjs nouns t h nodes).node r = { h.node r with tag := tag r }) ∧
      ∀ r, (r ∈ nodes ∧ Fixable h t r ∧ (h.node r).tag ∈ nominal ∧ (h.node r).lem ∈ adjs → tag r = .ADJ) ∧
        (r ∈ nodes ∧ Fixable h t r ∧ (h.node r).tag = .ADJ ∧ (h.node r).lem ∈ nouns → tag r = .NOUN) ∧
        (r ∉ nodes ∨ ¬ Fixable h t r ∨ ((h.node r).tag ∉ nominal ∧ (h.node r).tag ≠ .ADJ) ∨
          ((h.node r).tag ∈ nominal ∧ (h.node r).lem ∉ adjs) ∨ ((h.node r).tag = .ADJ ∧ (h.node r).lem ∉ nouns) →
          tag r = (h.node r).tag) := by
  obtain ⟨_, h2⟩ := fixAll_spec adjs nouns hist root hb nodes hnd h
  refine ⟨fun r => if r ∈ nodes then fixTag adjs nouns h t r else (h.node r).tag, ?_, ?_⟩
  · intro r
    rw [h2]
    by_cases hr : r ∈ nodes <;> simp [hr]
  · intro r
    have hnom : nominal = nounTags := rfl
    by_cases hr : r ∈ nodes
    · simp only [hr, if_true, true_and, not_true, false_or]
      unfold fixTag Fixable
      simp only [hnom]
      by_cases hc : t.children r = []
      · simp only [hc, if_true, true_and]
        cases hp : t.parent r with
        | none => simp
        | some q =>
          obtain ⟨d, p⟩ := q
          have hadj : (h.node r).tag = .ADJ → (h.node r).tag ∉ nounTags := by intro e; rw [e]; decide
          have hcond : (d = .CPL ∧ (h.node p).tag ∈ nounTags ∨ d ∈ propDeps) ↔
              ((∃ p', some (d, p) = some (Dep.CPL, p') ∧ (h.node p').tag ∈ nounTags) ∨
                ∃ p', some (d, p) = some (Dep.PROP, p') ∨ some (d, p) = some (Dep.IPROP, p')) := by
            simp only [Option.some.injEq, Prod.mk.injEq, propDeps, List.mem_cons, List.not_mem_nil, or_false]
            constructor
            · rintro (⟨rfl, h1⟩ | rfl | rfl)
              · exact Or.inl ⟨p, ⟨rfl, rfl⟩, h1⟩
              · exact Or.inr ⟨p, Or.inl ⟨rfl, rfl⟩⟩
              · exact Or.inr ⟨p, Or.inr ⟨rfl, rfl⟩⟩
            · rintro (⟨p', ⟨rfl, rfl⟩, h1⟩ | ⟨p', ⟨rfl, rfl⟩ | ⟨rfl, rfl⟩⟩)
              · exact Or.inl ⟨rfl, h1⟩
              · exact Or.inr (Or.inl rfl)
              · exact Or.inr (Or.inr rfl)
          rw [← hcond]
          by_cases hC : (d = .CPL ∧ (h.node p).tag ∈ nounTags ∨ d ∈ propDeps)
          · simp only [hC, if_true, true_and, not_true, false_or]
            by_cases a1 : (h.node r).tag ∈ nounTags <;> by_cases a2 : (h.node r).lem ∈ adjs <;>
              by_cases a3 : (h.node r).lem ∈ nouns <;> by_cases a4 : (h.node r).tag = .ADJ <;>
              simp_all
          · simp only [hC, if_false, false_and, not_false_eq_true, true_or]
            simp
      · simp [hc]
    · simp [hr]

/-- C55: fixing gives the same result for every order of the nodes. -/
theorem C55_fix_order (adjs nouns : List Str) (h : Heap) (root : Ref) (hist : List (Dep × Ref × Ref)) (t : Tree Dep Ref)
    (hb : buildTree root hist = .ok t) (nodes nodes' : List Ref) (hnd : nodes.Nodup) (hp : nodes'.Perm nodes) :
    fixAll adjs nouns t h nodes' = fixAll adjs nouns t h nodes := by
  obtain ⟨h1, h2⟩ := fixAll_spec adjs nouns hist root hb nodes hnd h
  obtain ⟨h3, h4⟩ := fixAll_spec adjs nouns hist root hb nodes' (hp.nodup_iff.mpr hnd) h
  refine heap_ext (h3.trans h1.symm) ?_
  intro r
  rw [h4, h2]
  simp only [hp.mem_iff]

/-- C55: fixing twice is fixing once when no word is in both lexicons. -/
theorem C55_fix_idempotent (adjs nouns : List Str) (hdis : ∀ w ∈ adjs, w ∉ nouns) (h : Heap) (root : Ref)
    (hist : List (Dep × Ref × Ref)) (t : Tree Dep Ref) (hb : buildTree root hist = .ok t) (nodes : List Ref)
    (hnd : nodes.Nodup) :
    fixAll adjs nouns t (fixAll adjs nouns t h nodes) nodes = fixAll adjs nouns t h nodes := by
  obtain ⟨h1, h2⟩ := fixAll_spec adjs nouns hist root hb nodes hnd h
  obtain ⟨h3, h4⟩ := fixAll_spec adjs nouns hist root hb nodes hnd (fixAll adjs nouns t h nodes)
  have hnode : (fixAll adjs nouns t (fixAll adjs nouns t h nodes) nodes).node = (fixAll adjs nouns t h nodes).node := by
    funext r
    rw [h4]
    by_cases hr : r ∈ nodes
    swap
    · rw [if_neg hr]
    rw [if_pos hr]
    have hself : (fixAll adjs nouns t h nodes).node r = { h.node r with tag := fixTag adjs nouns h t r } := by
      rw [h2, if_pos hr]
    have htag : fixTag adjs nouns (fixAll adjs nouns t h nodes) t r = fixTag adjs nouns h t r := by
      by_cases hc : t.children r = []
      swap
      · rw [fixTag_of_children _ _ _ hc, hself]
      have hpar : ∀ d p, t.parent r = some (d, p) → ((fixAll adjs nouns t h nodes).node p).tag = (h.node p).tag := by
        intro d p hp
        have inv := buildTree_inv hb
        have : t.children p ≠ [] := by
          rw [inv.parent] at hp
          exact List.ne_nil_of_mem ((inv.mem_children _ _ _).mpr (lastParent_mem hp))
        rw [h2]
        by_cases hm : p ∈ nodes
        · rw [if_pos hm]; exact fixTag_of_children _ _ _ this
        · rw [if_neg hm]
      have hlem : ((fixAll adjs nouns t h nodes).node r).lem = (h.node r).lem := by rw [hself]
      have ht2 : ((fixAll adjs nouns t h nodes).node r).tag = fixTag adjs nouns h t r := by rw [hself]
      have hunf : ∀ hh : Heap, fixTag adjs nouns hh t r =
          match t.parent r with
          | none => (hh.node r).tag
          | some (dep, p) =>
            if (dep = .CPL ∧ (hh.node p).tag ∈ nounTags) ∨ dep ∈ propDeps then
              if (hh.node r).lem ∈ adjs ∧ (hh.node r).tag ∈ nounTags then .ADJ
              else if (hh.node r).lem ∈ nouns ∧ (hh.node r).tag = .ADJ then .NOUN
              else (hh.node r).tag
            else (hh.node r).tag := by
        intro hh
        unfold fixTag
        simp only [hc, if_true]
        cases t.parent r <;> rfl
      rw [hunf, hlem, ht2, hunf h]
      cases hp : t.parent r with
      | none => rfl
      | some q =>
        obtain ⟨d, p⟩ := q
        simp only [hpar d p hp]
        by_cases hC : (d = .CPL ∧ (h.node p).tag ∈ nounTags ∨ d ∈ propDeps)
        · simp only [hC, if_true]
          have e1 : Tag.ADJ ∉ nounTags := by decide
          have hd := hdis (h.node r).lem
          by_cases a1 : (h.node r).tag ∈ nounTags <;> by_cases a2 : (h.node r).lem ∈ adjs <;>
            by_cases a3 : (h.node r).lem ∈ nouns <;> by_cases a4 : (h.node r).tag = .ADJ <;>
            simp_all
        · simp only [hC, if_false]
    rw [htag, hself]
  exact heap_ext h3 (fun r => congrFun hnode r)

/-- C55: with a word in both lexicons fixing is not idempotent: "light" flips from noun to adjective and back. -/
theorem C55_fix_flips : ∃ t, buildTree (0 : Ref) [(Dep.CPL, 0, 1)] = .ok t ∧
    let h := nounHeap [c!"switch", c!"light"]
    let fix := fun h => fixAll [c!"light"] [c!"light"] t h [0, 1]
    ((fix h).node 1).tag = .ADJ ∧ ((fix (fix h)).node 1).tag = .NOUN := by
  refine ⟨_, rfl, ?_⟩
  decide +kernel

end Props
