import Verif.Lemmas.Nodifier
import Verif.Props.Parser
import Verif.Props.Tree

/-! Properties of nodification (C52, C53, C77-C79). -/

namespace Props
open Py Model Spec

section
variable {S W : Type} {nets : Networks W} {vectorize : S → Except PyErr (Nat × W)} {sentences : List S}
  {tags : List (List Tag)} {trees : List (Option (Tree Dep Nat))}

/-- A tree of the parser, as nodification needs it. -/
theorem Returned.idxTree (h : Returned nets vectorize sentences tags trees) {i : Nat} {t : Tree Dep Nat}
    (ht : trees[i]? = some (some t)) {tg : List Tag} (hg : tags[i]? = some tg) :
    ∃ arcs, IdxTree t tg.length arcs ∧ (∀ a ∈ arcs, a.2.2 ≠ t.root) ∧ (∃ a ∈ arcs, a.2.1 = t.root) := by
  obtain ⟨deps, dead, stack, arcs, tg', h1, h2, hc, hb⟩ := h.tree ht
  rw [hg] at h1; cases h1
  obtain ⟨r, hr, hbt⟩ := buildParseTree_some hb
  have inv := buildTree_inv hbt
  have hroot := inv.root_eq
  obtain ⟨hnp, hch, _⟩ := (rootOf_spec arcs hc.acyclic).2 r hr
  refine ⟨arcs, ⟨hroot ▸ inv, ?_, hc.acyclic, fun i => (C06_tree_queries t.root arcs t (hroot ▸ hbt) i .ROOT []).2.2.2.2.2⟩,
    hroot ▸ hnp, hroot ▸ hch⟩
  obtain ⟨tg', h3, _, _, h4⟩ := C44_parse_well_formed nets vectorize sentences tags trees h i t ht
  rw [hg] at h3; cases h3
  intro a ha
  have := h4 a.1 a.2.1 a.2.2 ((inv.mem_children _ _ _).mpr ha)
  exact ⟨this.1, this.2.1⟩

/-- C52: nodification of any parse, with any tokens of the same number as the tags, raises nothing; a sentence
without parse gives no nodes; else the root of the node tree is one of the returned nodes and has no parent. -/
theorem C52_nodifier_total (h : Returned nets vectorize sentences tags trees) (i : Nat) (o : Option (Tree Dep Nat))
    (ht : trees[i]? = some o) (tg : List Tag) (hg : tags[i]? = some tg) (lower : Str → Str) (tokens : List Str)
    (hl : tokens.length = tg.length) :
    ∃ heap dict nt, nodify lower tokens tg o = .ok (heap, dict, nt) ∧ (o = none → dict = [] ∧ nt = none) ∧
      ∀ t, o = some t → ∃ nt', nt = some nt' ∧ (∃ k, (k, nt'.root) ∈ dict) ∧ nt'.parent nt'.root = none := by
  cases o with
  | none => exact ⟨_, _, _, rfl, fun _ => ⟨rfl, rfl⟩, by simp⟩
  | some t =>
    obtain ⟨arcs, H, h1, h2⟩ := h.idxTree ht hg
    rw [← hl] at H
    obtain ⟨s, nt, dict, e, inv, _, _, hr, hb, _, hd⟩ := nodify_spec (lower := lower) H hl.symm h1 h2
    refine ⟨_, _, _, e, by simp, ?_⟩
    rintro t' -
    have hpar : nt.parent nt.root = none := by
      rw [(buildTree_inv hb).parent, lastParent_eq_none]
      rintro ⟨d, r, r'⟩ ha e'
      simp only at e'
      subst e'
      obtain ⟨k, k', _, h4, h5⟩ := (mem_nodeArcs inv.wf).mp ha
      have := inv.key_unique h4 hr
      subst this
      exact absurd rfl (h1 _ ((H.inv.mem_children _ _ _).mp h5))
    refine ⟨nt, rfl, ⟨_, (hd _ _).mpr ⟨⟨_, hr⟩, rfl, ?_⟩⟩, hpar⟩
    unfold Tree.parent at hpar
    simp [Tree.hasParentViaSet, hpar]

/-- C53: the dictionary returned by nodification has each index at most once, gives each index to a different node,
and each key is the index of its node, a token of the sentence; the node has the tag of this token, and the node
tree does not attach it by a functional label. -/
theorem C53_node_indexes (h : Returned nets vectorize sentences tags trees) (i : Nat) (t : Tree Dep Nat)
    (ht : trees[i]? = some (some t)) (tg : List Tag) (hg : tags[i]? = some tg) (lower : Str → Str) (tokens : List Str)
    (hl : tokens.length = tg.length) (heap : Heap) (dict : Dict Nat Ref) (nt : Option (Tree Dep Ref))
    (hn : nodify lower tokens tg (some t) = .ok (heap, dict, nt)) :
    dict.keys.Nodup ∧ dict.values.Nodup ∧ ∃ nt', nt = some nt' ∧
      ∀ k r, (k, r) ∈ dict → (heap.node r).idx = k ∧ k < tokens.length ∧ tg[k]? = some (heap.node r).tag ∧
        ∀ d p, nt'.parent r = some (d, p) → d ∉ functional := by
  obtain ⟨arcs, H, h1, h2⟩ := h.idxTree ht hg
  rw [← hl] at H
  obtain ⟨s, nt', dict', e, inv, _, _, hr, hb, hw, hd⟩ := nodify_spec (lower := lower) H hl.symm h1 h2
  rw [hn] at e
  cases e
  refine ⟨hw, ?_, nt', rfl, ?_⟩
  · rw [Dict.values]
    refine List.Nodup.map_on ?_ (List.Nodup.of_map Prod.fst hw)
    rintro ⟨k, r⟩ h3 ⟨k', r'⟩ h4 e
    simp only at e
    subst e
    obtain ⟨_, rfl, _⟩ := (hd _ _).mp h3
    obtain ⟨_, rfl, _⟩ := (hd _ _).mp h4
    rfl
  · intro k r hkr
    obtain ⟨⟨key, h3⟩, h4, h5⟩ := (hd _ _).mp hkr
    have he := (inv.ent key r h3).tag
    rw [h4] at he
    refine ⟨h4, ?_, he, ?_⟩
    · rw [hl]; exact (List.getElem?_eq_some_iff.mp he).1
    · intro d p hp
      unfold Tree.parent at hp
      simp only [Tree.hasParentViaSet, hp, decide_eq_false_iff_not] at h5
      exact h5

/-- C53: each index is that of a token of the parse; tokens that the parse leaves out have no node. -/
theorem C53_node_in_parse (h : Returned nets vectorize sentences tags trees) (i : Nat) (t : Tree Dep Nat)
    (ht : trees[i]? = some (some t)) (tg : List Tag) (hg : tags[i]? = some tg) (lower : Str → Str) (tokens : List Str)
    (hl : tokens.length = tg.length) (heap : Heap) (dict : Dict Nat Ref) (nt : Option (Tree Dep Ref))
    (hn : nodify lower tokens tg (some t) = .ok (heap, dict, nt)) :
    ∀ k ∈ dict.keys, (∃ d c, (d, c) ∈ t.children k) ∨ ∃ d p, (d, k) ∈ t.children p := by
  obtain ⟨arcs, H, h1, h2⟩ := h.idxTree ht hg
  rw [← hl] at H
  obtain ⟨s, nt', dict', e, inv, _, hbl, _, _, _, hd⟩ := nodify_spec (lower := lower) H hl.symm h1 h2
  rw [hn] at e
  cases e
  intro k hk
  obtain ⟨⟨_, r⟩, hm, rfl⟩ := List.mem_map.mp hk
  obtain ⟨⟨key, h3⟩, h4, -⟩ := (hd _ _).mp hm
  have he := inv.ent key r h3
  simp only at h4 ⊢
  rcases he.kind with ⟨a1, a2, -⟩ | ⟨-, -, -, -, up, -, a3, -⟩
  · rw [← h4, a1]
    rcases a2 with a2 | a2
    · obtain ⟨⟨d, c⟩, hc⟩ := List.exists_mem_of_ne_nil _ a2
      exact .inl ⟨d, c, hc⟩
    · have hlt : key < tokens.length := by
        have := he.tag
        rw [a1] at this
        have := (List.getElem?_eq_some_iff.mp this).1
        omega
      have hh : t.hasNode key = true := by
        by_contra hh
        exact a2 (hbl key hlt (by simpa using hh))
      obtain ⟨⟨d, p, c⟩, ha, hpc⟩ := (H.hasNode key).mp hh
      rcases hpc with rfl | rfl
      · exact .inl ⟨d, c, (H.inv.mem_children _ _ _).mpr ha⟩
      · exact .inr ⟨d, p, (H.inv.mem_children _ _ _).mpr ha⟩
  · obtain ⟨q, hq⟩ := upChain_step a3 (by simp)
    rw [H.inv.parent] at hq
    rw [← h4]
    exact .inr ⟨_, q, (H.inv.mem_children _ _ _).mpr (lastParent_mem hq)⟩

/-- C77: each node of the parse stands for one position of the parse tree, different for each node, and is either the
node of this token alone (with its text, particles and "to"), or the node of a flat expression ending there; the arcs
of the node tree are exactly the arcs of the parse between those positions. -/
theorem C77_node_contents (h : Returned nets vectorize sentences tags trees) (i : Nat) (t : Tree Dep Nat)
    (ht : trees[i]? = some (some t)) (tg : List Tag) (hg : tags[i]? = some tg) (lower : Str → Str) (tokens : List Str)
    (hl : tokens.length = tg.length) (heap : Heap) (dict : Dict Nat Ref) (nt : Tree Dep Ref)
    (hn : nodify lower tokens tg (some t) = .ok (heap, dict, some nt)) :
    ∃ pos : Dict Nat Ref, pos.keys.Nodup ∧ pos.values.Nodup ∧ (∀ r ∈ dict.values, r ∈ pos.values) ∧
      (t.root, nt.root) ∈ pos ∧
      (∀ key r, (key, r) ∈ pos → (SimpleNode lower tokens t key (heap.node r) ∨ FlatNode tokens t key (heap.node r)) ∧
        (heap.node r).standard = lower (heap.node r).original ∧ Blank (heap.node r)) ∧
      ∀ d r r', (d, r') ∈ nt.children r ↔
        ∃ k k', (k, r) ∈ pos ∧ (k', r') ∈ pos ∧ (d, k') ∈ t.children k := by
  obtain ⟨arcs, H, h1, h2⟩ := h.idxTree ht hg
  rw [← hl] at H
  obtain ⟨s, nt', dict', e, inv, _, _, hr, hb, hw, hd⟩ := nodify_spec (lower := lower) H hl.symm h1 h2
  rw [hn] at e
  cases e
  refine ⟨s.dict, inv.wf, inv.vals, ?_, hr, ?_, ?_⟩
  · intro r hm
    obtain ⟨⟨k, r'⟩, h3, rfl⟩ := List.mem_map.mp hm
    obtain ⟨⟨key, h4⟩, _⟩ := (hd _ _).mp h3
    exact mem_values h4
  · intro key r hkr
    have he := inv.ent key r hkr
    refine ⟨?_, he.names, he.blank⟩
    rcases he.kind with ⟨a1, _, a3, a4, a5⟩ | ⟨_, a2, a3, a4, a5⟩
    · exact Or.inl ⟨a1, a3, a4, a5⟩
    · exact Or.inr ⟨a2, ⟨a3, a4⟩, a5⟩
  · intro d r r'
    rw [(buildTree_inv hb).mem_children, mem_nodeArcs inv.wf]

/-- C79: the node tree of a parse has no cycle. -/
theorem C79_node_tree_acyclic (h : Returned nets vectorize sentences tags trees) (i : Nat) (t : Tree Dep Nat)
    (ht : trees[i]? = some (some t)) (tg : List Tag) (hg : tags[i]? = some tg) (lower : Str → Str) (tokens : List Str)
    (hl : tokens.length = tg.length) (heap : Heap) (dict : Dict Nat Ref) (nt : Tree Dep Ref)
    (hn : nodify lower tokens tg (some t) = .ok (heap, dict, some nt)) :
    Acyclic fun p c => ∃ l, (l, c) ∈ nt.children p := by
  obtain ⟨pos, hk, hv, _, _, _, harc⟩ := C77_node_contents h i t ht tg hg lower tokens hl heap dict nt hn
  have hac := C42_parse_acyclic nets vectorize sentences tags trees h t (List.mem_of_getElem? ht)
  have key : ∀ r r', Relation.TransGen (fun p c => ∃ l, (l, c) ∈ nt.children p) r r' →
      ∃ k k', (k, r) ∈ pos ∧ (k', r') ∈ pos ∧ Relation.TransGen (fun p c => ∃ l, (l, c) ∈ t.children p) k k' := by
    intro r r' hr
    induction hr with
    | single hx =>
      obtain ⟨d, hx⟩ := hx
      obtain ⟨k, k', h1, h2, h3⟩ := (harc _ _ _).mp hx
      exact ⟨k, k', h1, h2, .single ⟨d, h3⟩⟩
    | tail _ hx ih =>
      obtain ⟨d, hx⟩ := hx
      obtain ⟨k, k', h1, h2, h3⟩ := ih
      obtain ⟨k₁, k₂, h4, h5, h6⟩ := (harc _ _ _).mp hx
      have : k' = k₁ := congrArg Prod.fst (List.inj_on_of_nodup_map hv h2 h4 rfl)
      subst this
      exact ⟨k, k₂, h1, h5, h3.tail ⟨d, h6⟩⟩
  intro r hr
  obtain ⟨k, k', h1, h2, h3⟩ := key r r hr
  have : k = k' := congrArg Prod.fst (List.inj_on_of_nodup_map hv h1 h2 rfl)
  subst this
  exact hac k h3

/-- C78, in part: a token of the parse that is not attached by `FLAT` or a functional label, and has no `FLAT` child,
has its own node in the dictionary. Full claim: every token of the parse attached by no functional label has its text
in some node; false, see below. -/
theorem C78_words_kept_partial (h : Returned nets vectorize sentences tags trees) (i : Nat) (t : Tree Dep Nat)
    (ht : trees[i]? = some (some t)) (tg : List Tag) (hg : tags[i]? = some tg) (lower : Str → Str) (tokens : List Str)
    (hl : tokens.length = tg.length) (heap : Heap) (dict : Dict Nat Ref) (nt : Tree Dep Ref)
    (hn : nodify lower tokens tg (some t) = .ok (heap, dict, some nt)) (w : Nat)
    (hw : (∃ d c, (d, c) ∈ t.children w) ∨ ∃ d p, (d, w) ∈ t.children p)
    (hup : ∀ d p, (d, w) ∈ t.children p → d ≠ .FLAT ∧ d ∉ functional)
    (hdown : ∀ c, (.FLAT, c) ∉ t.children w) :
    ∃ r, (w, r) ∈ dict ∧ SimpleNode lower tokens t w (heap.node r) := by
  obtain ⟨arcs, H, h1, h2⟩ := h.idxTree ht hg
  rw [← hl] at H
  obtain ⟨s, nt', dict', e, inv, hall, _, hr, hb, _, hd⟩ := nodify_spec (lower := lower) H hl.symm h1 h2
  rw [hn] at e
  cases e
  have harc : ∃ a ∈ arcs, a.2.1 = w ∨ a.2.2 = w := by
    rcases hw with ⟨d, c, hc⟩ | ⟨d, p, hc⟩
    · exact ⟨_, (H.inv.mem_children _ _ _).mp hc, Or.inl rfl⟩
    · exact ⟨_, (H.inv.mem_children _ _ _).mp hc, Or.inr rfl⟩
  have hlt : w < tokens.length := by
    obtain ⟨a, ha, rfl | rfl⟩ := harc
    · exact (H.lt a ha).1
    · exact (H.lt a ha).2
  have hk : w ∈ s.dict.keys := by
    rcases hall w hlt with hb | hb
    · rcases inv.blOk w hb with e | ⟨p, e⟩ | ⟨p, e⟩ | ⟨_, e⟩
      · exact absurd harc e
      · rw [H.inv.parent] at e
        exact absurd rfl (hup _ _ ((H.inv.mem_children _ _ _).mpr (lastParent_mem e))).1
      · exact absurd (by simp [functional]) (hup _ _ ((H.inv.mem_children _ _ _).mpr e)).2
      · exact e
    · exact hb
  obtain ⟨r, hr'⟩ := Option.isSome_iff_exists.mp ((Dict.get?_isSome_iff _ _).mpr hk)
  have hm := Dict.mem_of_get? hr'
  have he := inv.ent w r hm
  have hs : SimpleNode lower tokens t w (s.heap.node r) := by
    rcases he.kind with ⟨a1, _, a3, a4, a5⟩ | ⟨_, _, _, _, up, _, a5, _⟩
    · exact ⟨a1, a3, a4, a5⟩
    · exfalso
      obtain ⟨z, hz⟩ := upChain_mem a5 w (by simp)
      rw [H.inv.parent] at hz
      exact hdown z ((H.inv.mem_children _ _ _).mpr (lastParent_mem hz))
  refine ⟨r, (hd _ _).mpr ⟨⟨_, hm⟩, hs.idx, ?_⟩, hs⟩
  rw [Bool.eq_false_iff]
  intro hf
  unfold Tree.hasParentViaSet at hf
  split at hf
  · rename_i q hq
    have hq' : nt.parent r = some q := hq
    rw [(buildTree_inv hb).parent] at hq'
    obtain ⟨k, k', h3, h4, h5⟩ := (mem_nodeArcs inv.wf).mp (lastParent_mem (p := q.2) (l := q.1) hq')
    have := inv.key_unique h4 hm
    subst this
    exact (hup _ _ h5).2 (of_decide_eq_true hf : q.1 ∈ functionalDeps)
  · cases hf

end

/-- The parse of "the bank of New York City set up", with words 3, 4 and 5 in a chain of flat arcs. -/
def sampleArcs : List Arc :=
  [(.ART, 1, 0), (.MARK, 3, 2), (.FLAT, 3, 4), (.FLAT, 4, 5), (.CPL, 1, 3), (.SUBJ, 6, 1), (.PART, 6, 7)]

def sampleTokens : List Str := [c!"the", c!"bank", c!"of", c!"New", c!"York", c!"City", c!"set", c!"up"]

/-- Texts, indexes and particles of the returned nodes. -/
def nodeTexts (r : Except PyErr (Heap × Dict Nat Ref × Option (Tree Dep Ref))) :
    Except PyErr (List (Nat × Str × List Str)) :=
  r.map fun x => x.2.1.map fun p => (p.1, (x.1.node p.2).original, (x.1.node p.2).particles)

example : (buildParseTree sampleArcs).toOption.join.isSome = true ∧
    nodeTexts ((buildParseTree sampleArcs).bind (nodify id sampleTokens (List.replicate 8 .NOUN))) =
      .ok [(5, c!"New York City", []), (6, c!"set", [c!"up"]), (1, c!"bank", [])] := by
  decide +kernel

/-- C78 does not hold in general: with two flat words below the same word, the first is lost. -/
theorem C78_words_kept_false :
    nodeTexts ((buildParseTree [(.FLAT, 0, 1), (.FLAT, 0, 2)]).bind
      (nodify id [c!"John", c!"Paul", c!"Smith"] [.PROPN, .PROPN, .PROPN])) =
      .ok [(2, c!"John Smith", [])] := by
  decide +kernel

/-- C78 does not hold in general: a flat expression with a particle loses all words but its first. -/
theorem C78_words_kept_particle_false :
    nodeTexts ((buildParseTree [(.FLAT, 0, 1), (.PART, 0, 2)]).bind
      (nodify id [c!"kick", c!"start", c!"up"] [.VERB, .VERB, .PREP])) =
      .ok [(0, c!"kick", [c!"up"])] := by
  decide +kernel

end Props
