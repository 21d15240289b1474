import Verif.Props.Flats

/-! C78 for flat expressions. -/

namespace Props
open Py Model Spec

section
variable {S W : Type} {nets : Networks W} {vectorize : S → Except PyErr (Nat × W)} {sentences : List S}
  {tags : List (List Tag)} {trees : List (Option (Tree Dep Nat))}

/-- C78, in part: the tokens `i`, …, `i + n` of a flat expression, in which each further token is attached to the one before and
that is attached by no functional label, have one node, whose text is made of their texts in order. Full claim: every token of
the parse attached by no functional label has its text in some node; false, see `C78_words_kept_false`. -/
theorem C78_flat_partial (h : Returned nets vectorize sentences tags trees) (i : Nat) (t : Tree Dep Nat)
    (ht : trees[i]? = some (some t)) (tg : List Tag) (hg : tags[i]? = some tg) (lower : Str → Str) (tokens : List Str)
    (hl : tokens.length = tg.length) (heap : Heap) (dict : Dict Nat Ref) (nt : Tree Dep Ref)
    (hn : nodify lower tokens tg (some t) = .ok (heap, dict, some nt)) (w n : Nat) (R : FlatRun t w n) (hw : n ≠ 0)
    (hup : ∀ d p, (d, w) ∈ t.children p → d ∉ functional) :
    ∃ r, (w + n, r) ∈ dict ∧ (heap.node r).idx = w + n ∧
      (heap.node r).original = List.intercalate c!" " ((tokens.drop w).take (n + 1)) := by
  have hlab := fun {w p p' : Nat} {d d' : Dep} => arc_label (w := w) (p := p) (p' := p') (d := d) (d' := d') h ht
  obtain ⟨arcs, H, h1, h2⟩ := h.idxTree ht hg
  rw [← hl] at H
  obtain ⟨s, nt', dict', ⟨e, inv, hall, hbl, -, hb, -, hd⟩, hpart, hflat⟩ := nodify_runs (lower := lower) H hl.symm h1 h2
  rw [hn] at e
  cases e
  have hc : (Dep.FLAT, w + 1) ∈ t.children w := (R.next w (by omega) (by omega) _).mpr rfl
  have harc := (H.inv.mem_children _ _ _).mp hc
  have hlt : w < tokens.length := (H.lt _ harc).1
  have hk : w ∈ s.dict.keys := by
    rcases hall w hlt with hb | hb
    · rcases inv.blOk w hb with e | ⟨p, e⟩ | ⟨p, e⟩ | ⟨_, e⟩
      · exact absurd ⟨_, harc, Or.inl rfl⟩ e
      · rw [H.inv.parent] at e
        exact absurd rfl (R.top _ _ ((H.inv.mem_children _ _ _).mpr (lastParent_mem e))).1
      · exact absurd rfl (R.top _ _ ((H.inv.mem_children _ _ _).mpr e)).2
      · exact e
    · exact hb
  obtain ⟨r, hr⟩ := Option.isSome_iff_exists.mp ((Dict.get?_isSome_iff _ _).mpr hk)
  have hm := Py.Dict.mem_of_get? hr
  obtain ⟨a1, a2, -⟩ := (flatRun_entry H hlab inv hflat R hw).1 r hm
  refine ⟨r, (hd _ _).mpr ⟨⟨_, hm⟩, a1, ?_⟩, a1, a2⟩
  rw [Bool.eq_false_iff]
  intro hf
  unfold Tree.hasParentViaSet at hf
  split at hf
  · rename_i q hq
    have hq' : nt.parent r = some q := hq
    rw [(buildTree_inv hb).parent] at hq'
    obtain ⟨k, k', h3, h4, h5⟩ := (mem_nodeArcs inv.wf).mp (lastParent_mem (p := q.2) (l := q.1) hq')
    have := inv.key_unique h4 hm
    subst this
    exact hup _ _ h5 (of_decide_eq_true hf : q.1 ∈ functionalDeps)
  · cases hf

end

/-- "New York City baked foxes": tokens 0 to 2 are one node. -/
example {heap : Heap} {dict : Dict Nat Ref} {nt : Tree Dep Ref}
    (hn : nodify demoLogic.lower city.tokens city.tags (some city.tree) = .ok (heap, dict, some nt)) :
    ∃ r, (2, r) ∈ dict ∧ (heap.node r).idx = 2 ∧ (heap.node r).original = c!"New York City" := by
  obtain ⟨-, -, ⟨W, S, nets, vectorize, sentences, tags, trees, i, hr, ht, hg⟩, -⟩ := Demo.reported (ck := true) city_parsed
  exact C78_flat_partial hr i _ ht _ hg _ _ (by decide) _ _ _ hn 0 2 (city_oneWord.run 0 (by decide)) (by decide) fun d p hx => by
    rw [Demo.mem city_parsed] at hx
    have : ∀ a ∈ city.arcs, a.2.2 = 0 → a.1 ∉ functional := by decide
    exact this _ hx rfl

example : nodeTexts (nodify demoLogic.lower city.tokens city.tags (some city.tree)) =
    .ok [(2, c!"New York City", []), (3, c!"baked", []), (4, c!"foxes", [])] := by
  decide +kernel

end Props
