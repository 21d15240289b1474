import Verif.Lemmas.FunctionWords
import Verif.Props.SameTuples

/-! C100: negations and other function words. -/

namespace Props
open Py Model Spec

variable {W : Type} {nets : Networks W} {c : Logic}

/-- **C100.** Relabel function words among ART, AUX, NEG, INTJ and MODAL in any tree: the nodes and the tuples of the
sentence stay, in the same order and with the same words and codes, and only polarities can change. When the process
raises, it raises the same. -/
theorem C100_only_polarity (root : Nat) (arcs arcs' : List (Dep × Nat × Nat)) (H : List.Forall₂ Akin arcs arcs')
    (h1 : OneLabel arcs) (h2 : OneLabel arcs') (t : Tree Dep Nat) (hb : buildTree root arcs = .ok t) :
    ∃ t', buildTree root arcs' = .ok t' ∧ ∀ (c : Logic) (tokens : List Str) (tags : List Tag) (chunk : Bool),
      UpToPolarity (c.process (tokens, tags, some t, chunk)) (c.process (tokens, tags, some t', chunk)) := by
  have A := akinArcs_of H
  obtain ⟨t', hb'⟩ := buildTree_total root arcs' fun a ha => by
    obtain ⟨b, h3, h4⟩ := List.mem_map.mp (A.ends.mem_iff.mpr (List.mem_map_of_mem (f := Prod.snd) ha))
    rw [← h4]
    exact (buildTree_inv hb).ne b h3
  exact ⟨t', hb', fun c tokens tags chunk => process_akin hb hb' A h1 h2 c tokens tags chunk⟩

/-- **C100.** In particular for every tree of the parser. -/
theorem C100_parsed {S : Type} {vectorize : S → Except PyErr (Nat × W)} {sentences : List S} {tags : List (List Tag)}
    {trees : List (Option (Tree Dep Nat))} (h : Returned nets vectorize sentences tags trees) (i : Nat) (t : Tree Dep Nat)
    (ht : trees[i]? = some (some t)) : ∃ arcs, buildTree t.root arcs = .ok t ∧
      (∀ l p k, (l, p, k) ∈ arcs ↔ (l, k) ∈ t.children p) ∧
      ∀ arcs', List.Forall₂ Akin arcs arcs' → OneLabel arcs' → ∃ t', buildTree t.root arcs' = .ok t' ∧
        ∀ (c : Logic) (tokens : List Str) (tg : List Tag) (chunk : Bool),
          UpToPolarity (c.process (tokens, tg, some t, chunk)) (c.process (tokens, tg, some t', chunk)) := by
  obtain ⟨deps, dead, stack, arcs, tg, -, -, hc, hb⟩ := h.tree ht
  obtain ⟨r, hr, hbt⟩ := buildParseTree_some hb
  have inv := buildTree_inv hbt
  have hroot := inv.root_eq
  subst hroot
  refine ⟨arcs, hbt, fun l p k => (inv.mem_children _ _ _).symm, fun arcs' H h2 => ?_⟩
  refine C100_only_polarity _ arcs arcs' H ?_ h2 t hbt
  intro l l' p k h3 h4
  obtain ⟨d, e1, e2⟩ := hc.label _ h3
  obtain ⟨d', e1', e2'⟩ := hc.label _ h4
  simp only at e1 e1' e2 e2'
  rw [e1] at e1'
  cases e1'
  rw [e2, e2']

/-- **C100.** Without a negation in the tree everything said is affirmative, and tuples read the same with and without
decorators. -/
theorem C100_affirmative (tokens : List Str) (tags : List Tag) (t : Tree Dep Nat) (chunk : Bool)
    (hn : ∀ p k, (Dep.NEG, k) ∉ t.children p) (st : Heap × Dict Nat Ref) (ts : List STuple)
    (hp : c.process (tokens, tags, some t, chunk) = .ok (st, ts)) :
    ∀ x ∈ ts, (∀ a ∈ x.args, a.isAff = true) ∧ x.flatten true = x.flatten false := by
  obtain ⟨h, d⟩ := st
  obtain ⟨hall, he⟩ := process_allAff hn hp
  intro x hx
  have key : ∀ a ∈ x.args, a.isAff = true := by
    intro a ha
    obtain ⟨i, hi⟩ := List.mem_iff_getElem?.mp ha
    by_cases h1 : i = 1
    · subst h1
      obtain ⟨b, hb, hpar⟩ := polarity_of_nodes he x hx
      rw [hi] at hb
      cases hb
      have hcount : ∀ l : List Bool, (∀ b ∈ l, b = true) → affirmed l = true := by
        intro l hl
        have : l.count false = 0 := by
          rw [List.count_eq_zero]
          intro hm
          exact absurd (hl false hm) (by simp)
        simp [affirmed, this]
      rcases hpar with ⟨parts, -, e⟩ | ⟨v, o, -, -, hs, e⟩
      · rw [e]
        apply hcount
        intro b hb
        obtain ⟨r, -, rfl⟩ := List.mem_map.mp hb
        exact hall r
      · rw [e]
        apply hcount
        intro b hb
        simp only [List.mem_cons, List.not_mem_nil, or_false] at hb
        rcases hb with rfl | rfl | rfl
        · rw [decide_eq_true_eq]
          obtain ⟨s, hs'⟩ := List.exists_mem_of_ne_nil _ hs
          exact ⟨s, hs', hall s⟩
        · exact hall v
        · exact hall o
    · exact C58_only_second_negative he x hx i a hi h1
  refine ⟨key, ?_⟩
  unfold STuple.flatten
  congr 3
  apply List.map_congr_left
  intro a ha
  simp [Argument.flatten, key a ha]

/-- "No foxes bake formats", with "no" as a negation and as an article. -/
example : List.Forall₂ Akin [(Dep.NEG, 1, 0), (.SUBJ, 2, 1), (.OBJ, 2, 3)] [(Dep.ART, 1, 0), (.SUBJ, 2, 1), (.OBJ, 2, 3)] ∧
    OneLabel [(Dep.NEG, 1, 0), (.SUBJ, 2, 1), (.OBJ, 2, 3)] ∧ OneLabel [(Dep.ART, 1, 0), (.SUBJ, 2, 1), (.OBJ, 2, 3)] ∧
    arcTuples [c!"No", c!"foxes", c!"bake", c!"formats"] [.DET, .NOUN, .VERB, .NOUN] 2
      [(.NEG, 1, 0), (.SUBJ, 2, 1), (.OBJ, 2, 3)] =
      .ok [c!"NTN(fox, NOT bake, format)", c!"NCL(format, NOT be, baked)"] ∧
    arcTuples [c!"No", c!"foxes", c!"bake", c!"formats"] [.DET, .NOUN, .VERB, .NOUN] 2
      [(.ART, 1, 0), (.SUBJ, 2, 1), (.OBJ, 2, 3)] = .ok [c!"NTN(fox, bake, format)", c!"NCL(format, be, baked)"] := by
  refine ⟨by simp [Akin, quietDeps], ?_, ?_, by decide +kernel, by decide +kernel⟩
  · intro l l' p k h h'
    simp at h h'
    rcases h with ⟨rfl, rfl, rfl⟩ | ⟨rfl, rfl, rfl⟩ | ⟨rfl, rfl, rfl⟩ <;> simpa [eq_comm (a := l')] using h'
  · intro l l' p k h h'
    simp at h h'
    rcases h with ⟨rfl, rfl, rfl⟩ | ⟨rfl, rfl, rfl⟩ | ⟨rfl, rfl, rfl⟩ <;> simpa [eq_comm (a := l')] using h'

/-- **C100** (what leaving out the word changes). "Foxes bake, not format, formats": with the negation the second verb
has no object, and without it has the one of the first verb, so a negation word is not only about polarity. -/
theorem C100_left_out : ∃ (tokens : List Str) (tags : List Tag) (root : Nat) (arcs : List (Dep × Nat × Nat)),
    arcTuples tokens tags root arcs =
      .ok [c!"NTN(fox, bake, format)", c!"NI(fox, NOT format)", c!"NCL(format, be, baked)"] ∧
    arcTuples tokens tags root (arcs.filter fun a => a.1 ≠ .NEG) =
      .ok [c!"NTN(fox, bake, format)", c!"NTN(fox, format, format)", c!"NCL(format, be, baked)",
        c!"NCL(format, be, formated)"] :=
  ⟨[c!"Foxes", c!"bake", c!"not", c!"format", c!"formats"], [.NOUN, .VERB, .ADV, .VERB, .NOUN], 1,
    [(.SUBJ, 1, 0), (.NEG, 3, 2), (.AND, 1, 3), (.OBJ, 1, 4)], by decide +kernel, by decide +kernel⟩

end Props
