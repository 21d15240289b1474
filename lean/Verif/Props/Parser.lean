import Verif.Lemmas.ParserCall

/-! Properties C41 - C46: the transition-based parser. -/

namespace Props
open Py Model Spec

variable {X W S : Type}

/-- Predicted dependencies used by the examples: token 0 is a subject, token 2 the root, token 3 an object and token 4
carries no dependency. -/
def demoDeps : List Nat := [0, Dep.SUBJ.code, Dep.AUX.code, Dep.ROOT.code, Dep.OBJ.code, Dep.NODEP.code, 0]
def demoTags : List Nat := [0, Tag.NOUN.code, Tag.VERB.code, Tag.VERB.code, Tag.NOUN.code, Tag.PUNCT.code, 0]

/-- C41: from any predicted codes for `n` tokens, any sequence of transitions is registered without error, and `2n` of
them always complete the parse. -/
theorem C41_parse_terminates (mats : X) (n : Nat) (tagCodes depCodes : List Nat)
    (ht : ∀ c ∈ tagCodes, c < 17) (hd : ∀ c ∈ depCodes, c < 25) (hlt : n + 1 ≤ tagCodes.length)
    (hld : n + 1 ≤ depCodes.length) :
    ∃ p₀, Parse.new mats (n + 2) tagCodes depCodes = .ok p₀ ∧ ∀ ts : List Trans,
      ∃ p, runTrans p₀ ts = .ok p ∧ (2 * n ≤ ts.length → p.complete = true) := by
  obtain ⟨tags, deps, h1, _, h3, _⟩ := Parse.new_ok mats n tagCodes depCodes ht hd hld hlt
  refine ⟨_, h1, ?_⟩
  intro ts
  obtain ⟨p, g1, _⟩ := runTrans_inv (freshParse_inv mats tags deps) ts
  refine ⟨p, g1, ?_⟩
  intro hl
  exact runTrans_complete (freshParse_inv mats tags deps) ts p g1
    (le_trans (freshParse_work mats tags deps) (by rw [h3]; exact hl))

example : ((Parse.new () 7 demoTags demoDeps).bind fun p => runTrans p [.SHIFT, .LEFT, .LEFT, .RIGHT]).map
    (fun p => (p.arcs, p.complete)) = .ok ([(.AUX, 2, 1), (.SUBJ, 2, 0), (.OBJ, 2, 3)], true) := by decide +kernel

/-- All sentences can be vectorised. -/
theorem exists_vecs {vectorize : S → Except PyErr (Nat × W)} {sentences : List S}
    (hv : ∀ s ∈ sentences, ∃ n w, n ≤ maxSentLength ∧ vectorize s = .ok (n + 2, w)) :
    ∃ vecs, sentences.mapM vectorize = .ok vecs ∧ ∀ v ∈ vecs, ∃ n, n ≤ maxSentLength ∧ v.1 = n + 2 := by
  induction sentences with
  | nil => exact ⟨[], rfl, by simp⟩
  | cons s ss ih =>
    obtain ⟨vecs, h1, h2⟩ := ih fun s hs => hv s (by simp [hs])
    obtain ⟨n, w, h3, h4⟩ := hv s (by simp)
    refine ⟨(n + 2, w) :: vecs, by simp [h1, h4, bind, Except.bind, pure, Except.pure], ?_⟩
    intro v hv
    rcases List.mem_cons.mp hv with rfl | hv
    · exact ⟨n, h3, rfl⟩
    · exact h2 v hv

/-- C41: the whole parser never fails and, from any point of any schedule of its threads, can return. -/
theorem C41_parser_terminates (nets : Networks W) (hn : NetsOk nets) (vectorize : S → Except PyErr (Nat × W))
    (sentences : List S)
    (hv : ∀ s ∈ sentences, ∃ n w, n ≤ maxSentLength ∧ vectorize s = .ok (n + 2, w))
    (R : Rounding) (k : Int) (hk : 0 < k) (bs : Nat) (hbs : 0 < bs) :
    (∀ s₁ s₂ fuel e, parserCall ⟨R, k, bs, s₁, s₂, fuel⟩ vectorize nets sentences ≠ .error e) ∧
    (∀ s₁ s₂ fuel, 2 * maxSentLength ≤ fuel → ∃ s₁' s₂' out,
      parserCall ⟨R, k, bs, s₁ ++ s₁', s₂ ++ s₂', fuel⟩ vectorize nets sentences = .ok (some out)) := by
  obtain ⟨vecs, h1, h2⟩ := exists_vecs hv
  obtain ⟨a, b⟩ := parserCall_spec hn vectorize sentences vecs h1 h2 R k hk bs hbs
  refine ⟨?_, b⟩
  intro s₁ s₂ fuel e he
  obtain ⟨r, hr, _⟩ := a s₁ s₂ fuel
  rw [hr] at he
  cases he

/-- The setting of the remaining theorems: the parser has returned `tags` and `trees`. -/
structure Returned (nets : Networks W) (vectorize : S → Except PyErr (Nat × W)) (sentences : List S)
    (tags : List (List Tag)) (trees : List (Option (Tree Dep Nat))) : Prop where
  netsOk : NetsOk nets
  vec : ∀ s ∈ sentences, ∃ n w, n ≤ maxSentLength ∧ vectorize s = .ok (n + 2, w)
  call : ∃ cfg : ParserCfg, 0 < cfg.nbProcesses ∧ 0 < cfg.batchSize ∧
    parserCall cfg vectorize nets sentences = .ok (some (tags, trees))

theorem Returned.spec {nets : Networks W} {vectorize : S → Except PyErr (Nat × W)} {sentences : List S}
    {tags : List (List Tag)} {trees : List (Option (Tree Dep Nat))}
    (h : Returned nets vectorize sentences tags trees) :
    ∃ vecs, sentences.mapM vectorize = .ok vecs ∧ ∃ ps : List (Parse (List Nat × List Nat × W)),
      List.Forall₂ (OutRel nets) vecs ps ∧ tags = ps.map Parse.tags ∧
      ps.map (fun p => buildParseTree p.arcs) = trees.map Except.ok := by
  obtain ⟨vecs, h1, h2⟩ := exists_vecs h.vec
  obtain ⟨⟨R, k, b, s₁, s₂, fuel⟩, c1, c2, c3⟩ := h.call
  simp only at c1 c2
  obtain ⟨b, rfl⟩ := Int.eq_ofNat_of_zero_le (le_of_lt c2)
  obtain ⟨a, _⟩ := parserCall_spec h.netsOk vectorize sentences vecs h1 h2 R k c1 b (by omega)
  obtain ⟨r, hr1, hr2⟩ := a s₁ s₂ fuel
  rw [hr1] at c3
  cases c3
  exact ⟨vecs, h1, hr2 _ _ rfl⟩

theorem Returned.tree {nets : Networks W} {vectorize : S → Except PyErr (Nat × W)} {sentences : List S}
    {tags : List (List Tag)} {trees : List (Option (Tree Dep Nat))}
    (h : Returned nets vectorize sentences tags trees) {i : Nat} {o : Option (Tree Dep Nat)} (ho : trees[i]? = some o) :
    ∃ (deps : List Dep) (dead stack : List Nat) (arcs : List Arc) (tg : List Tag), tags[i]? = some tg ∧
      deps.length = tg.length ∧ CoreInv deps dead stack [] arcs ∧ buildParseTree arcs = .ok o := by
  obtain ⟨vecs, _, ps, h2, h3, h4⟩ := h.spec
  have hk : (ps.map (fun p => buildParseTree p.arcs))[i]? = some (Except.ok o) := by
    rw [h4, List.getElem?_map, ho]; rfl
  rw [List.getElem?_map] at hk
  cases hp : ps[i]? with
  | none => rw [hp] at hk; cases hk
  | some p =>
    rw [hp] at hk
    have hb : buildParseTree p.arcs = .ok o := Option.some.inj hk
    have hlt := (List.getElem?_eq_some_iff.mp hp).1
    rw [List.forall₂_iff_get] at h2
    have ho' := h2.2 i (by rw [h2.1]; exact hlt) hlt
    have hpe : ps[i] = p := by
      rw [List.getElem?_eq_getElem hlt] at hp; exact Option.some.inj hp
    simp only [List.get_eq_getElem, hpe] at ho'
    obtain ⟨⟨dead, hc⟩, _⟩ := ho'.good.1
    rw [complete_iff.mp ho'.complete] at hc
    exact ⟨p.deps, dead, p.stack, p.arcs, p.tags, by rw [h3, List.getElem?_map, hp]; rfl, ho'.depsLen, hc, hb⟩

theorem buildParseTree_some {arcs : List Arc} {t : Tree Dep Nat} (h : buildParseTree arcs = .ok (some t)) :
    ∃ r, rootOf arcs = some r ∧ buildTree r arcs = .ok t := by
  unfold buildParseTree at h
  cases hr : rootOf arcs with
  | none => rw [hr] at h; cases h
  | some r =>
    rw [hr] at h
    simp only at h
    cases hb : buildTree r arcs with
    | error e => rw [hb] at h; cases h
    | ok t' =>
      rw [hb] at h
      cases h
      exact ⟨r, rfl, hb⟩

/-- One tag list and one (possibly missing) tree per sentence, one tag per token. -/
theorem C41_parser_aligned (nets : Networks W) (vectorize : S → Except PyErr (Nat × W)) (sentences : List S)
    (tags : List (List Tag)) (trees : List (Option (Tree Dep Nat)))
    (h : Returned nets vectorize sentences tags trees) :
    trees.length = sentences.length ∧
    List.Forall₂ (fun s tg => ∃ w, vectorize s = .ok (tg.length + 2, w)) sentences tags := by
  obtain ⟨vecs, h1, ps, h2, h3, h4⟩ := h.spec
  have hl : vecs.length = sentences.length := by
    obtain ⟨ys, e1, e2⟩ := mapM_ok_of_forall (l := sentences) (f := vectorize)
      (fun s hs => by obtain ⟨n, w, _, h⟩ := h.vec s hs; exact ⟨_, h⟩)
    rw [h1] at e1; cases e1; exact e2
  have hl2 := congrArg List.length h4
  simp only [List.length_map] at hl2
  refine ⟨by rw [← hl2, ← h2.length_eq, hl], ?_⟩
  subst h3
  clear h4 hl hl2 h
  induction sentences generalizing vecs ps with
  | nil =>
    simp [pure, Except.pure] at h1
    subst h1
    cases h2
    exact .nil
  | cons s ss ih =>
    rw [List.mapM_cons] at h1
    simp only [bind, Except.bind, pure, Except.pure] at h1
    split at h1
    · cases h1
    · rename_i v hv
      split at h1
      · cases h1
      · rename_i vs hvs
        cases h1
        cases h2 with
        | cons ho hos =>
          refine .cons ?_ (ih _ hvs _ hos)
          exact ⟨v.2, by rw [hv, ho.tagsLen]⟩

/-- C42: the child relation of every tree the parser returns is acyclic, whatever the networks predict. -/
theorem C42_parse_acyclic (nets : Networks W) (vectorize : S → Except PyErr (Nat × W)) (sentences : List S)
    (tags : List (List Tag)) (trees : List (Option (Tree Dep Nat)))
    (h : Returned nets vectorize sentences tags trees) (t : Tree Dep Nat) (ht : some t ∈ trees) :
    Acyclic fun p c => ∃ l, (l, c) ∈ t.children p := by
  obtain ⟨i, hlt, hi⟩ := List.mem_iff_getElem.mp ht
  obtain ⟨deps, dead, stack, arcs, tg, _, _, hc, hb⟩ := h.tree (i := i) (o := some t)
    (by rw [List.getElem?_eq_getElem hlt, hi])
  obtain ⟨r, _, hbt⟩ := buildParseTree_some hb
  have inv := buildTree_inv hbt
  have : (fun p c => ∃ l, (l, c) ∈ t.children p) = HasArc arcs := by
    funext p c
    simp only [inv.mem_children, HasArc]
  rw [this]
  exact hc.acyclic

/-- C43: no two arcs of a parse tree cross, whatever the networks predict. -/
theorem C43_parse_projective (nets : Networks W) (vectorize : S → Except PyErr (Nat × W)) (sentences : List S)
    (tags : List (List Tag)) (trees : List (Option (Tree Dep Nat)))
    (h : Returned nets vectorize sentences tags trees) (t : Tree Dep Nat) (ht : some t ∈ trees)
    (l l' : Dep) (p c p' c' : Nat) (h₁ : (l, c) ∈ t.children p) (h₂ : (l', c') ∈ t.children p') :
    ¬ Cross (p, c) (p', c') := by
  obtain ⟨i, hlt, hi⟩ := List.mem_iff_getElem.mp ht
  obtain ⟨deps, dead, stack, arcs, tg, _, _, hc, hb⟩ := h.tree (i := i) (o := some t)
    (by rw [List.getElem?_eq_getElem hlt, hi])
  obtain ⟨r, _, hbt⟩ := buildParseTree_some hb
  have inv := buildTree_inv hbt
  rw [inv.mem_children] at h₁ h₂
  exact hc.noncross _ h₁ _ h₂

/-- C44: a tree returned for a sentence with tags `tg` has a parentless root with at least one child, and its arcs
join two different tokens of that sentence with a label other than `ROOT` and `NODEP`. -/
theorem C44_parse_well_formed (nets : Networks W) (vectorize : S → Except PyErr (Nat × W)) (sentences : List S)
    (tags : List (List Tag)) (trees : List (Option (Tree Dep Nat)))
    (h : Returned nets vectorize sentences tags trees) (i : Nat) (t : Tree Dep Nat) (ht : trees[i]? = some (some t)) :
    ∃ tg, tags[i]? = some tg ∧ t.parent t.root = none ∧ t.children t.root ≠ [] ∧
      ∀ l p c, (l, c) ∈ t.children p → p < tg.length ∧ c < tg.length ∧ p ≠ c ∧ l ≠ .ROOT ∧ l ≠ .NODEP := by
  obtain ⟨deps, dead, stack, arcs, tg, h1, h2, hc, hb⟩ := h.tree ht
  obtain ⟨r, hr, hbt⟩ := buildParseTree_some hb
  have inv := buildTree_inv hbt
  obtain ⟨hroot, hnp, ⟨a, ha, har⟩, _⟩ := And.intro inv.root_eq ((rootOf_spec arcs hc.acyclic).2 r hr)
  refine ⟨tg, h1, ?_, ?_, ?_⟩
  · rw [inv.parent, hroot, lastParent_eq_none]
    exact hnp
  · have : (a.1, a.2.2) ∈ t.children t.root := by
      rw [inv.mem_children, hroot, ← har]
      exact ha
    exact List.ne_nil_of_mem this
  · intro l p c hm
    rw [inv.mem_children] at hm
    have hlt : ∀ j, j ∈ dead ++ stack ++ [] → j < tg.length := by
      intro j hj
      obtain ⟨d, hd, _⟩ := hc.valid j hj
      rw [← h2]
      exact (List.getElem?_eq_some_iff.mp hd).1
    obtain ⟨b1, b2⟩ := (hc.before _ hm).mem
    have hcm : c ∈ dead ++ stack ++ [] := by simpa using b1
    have hpm : p ∈ dead ++ stack ++ [] := by simpa using b2
    refine ⟨hlt p hpm, hlt c hcm, hc.ne _ hm, ?_, ?_⟩
    all_goals
      obtain ⟨d, hd1, hd2⟩ := hc.label _ hm
      obtain ⟨d', hd1', hd2'⟩ := hc.valid c hcm
      simp only at hd1 hd2
      rw [hd1] at hd1'
      cases hd1'
      rw [hd2]
      split
      · simp
      · assumption

/-- C44: on one sentence, whatever the transitions, every arc joins two tokens with a dependency, its label is the
predicted dependency of the child (`ROOT` turned into `SPLIT`), and the tree is missing exactly when there is no arc. -/
theorem C44_arc_labels (mats : X) (n : Nat) (tagCodes depCodes : List Nat)
    (ht : ∀ c ∈ tagCodes, c < 17) (hd : ∀ c ∈ depCodes, c < 25) (hlt : n + 1 ≤ tagCodes.length)
    (hld : n + 1 ≤ depCodes.length) (ts : List Trans) :
    ∃ p₀ p, Parse.new mats (n + 2) tagCodes depCodes = .ok p₀ ∧ runTrans p₀ ts = .ok p ∧
      (buildParseTree p.arcs = .ok none ↔ p.arcs = []) ∧
      ∀ l h c, (l, h, c) ∈ p.arcs → h < n ∧ c < n ∧
        (∃ code d, depCodes[h + 1]? = some code ∧ Dep.ofCode code = .ok d ∧ d ≠ .NODEP) ∧
        ∃ code d, depCodes[c + 1]? = some code ∧ Dep.ofCode code = .ok d ∧
          d ≠ .NODEP ∧ l = if d = .ROOT then .SPLIT else d := by
  obtain ⟨tags, deps, h1, _, h3, _, h5⟩ := Parse.new_ok mats n tagCodes depCodes ht hd hld hlt
  obtain ⟨p, g1, ⟨⟨dead, hc⟩, _⟩, g3, _⟩ := runTrans_inv (freshParse_inv mats tags deps) ts
  rw [g3, (freshParse_fields _ _ _).2.2] at hc
  refine ⟨_, p, h1, g1, ?_, ?_⟩
  · constructor
    · intro hb
      unfold buildParseTree at hb
      cases hr : rootOf p.arcs with
      | none => exact (rootOf_spec p.arcs hc.acyclic).1.mp hr
      | some r =>
        rw [hr] at hb
        simp only at hb
        cases hbt : buildTree r p.arcs with
        | error e => rw [hbt] at hb; cases hb
        | ok t => rw [hbt] at hb; cases hb
    · intro he
      simp [buildParseTree, (rootOf_spec p.arcs hc.acyclic).1.mpr he]
  · intro l h c hm
    obtain ⟨b1, b2⟩ := (hc.before _ hm).mem
    obtain ⟨dh, hdh, hdhn⟩ := hc.valid h (by simp only [List.mem_append]; tauto)
    obtain ⟨d, hdc, hdn⟩ := hc.valid c (by simp only [List.mem_append]; tauto)
    obtain ⟨d', hd1, hd2⟩ := hc.label _ hm
    simp only at hd1 hd2
    rw [hdc] at hd1
    cases hd1
    refine ⟨by rw [← h3]; exact (List.getElem?_eq_some_iff.mp hdh).1,
      by rw [← h3]; exact (List.getElem?_eq_some_iff.mp hdc).1, ?_⟩
    have hsl : slice depCodes 1 ((n : Int) + 1) = (depCodes.take (n + 1)).drop 1 := by
      have := slice_nat depCodes 1 (n + 1)
      push_cast at this
      exact this
    rw [hsl] at h5
    have key : ∀ (l : List Nat) (ds : List Dep), l.mapM Dep.ofCode = .ok ds → ∀ (j : Nat) (d : Dep), ds[j]? = some d →
        ∃ code, l[j]? = some code ∧ Dep.ofCode code = .ok d := by
      intro l
      induction l with
      | nil => intro ds h j d hj; simp [pure, Except.pure] at h; subst h; simp at hj
      | cons a l ih =>
        intro ds h j d hj
        rw [List.mapM_cons] at h
        simp only [bind, Except.bind, pure, Except.pure] at h
        split at h
        · cases h
        · rename_i v hv
          split at h
          · cases h
          · rename_i vs hvs
            cases h
            cases j with
            | zero => simp at hj; subst hj; exact ⟨a, rfl, hv⟩
            | succ j => simp at hj ⊢; exact ih vs hvs j d hj
    have key' : ∀ (j : Nat) (d : Dep), deps[j]? = some d →
        ∃ code, depCodes[j + 1]? = some code ∧ Dep.ofCode code = .ok d := by
      intro j d hj
      obtain ⟨code, hcode, hof⟩ := key _ _ h5 j d hj
      refine ⟨code, ?_, hof⟩
      rw [List.getElem?_drop, List.getElem?_take] at hcode
      split at hcode
      · rw [Nat.add_comm]; exact hcode
      · cases hcode
    obtain ⟨code, hcode, hof⟩ := key' c d hdc
    obtain ⟨codeh, hcodeh, hofh⟩ := key' h dh hdh
    exact ⟨⟨codeh, dh, hcodeh, hofh, hdhn⟩, code, d, hcode, hof, hdn, hd2⟩

example : rootOf [(Dep.SPLIT, 3, 2), (.OBJ, 1, 3)] = some 1 := by decide +kernel

/-- C45 is false: `RIGHT` then `LEFT` gives token 1 two heads; the tree keeps 2 as its parent but still lists it as a
child of 0. -/
theorem C45_two_heads_false :
    ∃ (n : Nat) (tagCodes depCodes : List Nat) (ts : List Trans) (p₀ p : Parse Unit) (t : Tree Dep Nat),
      Parse.new () (n + 2) tagCodes depCodes = .ok p₀ ∧ runTrans p₀ ts = .ok p ∧ p.complete = true ∧
      buildParseTree p.arcs = .ok (some t) ∧ (Dep.SUBJ, 1) ∈ t.children 0 ∧ (Dep.SUBJ, 1) ∈ t.children 2 ∧
      t.parent 1 = some (.SUBJ, 2) := by
  refine ⟨3, [0, 8, 8, 8, 0], [0, 24, 24, 2, 0], [.RIGHT, .LEFT, .RIGHT],
    ⟨(), [.NOUN, .NOUN, .NOUN], [.SUBJ, .SUBJ, .ROOT], [0], [1, 2], []⟩,
    ⟨(), [.NOUN, .NOUN, .NOUN], [.SUBJ, .SUBJ, .ROOT], [2, 0], [], [(.SUBJ, 0, 1), (.SUBJ, 2, 1), (.SPLIT, 0, 2)]⟩,
    ⟨0, [(0, [(.SUBJ, [1]), (.SPLIT, [2])]), (2, [(.SUBJ, [1])])], [(1, (.SUBJ, 2)), (2, (.SPLIT, 0))]⟩,
    by decide +kernel, by decide +kernel, by decide +kernel, rfl, by decide +kernel, by decide +kernel,
    by decide +kernel⟩

/-- C45, what does hold: a token gets at most one head on its left and at most one head on its right, so at most two
arcs enter it. Full statement (false): `(p.arcs.map fun a => a.2.2).Nodup`. -/
theorem C45_heads_partial (mats : X) (n : Nat) (tagCodes depCodes : List Nat)
    (ht : ∀ c ∈ tagCodes, c < 17) (hd : ∀ c ∈ depCodes, c < 25) (hlt : n + 1 ≤ tagCodes.length)
    (hld : n + 1 ≤ depCodes.length) (ts : List Trans) :
    ∃ p₀ p, Parse.new mats (n + 2) tagCodes depCodes = .ok p₀ ∧ runTrans p₀ ts = .ok p ∧
      ∀ c, (p.arcs.filter fun a => a.2.2 = c ∧ a.2.1 < c).length ≤ 1 ∧
        (p.arcs.filter fun a => a.2.2 = c ∧ c < a.2.1).length ≤ 1 ∧
        (p.arcs.filter fun a => a.2.2 = c).length ≤ 2 := by
  obtain ⟨tags, deps, h1, _, h3, _, h5⟩ := Parse.new_ok mats n tagCodes depCodes ht hd hld hlt
  obtain ⟨p, g1, ⟨⟨dead, hc⟩, _⟩, g3, _⟩ := runTrans_inv (freshParse_inv mats tags deps) ts
  refine ⟨_, p, h1, g1, ?_⟩
  intro c
  have count : ∀ (l : List Arc), (l.map fun a => a.2.2).Nodup → (l.filter fun a => a.2.2 = c).length ≤ 1 := by
    intro l hl
    have := List.nodup_iff_count_le_one.mp hl c
    rw [List.count_eq_countP, List.countP_map, List.countP_eq_length_filter] at this
    convert this using 3
    funext a
    simp only [Function.comp, beq_eq_decide]
  have e1 : (p.arcs.filter fun a => decide (a.2.2 = c ∧ a.2.1 < c)) =
      (p.arcs.filter fun a => decide (a.2.1 < a.2.2)).filter fun a => decide (a.2.2 = c) := by
    rw [List.filter_filter]
    apply List.filter_congr
    intro a _
    rw [Bool.eq_iff_iff]
    simp only [decide_eq_true_eq, Bool.and_eq_true]
    omega
  have e2 : (p.arcs.filter fun a => decide (a.2.2 = c ∧ c < a.2.1)) =
      (p.arcs.filter fun a => decide (a.2.2 < a.2.1)).filter fun a => decide (a.2.2 = c) := by
    rw [List.filter_filter]
    apply List.filter_congr
    intro a _
    rw [Bool.eq_iff_iff]
    simp only [decide_eq_true_eq, Bool.and_eq_true]
    omega
  have n1 : (p.arcs.filter fun a => decide (a.2.2 = c ∧ a.2.1 < c)).length ≤ 1 := by
    rw [e1]; exact count _ hc.rightNodup
  have n2 : (p.arcs.filter fun a => decide (a.2.2 = c ∧ c < a.2.1)).length ≤ 1 := by
    rw [e2]; exact count _ hc.leftNodup
  refine ⟨n1, n2, ?_⟩
  have hsum : ∀ l : List Arc, (∀ a ∈ l, a.2.1 ≠ a.2.2) → (l.filter fun a => decide (a.2.2 = c)).length ≤
      (l.filter fun a => decide (a.2.2 = c ∧ a.2.1 < c)).length +
      (l.filter fun a => decide (a.2.2 = c ∧ c < a.2.1)).length := by
    intro l
    induction l with
    | nil => simp
    | cons a l ih =>
      intro hne
      have := ih fun a ha => hne a (by simp [ha])
      have hna := hne a (by simp)
      by_cases hac : a.2.2 = c
      · rcases Nat.lt_or_gt_of_ne hna with hlt | hlt
        · have h1 : a.2.1 < c := by omega
          have h2 : ¬ c < a.2.1 := by omega
          simp [hac, h1, h2] at this ⊢
          omega
        · have h1 : ¬ a.2.1 < c := by omega
          have h2 : c < a.2.1 := by omega
          simp [hac, h1, h2] at this ⊢
          omega
      · simp [hac] at this ⊢
        omega
  have := hsum p.arcs hc.ne
  omega

/-- C46: with networks that predict every row independently of the others, the tags and tree of each sentence are
those of the sentence parsed alone, for all batch sizes, numbers of threads and schedules of both calls. -/
theorem C46_batching_irrelevant (nets : Networks W) (f : W → List Nat) (g : List Nat → W → List Nat)
    (m : (List Nat × List Nat × W) × List Bool × List Bool → Trans)
    (hf : ∀ ws, nets.tags ws = ws.map f) (hg : ∀ ts ws, nets.deps ts ws = List.zipWith g ts ws)
    (hm : ∀ rows, nets.trans rows = rows.map m)
    (vectorize : S → Except PyErr (Nat × W)) (sentences : List S)
    (tags : List (List Tag)) (trees : List (Option (Tree Dep Nat)))
    (h : Returned nets vectorize sentences tags trees)
    (i : Nat) (s : S) (hs : sentences[i]? = some s) (tags' : List (List Tag)) (trees' : List (Option (Tree Dep Nat)))
    (h' : Returned nets vectorize [s] tags' trees') :
    ∃ tg tr, tags[i]? = some tg ∧ trees[i]? = some tr ∧ tags' = [tg] ∧ trees' = [tr] := by
  obtain ⟨vecs, h1, ps, h2, h3, h4⟩ := h.spec
  obtain ⟨vecs', h1', ps', h2', h3', h4'⟩ := h'.spec
  obtain ⟨n, w, _, hvs⟩ := h.vec s (List.mem_of_getElem? hs)
  have hv : vecs[i]? = some (n + 2, w) := by
    clear h2 h3 h4 h1' h2' h h'
    induction sentences generalizing vecs i with
    | nil => simp at hs
    | cons a ss ih =>
      rw [List.mapM_cons] at h1
      simp only [bind, Except.bind, pure, Except.pure] at h1
      split at h1
      · cases h1
      · rename_i v hva
        split at h1
        · cases h1
        · rename_i vs hvs'
          cases h1
          cases i with
          | zero => simp at hs; subst hs; rw [hvs] at hva; cases hva; rfl
          | succ i => simp at hs ⊢; exact ih i hs vs hvs'
  have hv' : vecs' = [(n + 2, w)] := by
    simp [hvs, bind, Except.bind, pure, Except.pure] at h1'
    exact h1'.symm
  subst hv'
  rw [List.forall₂_cons_left_iff] at h2'
  obtain ⟨q, qs, ho', hnil, rfl⟩ := h2'
  cases hnil
  rw [List.forall₂_iff_get] at h2
  have hlt := (List.getElem?_eq_some_iff.mp hv).1
  have hlt' : i < ps.length := by rw [← h2.1]; exact hlt
  have ho := h2.2 i hlt hlt'
  have hve : vecs[i] = (n + 2, w) := by
    rw [List.getElem?_eq_getElem hlt] at hv; exact Option.some.inj hv
  simp only [List.get_eq_getElem, hve] at ho
  obtain ⟨p₀, i1, i2⟩ := ho.rowwise f g hf hg
  obtain ⟨q₀, j1, j2⟩ := ho'.rowwise f g hf hg
  rw [i1] at j1
  cases j1
  have hpq : ps[i] = q := FinalRel.unique hm hm i2 j2
  have hlt4 : i < trees.length := by
    have := congrArg List.length h4
    simp only [List.length_map] at this
    omega
  have ht : buildParseTree q.arcs = .ok trees[i] := by
    have := congrArg (fun l => l[i]?) h4
    simp only [List.getElem?_map, List.getElem?_eq_getElem hlt', List.getElem?_eq_getElem hlt4, Option.map_some,
      Option.some.injEq, hpq] at this
    exact this
  refine ⟨q.tags, trees[i], ?_, List.getElem?_eq_getElem hlt4, h3', ?_⟩
  · rw [h3, List.getElem?_map, List.getElem?_eq_getElem hlt', hpq]; rfl
  · simp only [List.map_cons, List.map_nil, ht] at h4'
    cases trees' with
    | nil => simp at h4'
    | cons a as =>
      simp only [List.map_cons, List.cons.injEq, Except.ok.injEq] at h4'
      have has : as = [] := by simpa using h4'.2.symm
      rw [has, ← h4'.1]

/-- Networks of the example below: every token is a verb, every dependency an auxiliary, every transition `RIGHT`. -/
def demoNets : Networks Unit where
  tags ws := ws.map fun _ => List.replicate paddedSentLength 14
  deps ts ws := List.zipWith (fun _ _ => List.replicate paddedSentLength 5) ts ws
  trans rows := rows.map fun _ => .RIGHT

/-- The hypotheses of C41 - C46 are satisfiable and the call computes. -/
example : NetsOk demoNets where
  tagsLen := by simp [demoNets]
  tagsRow := by simp +contextual [demoNets]
  depsLen := by intro ts ws h; simp [demoNets, h]
  depsRow := by
    intro ts ws r hr
    simp only [demoNets, ← List.map_uncurry_zip_eq_zipWith, List.mem_map] at hr
    obtain ⟨_, _, rfl⟩ := hr
    simp +contextual [Function.uncurry]
  trans := by intro rows; simp [demoNets]

set_option synthInstance.maxSize 1024 in
example : (parserCall ⟨Rounding.exact, 1, 1, [.main, .worker 0, .worker 0, .worker 0, .main],
      [.main, .worker 0, .worker 0, .worker 0, .main], 10⟩ (fun n : Nat => .ok (n + 2, ())) demoNets [3, 2]).map
    (fun o => o.map fun r => (r.1, r.2.map fun t => t.map fun t => (t.root, t.arcs))) =
    .ok (some ([[.VERB, .VERB, .VERB], [.VERB, .VERB]],
      [some (0, [(.AUX, 0, 1), (.AUX, 1, 2)]), some (0, [(.AUX, 0, 1)])])) := by decide +kernel

end Props
