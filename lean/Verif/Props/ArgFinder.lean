import Verif.Lemmas.ArgFinder

/-! Property of argument finding (C56). -/

namespace Props
open Py Model Spec

theorem erase_same {n n' : Node} (h : n.erase = n'.erase) : n = { n' with
    isAff := n.isAff, subjs := n.subjs, objs := n.objs, exist := n.exist, props := n.props, iprops := n.iprops,
    iobjs := n.iobjs, adjs := n.adjs, subjsVerbsIprops := n.subjsVerbsIprops, copulasProps := n.copulasProps,
    ppsProps := n.ppsProps, agents := n.agents } := by
  cases n; cases n'
  simp only [Node.erase, Node.mk.injEq, and_true, true_and] at h ⊢
  tauto

/-- C56: argument finding raises nothing on any tree of nodes, and the arguments, the coordination and the polarity it
registers on the nodes are exactly those the arcs of the tree give. -/
theorem C56_arguments_exact (root : Ref) (hist : List (Dep × Ref × Ref)) (t : Tree Dep Ref)
    (hb : buildTree root hist = .ok t) (nodes : List Ref) (h : Heap) (hn : ∀ r, NoArgs (h.node r)) :
    ∃ h', findArgs t nodes h = .ok h' ∧ ArgsFound h t nodes h' := by
  have inv := buildTree_inv hb
  have heq := findArgs_eq hb nodes h
  have A : AggSpec t nodes h (nodes.foldl (aggregStep t) h) := aggSpec hb hn
  obtain ⟨hf1, hf2⟩ := aggreg_fold t nodes h
  simp only at heq
  set h₀ := nodes.foldl (aggregStep t) h with hh₀
  refine ⟨_, heq, ?_⟩
  set es := nodes.flatMap (directEvs t h₀) ++
    nodes.flatMap (longEvs t h₀ (nodes.filter (isNaked t)) (nodes.filter (isMarked t))) with hes
  have hst : Static h₀ (applyEvs h₀ es) := (Static.refl h₀).applyEvs es
  have hneg : ∀ (node : Ref) (e : Ev), e ∈ negEvs t node ↔ e = .neg node ∧ HasChild t node .NEG := by
    intro node e
    unfold negEvs HasChild
    have : ((t.children node).any fun c => decide (c.1 = .NEG)) = true ↔ ∃ c, (Dep.NEG, c) ∈ t.children node := by
      simp [List.any_eq_true]
    by_cases hc : ((t.children node).any fun c => decide (c.1 = .NEG)) = true
    · rw [if_pos hc]; simp [this.mp hc]
    · rw [if_neg hc]
      rw [this] at hc
      simp [hc]
  have hmem : ∀ e, e ∈ es ↔ ∃ node ∈ nodes, (e ∈ parentEvs t h₀ node ∨ e ∈ negEvs t node ∨ e ∈ cplEvs t h₀ node ∨
      e ∈ longEvs t h₀ (nodes.filter (isNaked t)) (nodes.filter (isMarked t)) node) := by
    intro e
    simp only [hes, List.mem_append, List.mem_flatMap, directEvs, or_assoc]
    constructor
    · rintro (⟨x, h1, h2 | h2 | h2⟩ | ⟨x, h1, h2⟩)
      · exact ⟨x, h1, Or.inl h2⟩
      · exact ⟨x, h1, Or.inr (Or.inl h2)⟩
      · exact ⟨x, h1, Or.inr (Or.inr (Or.inl h2))⟩
      · exact ⟨x, h1, Or.inr (Or.inr (Or.inr h2))⟩
    · rintro ⟨x, h1, h2 | h2 | h2 | h2⟩
      · exact Or.inl ⟨x, h1, Or.inl h2⟩
      · exact Or.inl ⟨x, h1, Or.inr (Or.inl h2)⟩
      · exact Or.inl ⟨x, h1, Or.inr (Or.inr h2)⟩
      · exact Or.inr ⟨x, h1, h2⟩
  simp only [mem_parentEvs hb A, hneg, mem_cplEvs hb A, mem_longEvs hb A] at hmem
  have fld : ∀ {ι : Type} (F : Node → List ι) (mk : Ref → ι → Ev), (∀ v x, (mk v x).target = v) →
      (∀ e n x, x ∈ F (e.on n) ↔ x ∈ F n ∨ e = mk e.target x) → (∀ n, NoArgs n → F n = []) →
      (∀ n a b, F { n with andCconjs := a, orCconjs := b } = F n) →
      ∀ r x, x ∈ F ((applyEvs h₀ es).node r) ↔ mk r x ∈ es := by
    intro ι F mk hm hon hF hF2 r x
    rw [mem_field F mk hm hon es h₀ r x, hf2]
    have : F (h.node r) = [] := hF _ (hn r)
    split <;> simp [this, hF2]
  constructor
  case next => exact hst.1.trans hf1
  case same =>
    intro r
    have := erase_same (hst.2 r)
    rw [hf2] at this
    split at this
    · rw [this]
      exact ⟨_, _, _, _, _, _, _, _, _, _, _, _, _, _, rfl⟩
    · rw [this]
      exact ⟨_, _, _, _, _, _, _, _, _, _, _, _, _, _, rfl⟩
  case conj =>
    intro r x
    rw [hst.andC, hst.orC, hf2]
    have hmc : ∀ p l c, c ∈ t.childrenVia p l ↔ (l, c) ∈ t.children p := by
      intro p l c
      rw [inv.mem_children, inv.childrenVia, mem_labelled]
    by_cases hr : r ∈ nodes
    · simp [hr, hmc]
    · simp [hr, (hn r).andCconjs, (hn r).orCconjs]
  case aff =>
    intro r
    rw [aff_field, hf2]
    have : (h.node r).isAff = true := (hn r).isAff
    have h1 : (if r ∈ nodes then { h.node r with andCconjs := t.childrenVia r .AND, orCconjs := t.childrenVia r .OR } else
        h.node r).isAff = true := by split <;> exact this
    simp only [h1, reduceCtorEq, false_or, hmem, false_and, exists_false, or_false, Ev.neg.injEq, and_false]
    constructor
    · rintro ⟨_, h1, rfl, h2⟩; exact ⟨h1, h2⟩
    · rintro ⟨h1, h2⟩; exact ⟨r, h1, rfl, h2⟩
  case subjs =>
    intro r x
    rw [fld Node.subjs .subj (fun _ _ => rfl) (by intro e n x; cases e <;> simp [Ev.on, Ev.target, eq_comm])
      (fun n hn => hn.subjs) (fun _ _ _ => rfl), hmem]
    simp only [reduceCtorEq, false_and, exists_false, or_false, false_or, and_false, Ev.subj.injEq]
    unfold SubjOf
    simp only [meant_subj hb A]
    constructor
    · rintro ⟨node, hx, ⟨verb, _, _, ⟨rfl, rfl⟩, h1, h2, h3⟩ | ⟨p, s, _, _, ⟨rfl, rfl⟩, h1, h2, h3, h4, h5, h6, h7, h8, h9⟩⟩
      · exact Or.inl ⟨verb, node, _, hx, h1, rfl, h3, h2⟩
      · exact Or.inr ⟨node, p, s, h1, h2, h3, h4, h5, h6, h7, h8, h9⟩
    · rintro (⟨verb, node, _, hx, h1, rfl, h3, h2⟩ | ⟨node, p, s, h1, h2, h3, h4, h5, h6, h7, h8, h9⟩)
      · exact ⟨node, hx, Or.inl ⟨verb, _, _, ⟨rfl, rfl⟩, h1, h2, h3⟩⟩
      · exact ⟨node, h1, Or.inr ⟨p, s, _, _, ⟨rfl, rfl⟩, h1, h2, h3, h4, h5, h6, h7, h8, h9⟩⟩
  case objs =>
    intro r x
    rw [fld Node.objs .obj (fun _ _ => rfl) (by intro e n x; cases e <;> simp [Ev.on, Ev.target, eq_comm])
      (fun n hn => hn.objs) (fun _ _ _ => rfl), hmem]
    simp only [reduceCtorEq, false_and, exists_false, or_false, false_or, and_false, Ev.obj.injEq]
    unfold ObjOf
    simp only [meant_obj hb A]
    constructor
    · rintro ⟨node, hx, ⟨verb, _, _, ⟨rfl, rfl⟩, h1, h2, h3⟩ | ⟨p, s, _, _, ⟨rfl, rfl⟩, h1, h2, h3, h4, h5, h6, h7, h8, h9⟩⟩
      · exact Or.inl ⟨verb, node, _, hx, h1, rfl, h3, h2⟩
      · exact Or.inr ⟨node, p, s, h1, h2, h3, h4, h5, h6, h7, h8, h9⟩
    · rintro (⟨verb, node, _, hx, h1, rfl, h3, h2⟩ | ⟨node, p, s, h1, h2, h3, h4, h5, h6, h7, h8, h9⟩)
      · exact ⟨node, hx, Or.inl ⟨verb, _, _, ⟨rfl, rfl⟩, h1, h2, h3⟩⟩
      · exact ⟨node, h1, Or.inr ⟨p, s, _, _, ⟨rfl, rfl⟩, h1, h2, h3, h4, h5, h6, h7, h8, h9⟩⟩
  case iobjs =>
    intro r x
    rw [fld Node.iobjs .iobj (fun _ _ => rfl) (by intro e n x; cases e <;> simp [Ev.on, Ev.target, eq_comm])
      (fun n hn => hn.iobjs) (fun _ _ _ => rfl), hmem]
    simp only [reduceCtorEq, false_and, exists_false, or_false, false_or, and_false, Ev.iobj.injEq]
    unfold AttachedBy
    constructor
    · rintro ⟨node, hx, _, _, ⟨rfl, rfl⟩, h1, h2⟩; exact ⟨node, hx, h1, h2⟩
    · rintro ⟨node, hx, h1, h2⟩; exact ⟨node, hx, _, _, ⟨rfl, rfl⟩, h1, h2⟩
  case exist =>
    intro r x
    rw [fld Node.exist .exist (fun _ _ => rfl) (by intro e n x; cases e <;> simp [Ev.on, Ev.target, eq_comm])
      (fun n hn => hn.exist) (fun _ _ _ => rfl), hmem]
    simp only [reduceCtorEq, false_and, exists_false, or_false, false_or, and_false, Ev.exist.injEq]
    unfold AttachedBy
    constructor
    · rintro ⟨node, hx, _, _, ⟨rfl, rfl⟩, h1, h2⟩; exact ⟨node, hx, h1, h2⟩
    · rintro ⟨node, hx, h1, h2⟩; exact ⟨node, hx, _, _, ⟨rfl, rfl⟩, h1, h2⟩
  case props =>
    intro r x
    rw [fld Node.props .prop (fun _ _ => rfl) (by intro e n x; cases e <;> simp [Ev.on, Ev.target, eq_comm])
      (fun n hn => hn.props) (fun _ _ _ => rfl), hmem]
    simp only [reduceCtorEq, false_and, exists_false, or_false, false_or, and_false, Ev.prop.injEq]
    unfold AttachedBy
    constructor
    · rintro ⟨node, hx, _, _, ⟨rfl, rfl⟩, h1, h2⟩; exact ⟨node, hx, h1, h2⟩
    · rintro ⟨node, hx, h1, h2⟩; exact ⟨node, hx, _, _, ⟨rfl, rfl⟩, h1, h2⟩
  case iprops =>
    intro r x
    rw [fld Node.iprops .iprop (fun _ _ => rfl) (by intro e n x; cases e <;> simp [Ev.on, Ev.target, eq_comm])
      (fun n hn => hn.iprops) (fun _ _ _ => rfl), hmem]
    simp only [reduceCtorEq, false_and, exists_false, or_false, false_or, and_false, Ev.iprop.injEq]
    unfold AttachedBy
    constructor
    · rintro ⟨node, hx, _, _, ⟨rfl, rfl⟩, h1, h2⟩; exact ⟨node, hx, h1, h2⟩
    · rintro ⟨node, hx, h1, h2⟩; exact ⟨node, hx, _, _, ⟨rfl, rfl⟩, h1, h2⟩
  case adjs =>
    intro r x
    rw [fld Node.adjs .adj (fun _ _ => rfl) (by intro e n x; cases e <;> simp [Ev.on, Ev.target, eq_comm])
      (fun n hn => hn.adjs) (fun _ _ _ => rfl), hmem]
    simp only [reduceCtorEq, false_and, exists_false, or_false, false_or, and_false, Ev.adj.injEq]
    unfold AdjOf
    constructor
    · rintro ⟨node, hx, p, h1, ⟨h2, h3, _, ⟨rfl, rfl⟩, h4⟩ | ⟨_, ⟨rfl, rfl⟩, h2, h3, h4, h5⟩⟩
      · exact Or.inl ⟨node, hx, h1, h2, h3, h4⟩
      · exact Or.inr ⟨p, hx, h1, h2, h3, h4, h5⟩
    · rintro (⟨node, hx, h1, h2, h3, h4⟩ | ⟨p, hx, h1, h2, h3, h4, h5⟩)
      · exact ⟨node, hx, r, h1, Or.inl ⟨h2, h3, _, ⟨rfl, rfl⟩, h4⟩⟩
      · exact ⟨r, hx, p, h1, Or.inr ⟨_, ⟨rfl, rfl⟩, h2, h3, h4, h5⟩⟩
  case pps =>
    intro r pp p
    rw [fld Node.ppsProps .pp (fun _ _ => rfl) (by intro e n x; cases e <;> simp [Ev.on, Ev.target, eq_comm])
      (fun n hn => hn.ppsProps) (fun _ _ _ => rfl), hmem]
    simp only [reduceCtorEq, false_and, exists_false, or_false, false_or, and_false, Ev.pp.injEq, Prod.mk.injEq]
    unfold PpOf
    constructor
    · rintro ⟨node, hx, q, h1, h2, h3, prop, _, ⟨rfl, rfl, rfl⟩, h4, h5, h6, h7⟩
      exact ⟨prop, hx, h1, h2, h3, h4, h5, h6, h7⟩
    · rintro ⟨prop, hx, h1, h2, h3, h4, h5, h6, h7⟩
      exact ⟨pp, hx, r, h1, h2, h3, prop, _, ⟨rfl, rfl, rfl⟩, h4, h5, h6, h7⟩
  case copulas =>
    intro r c p
    rw [fld Node.copulasProps .cop (fun _ _ => rfl) (by intro e n x; cases e <;> simp [Ev.on, Ev.target, eq_comm])
      (fun n hn => hn.copulasProps) (fun _ _ _ => rfl), hmem]
    simp only [reduceCtorEq, false_and, exists_false, or_false, false_or, and_false, Ev.cop.injEq, Prod.mk.injEq]
    unfold CopulaOf
    simp only [meant_cop hb A]
    constructor
    · rintro ⟨node, hx, c', subj, _, _, ⟨rfl, rfl, rfl⟩, h1, h2, h3, h4, h5⟩
      exact ⟨node, subj, _, hx, h1, h2, rfl, h3, h4, h5⟩
    · rintro ⟨node, subj, _, hx, h1, h2, rfl, h3, h4, h5⟩
      exact ⟨node, hx, c, subj, _, _, ⟨rfl, rfl, rfl⟩, h1, h2, h3, h4, h5⟩
  case svis =>
    intro r s v ip
    rw [fld Node.subjsVerbsIprops .svi (fun _ _ => rfl) (by intro e n x; cases e <;> simp [Ev.on, Ev.target, eq_comm])
      (fun n hn => hn.subjsVerbsIprops) (fun _ _ _ => rfl), hmem]
    simp only [reduceCtorEq, false_and, exists_false, or_false, false_or, and_false, Ev.svi.injEq, Prod.mk.injEq]
    unfold IpropOf
    constructor
    · rintro ⟨node, hx, verb, obj, _, _, ⟨rfl, rfl, rfl, rfl⟩, h1, h2, h3, h4⟩
      exact ⟨node, obj, hx, h1, h2, rfl, h3, h4⟩
    · rintro ⟨node, obj, hx, h1, h2, rfl, h3, h4⟩
      exact ⟨node, hx, v, obj, _, _, ⟨rfl, rfl, rfl, rfl⟩, h1, h2, h3, h4⟩
  case agents =>
    intro r x
    rw [fld Node.agents .agent (fun _ _ => rfl) (by intro e n x; cases e <;> simp [Ev.on, Ev.target, eq_comm])
      (fun n hn => hn.agents) (fun _ _ _ => rfl), hmem]
    simp only [reduceCtorEq, false_and, exists_false, or_false, false_or, and_false, Ev.agent.injEq]
    unfold AgentOf
    constructor
    · rintro ⟨node, hx, p, h1, m, _, ⟨rfl, rfl⟩, h2, h3, h4, h5⟩
      exact ⟨node, m, hx, h1, h2, h3, h4, h5⟩
    · rintro ⟨node, m, hx, h1, h2, h3, h4, h5⟩
      exact ⟨node, hx, r, h1, m, _, ⟨rfl, rfl⟩, h2, h3, h4, h5⟩

/-- C56: whatever is registered on a node takes part in an arc of the tree. -/
theorem C56_arguments_in_tree (root : Ref) (hist : List (Dep × Ref × Ref)) (t : Tree Dep Ref)
    (hb : buildTree root hist = .ok t) (nodes : List Ref) (h h' : Heap) (A : ArgsFound h t nodes h') (r x : Ref)
    (hx : x ∈ (h'.node r).subjs ∨ x ∈ (h'.node r).objs ∨ x ∈ (h'.node r).iobjs ∨ x ∈ (h'.node r).exist ∨
      x ∈ (h'.node r).props ∨ x ∈ (h'.node r).iprops ∨ x ∈ (h'.node r).adjs ∨ x ∈ (h'.node r).agents ∨
      (∃ y, (x, y) ∈ (h'.node r).copulasProps ∨ (y, x) ∈ (h'.node r).copulasProps) ∨
      (∃ y, (x, y) ∈ (h'.node r).ppsProps ∨ (y, x) ∈ (h'.node r).ppsProps) ∨
      ∃ y z, (some x, y, z) ∈ (h'.node r).subjsVerbsIprops ∨ (∃ s, (s, x, z) ∈ (h'.node r).subjsVerbsIprops) ∨
        ∃ s, (s, y, x) ∈ (h'.node r).subjsVerbsIprops) : InTree t x := by
  have inv := buildTree_inv hb
  have hpar : ∀ x d p, t.parent x = some (d, p) → (d, x) ∈ t.children p := by
    intro x d p h
    rw [inv.parent] at h
    exact (inv.mem_children _ _ _).mpr (lastParent_mem h)
  have up : ∀ {x d p}, t.parent x = some (d, p) → InTree t x := fun h => ⟨_, _, Or.inr (hpar _ _ _ h)⟩
  have dn : ∀ {x d p}, t.parent x = some (d, p) → InTree t p := fun h => ⟨_, _, Or.inl (hpar _ _ _ h)⟩
  have first : ∀ {p l c}, FirstChild t p l c → InTree t c := by
    intro p l c h
    have := List.mem_of_head? h
    rw [inv.childrenVia, mem_labelled] at this
    exact ⟨_, _, Or.inr ((inv.mem_children _ _ _).mpr this)⟩
  have grp : ∀ {x y}, InTree t x → Group t nodes x y → InTree t y := by
    rintro x y hx (rfl | ⟨_, h | h⟩)
    · exact hx
    · exact ⟨_, _, Or.inr h⟩
    · exact ⟨_, _, Or.inr h⟩
  rcases hx with hx | hx | hx | hx | hx | hx | hx | hx | ⟨y, hx | hx⟩ | ⟨y, hx | hx⟩ | ⟨y, z, hx | ⟨s, hx⟩ | ⟨s, hx⟩⟩
  · rcases (A.subjs _ _).mp hx with ⟨verb, node, ref, _, h1, h2, h3, _⟩ | ⟨verb, p, subj, _, h1, _, _, _, _, h2, h3, _⟩
    · refine grp ?_ h3
      rcases h2 with h2 | ⟨_, h2⟩ | ⟨_, _, rfl⟩
      · exact dn h2.2.2.1
      · obtain ⟨_, p, _, _, h4⟩ := h2; exact first h4
      · exact up h1
    · exact grp (first h2) h3
  · rcases (A.objs _ _).mp hx with ⟨verb, node, ref, _, h1, h2, h3, _⟩ | ⟨verb, p, subj, _, h1, _, _, _, _, _, h3, _⟩
    · refine grp ?_ h3
      rcases h2 with h2 | ⟨_, h2⟩ | ⟨_, _, rfl⟩
      · exact dn h2.2.2.1
      · exact first h2.2
      · exact up h1
    · exact grp (dn h1) h3
  · obtain ⟨n, _, h1, h2⟩ := (A.iobjs _ _).mp hx; exact grp (up h1) h2
  · obtain ⟨n, _, h1, h2⟩ := (A.exist _ _).mp hx; exact grp (up h1) h2
  · obtain ⟨n, _, h1, h2⟩ := (A.props _ _).mp hx; exact grp (up h1) h2
  · obtain ⟨n, _, h1, h2⟩ := (A.iprops _ _).mp hx; exact grp (up h1) h2
  · rcases (A.adjs _ _).mp hx with ⟨n, _, h1, _, _, h2⟩ | ⟨p, _, h1, _, _, _, h2⟩
    · exact grp (up h1) h2
    · exact grp (dn h1) h2
  · obtain ⟨n, m, _, h1, _, _, _, h2⟩ := (A.agents _ _).mp hx; exact grp (up h1) h2
  · obtain ⟨n, s, ref, _, h1, _⟩ := (A.copulas _ _ _).mp hx; exact dn h1
  · obtain ⟨n, s, ref, _, h1, _, _, _, h2, _⟩ := (A.copulas _ _ _).mp hx; exact grp (up h1) h2
  · obtain ⟨p, _, h1, _⟩ := (A.pps _ _ _).mp hx; exact up h1
  · obtain ⟨p, _, _, _, _, _, h1, _, h2⟩ := (A.pps _ _ _).mp hx; exact grp (first h1) h2
  · obtain ⟨n, o, _, _, _, h1, _⟩ := (A.svis _ _ _ _).mp hx; exact first (p := y) (l := .SUBJ) h1.symm
  · obtain ⟨n, o, _, h1, _⟩ := (A.svis _ _ _ _).mp hx; exact dn h1
  · obtain ⟨n, o, _, h1, _, _, _, h2⟩ := (A.svis _ _ _ _).mp hx; exact grp (up h1) h2

/-- "cats and dogs do not eat mice that squeak": 0 cats, 1 dogs, 2 not, 3 eat, 4 mice, 5 that, 6 squeak. -/
def catHeap : Heap :=
  let node (w : Str) (tag : Tag) : Node := { idx := 0, original := w, tag := tag, standard := w, lem := w, canon := w }
  { next := 7, node := fun r => match r with
    | 0 => node c!"cat" .NOUN | 1 => node c!"dog" .NOUN | 2 => node c!"not" .ADV | 3 => node c!"eat" .VERB
    | 4 => node c!"mouse" .NOUN | 5 => node c!"that" .PRON | 6 => node c!"squeak" .VERB | _ => default }

def catArcs : List (Dep × Ref × Ref) :=
  [(.AND, 0, 1), (.SUBJ, 3, 0), (.NEG, 3, 2), (.OBJ, 3, 4), (.SUBJ, 6, 5), (.CPL, 4, 6)]

example : (∀ r, NoArgs (catHeap.node r)) := by
  intro r
  match r with
  | 0 | 1 | 2 | 3 | 4 | 5 | 6 => constructor <;> rfl
  | n + 7 => constructor <;> rfl

/-- The hypotheses are met, and the verbs get their subjects, the second one through its relative pronoun. -/
example : ((buildTree 3 catArcs).toOption.bind fun t => (findArgs t [0, 1, 2, 3, 4, 5, 6] catHeap).toOption.map fun h' =>
    ((h'.node 3).subjs, (h'.node 3).objs, (h'.node 3).isAff, (h'.node 6).subjs)) =
    some ([0, 1], [4], false, [4]) := by
  decide +kernel

end Props
