import Verif.Lemmas.Nouns
import Verif.Spec.Wordings

/-! Words that no later step of the logic pipeline reads. -/

namespace Model
open Py Spec

/-- The same node, but for the text it comes from and, if `q`, for its word, which, if `m`, stays "by" or other. -/
def HushNode (q m : Prop) (n n' : Node) : Prop :=
  ∃ o s l w, n' = { n with original := o, standard := s, lem := l, canon := w } ∧
    (¬ q → s = n.standard ∧ l = n.lem ∧ w = n.canon) ∧ (m → (w = c!"by" ↔ n.canon = c!"by"))

theorem HushNode.refl (q m : Prop) (n : Node) : HushNode q m n n := ⟨_, _, _, _, rfl, fun _ => ⟨rfl, rfl, rfl⟩, fun _ => Iff.rfl⟩

theorem HushNode.of_not {q m : Prop} {n n' : Node} (h : HushNode q m n n') (hq : ¬ q) : ∃ o, n' = { n with original := o } := by
  obtain ⟨o, s, l, w, e, h1, -⟩ := h
  obtain ⟨rfl, rfl, rfl⟩ := h1 hq
  exact ⟨o, e⟩

theorem HushNode.original {q m : Prop} (n : Node) (o : Str) : HushNode q m n { n with original := o } :=
  ⟨o, _, _, _, rfl, fun _ => ⟨rfl, rfl, rfl⟩, fun _ => Iff.rfl⟩

theorem HushNode.map {q m : Prop} {n n' : Node} (E : HushNode q m n n') (f : Node → Node)
    (hf : ∀ o s l w, f { n with original := o, standard := s, lem := l, canon := w } =
      { f n with original := o, standard := s, lem := l, canon := w })
    (h1 : (f n).standard = n.standard) (h2 : (f n).lem = n.lem) (h4 : (f n).canon = n.canon) : HushNode q m (f n) (f n') := by
  obtain ⟨o, s, l, w, rfl, e1, e2⟩ := E
  refine ⟨o, s, l, w, hf o s l w, ?_, ?_⟩
  · rw [h1, h2, h4]; exact e1
  · rw [h4]; exact e2

/-- Corresponding nodes; `S` are those whose words are not read, `M` those that are compared with "by". -/
structure Hush (S M : Ref → Prop) (h h' : Heap) : Prop where
  next : h'.next = h.next
  node : ∀ r, HushNode (S r) (M r) (h.node r) (h'.node r)

section
variable {S M : Ref → Prop} {h h' : Heap}

theorem Hush.upd (E : Hush S M h h') (r : Ref) (f f' : Node → Node)
    (hf : HushNode (S r) (M r) (h.node r) (h'.node r) → HushNode (S r) (M r) (f (h.node r)) (f' (h'.node r))) :
    Hush S M (h.upd r f) (h'.upd r f') := by
  refine ⟨E.next, fun x => ?_⟩
  simp only [Heap.upd]
  by_cases hx : x = r
  · simp only [hx, if_true]
    exact hf (E.node r)
  · simp only [hx, if_false]
    exact E.node x

/-- A loop over read nodes that does not depend on the texts. -/
theorem Hush.loop (E : Hush S M h h') {F : Heap → Ref → Except PyErr Heap} {g : Node → Except PyErr Node}
    (hF : ∀ h r, F h r = (g (h.node r)).map fun n => h.upd r fun _ => n) (hg : ∀ n, ∃ n', g n = .ok n')
    (hc : ∀ n o n', g n = .ok n' → g { n with original := o } = .ok { n' with original := o })
    {nodes : List Ref} (hnd : nodes.Nodup) (hS : ∀ r ∈ nodes, ¬ S r) :
    ∃ k k', nodes.foldlM F h = .ok k ∧ nodes.foldlM F h' = .ok k' ∧ Hush S M k k' := by
  obtain ⟨k, e1, n1, s1⟩ := foldlM_upd F g hF nodes hnd h fun r _ => hg (h.node r)
  obtain ⟨k', e1', n1', s1'⟩ := foldlM_upd F g hF nodes hnd h' fun r _ => hg (h'.node r)
  refine ⟨k, k', e1, e1', by rw [n1, n1', E.next], fun r => ?_⟩
  by_cases hr : r ∈ nodes
  · have a := (s1 r).1 hr
    have a' := (s1' r).1 hr
    obtain ⟨o, e⟩ := (E.node r).of_not (hS r hr)
    rw [e, hc _ o _ a, Except.ok.injEq] at a'
    rw [← a']
    exact HushNode.original _ _
  · rw [(s1 r).2 hr, (s1' r).2 hr]
    exact E.node r

theorem normalized_original (c : Logic) (n : Node) (o : Str) (n' : Node) (e : c.normalized n = .ok n') :
    c.normalized { n with original := o } = .ok { n' with original := o } := by
  unfold Logic.normalized at e ⊢
  simp only [bind, Except.bind, pure, Except.pure] at e ⊢
  split at e
  · cases e
  split at e
  · cases e
  cases e
  rfl

theorem canonicalize_original (f : Str → Tag → Except PyErr LemmaSuffix) (n : Node) (o : Str) (n' : Node)
    (e : canonicalize f n = .ok n') : canonicalize f { n with original := o } = .ok { n' with original := o } := by
  have key : canonicalize f { n with original := o } = (canonicalize f n).map fun m => { m with original := o } := by
    unfold canonicalize
    simp only
    generalize (if n.tag = .PRON then Dict.get? objectToSubject n.lem else none) = g
    cases g with
    | some subj => rfl
    | none =>
      simp only
      generalize (if n.tag = .NOUN ∧ truthy n.chunk then n.chunk else none) = g
      cases g with
      | some chunk => rfl
      | none =>
        simp only
        by_cases h2 : n.tag = .ADJ
        · rw [if_pos h2, if_pos h2]
          simp only [bind, Except.bind]
          cases f n.standard .VERB with
          | error x => rfl
          | ok ls =>
            simp only [pure, Except.pure, Except.map]
            by_cases h3 : ls.2 = some .PAST
            · simp only [h3, if_true]; rfl
            · simp only [h3, if_false]; rfl
        rw [if_neg h2, if_neg h2]
        by_cases h3 : n.tag = .VERB
        · rw [if_pos h3, if_pos h3]; rfl
        rw [if_neg h3, if_neg h3]; rfl
  rw [key, e]
  rfl

section
variable (E : Hush S M h h')
include E

theorem Hush.tag (r : Ref) : (h'.node r).tag = (h.node r).tag := by obtain ⟨o, s, l, w, e, -⟩ := E.node r; rw [e]
theorem Hush.idx (r : Ref) : (h'.node r).idx = (h.node r).idx := by obtain ⟨o, s, l, w, e, -⟩ := E.node r; rw [e]
theorem Hush.suffix (r : Ref) : (h'.node r).suffix = (h.node r).suffix := by obtain ⟨o, s, l, w, e, -⟩ := E.node r; rw [e]
theorem Hush.cconjs (r : Ref) : (h'.node r).cconjs = (h.node r).cconjs := by
  obtain ⟨o, s, l, w, e, -⟩ := E.node r; rw [e]; rfl
theorem Hush.aggregs (r : Ref) : h'.aggreg r = h.aggreg r := by
  obtain ⟨o, s, l, w, e, -⟩ := E.node r; unfold Heap.aggreg; rw [e]
theorem Hush.particles (r : Ref) : (h'.node r).particles = (h.node r).particles := by
  obtain ⟨o, s, l, w, e, -⟩ := E.node r; rw [e]
theorem Hush.isInfTo (r : Ref) : (h'.node r).isInfTo = (h.node r).isInfTo := by
  obtain ⟨o, s, l, w, e, -⟩ := E.node r; rw [e]
theorem Hush.isAff (r : Ref) : (h'.node r).isAff = (h.node r).isAff := by
  obtain ⟨o, s, l, w, e, -⟩ := E.node r; rw [e]
theorem Hush.subjs (r : Ref) : (h'.node r).subjs = (h.node r).subjs := by
  obtain ⟨o, s, l, w, e, -⟩ := E.node r; rw [e]
theorem Hush.objs (r : Ref) : (h'.node r).objs = (h.node r).objs := by
  obtain ⟨o, s, l, w, e, -⟩ := E.node r; rw [e]
theorem Hush.iobjs (r : Ref) : (h'.node r).iobjs = (h.node r).iobjs := by
  obtain ⟨o, s, l, w, e, -⟩ := E.node r; rw [e]
theorem Hush.props (r : Ref) : (h'.node r).props = (h.node r).props := by
  obtain ⟨o, s, l, w, e, -⟩ := E.node r; rw [e]
theorem Hush.adjs (r : Ref) : (h'.node r).adjs = (h.node r).adjs := by
  obtain ⟨o, s, l, w, e, -⟩ := E.node r; rw [e]
theorem Hush.svis (r : Ref) : (h'.node r).subjsVerbsIprops = (h.node r).subjsVerbsIprops := by
  obtain ⟨o, s, l, w, e, -⟩ := E.node r; rw [e]
theorem Hush.copulasProps (r : Ref) : (h'.node r).copulasProps = (h.node r).copulasProps := by
  obtain ⟨o, s, l, w, e, -⟩ := E.node r; rw [e]
theorem Hush.ppsProps (r : Ref) : (h'.node r).ppsProps = (h.node r).ppsProps := by
  obtain ⟨o, s, l, w, e, -⟩ := E.node r; rw [e]
theorem Hush.agents (r : Ref) : (h'.node r).agents = (h.node r).agents := by
  obtain ⟨o, s, l, w, e, -⟩ := E.node r; rw [e]
theorem Hush.active (r : Ref) : (h'.node r).active = (h.node r).active := by
  obtain ⟨o, s, l, w, e, -⟩ := E.node r; simp only [Node.active]; rw [e]
theorem Hush.plain (r : Ref) : (h'.node r).cannotBeTransitive = (h.node r).cannotBeTransitive := by
  obtain ⟨o, s, l, w, e, -⟩ := E.node r; simp only [Node.cannotBeTransitive]; rw [e]
theorem Hush.by {r : Ref} (hr : M r) : (h'.node r).canon = c!"by" ↔ (h.node r).canon = c!"by" := by
  obtain ⟨o, s, l, w, e, -, e2⟩ := E.node r; rw [e]; exact e2 hr
theorem Hush.lem {r : Ref} (hr : ¬ S r) : (h'.node r).lem = (h.node r).lem := by
  obtain ⟨o, e⟩ := (E.node r).of_not hr; rw [e]
theorem Hush.canon {r : Ref} (hr : ¬ S r) : (h'.node r).canon = (h.node r).canon := by
  obtain ⟨o, e⟩ := (E.node r).of_not hr; rw [e]

end

/-! ### Tags and chunks -/

theorem Hush.fixAll (adjs nouns : List Str) (nt : Tree Dep Ref) : ∀ (l : List Ref), (∀ r ∈ l, ¬ S r) →
    ∀ {h h' : Heap}, Hush S M h h' → Hush S M (fixAll adjs nouns nt h l) (Model.fixAll adjs nouns nt h' l)
  | [], _, _, _, E => E
  | r :: l, hl, h, h', E => by
    unfold Model.fixAll
    rw [List.foldl_cons, List.foldl_cons]
    refine Hush.fixAll adjs nouns nt l (fun x hx => hl x (by simp [hx])) ?_
    have ft : fixTag adjs nouns h' nt r = fixTag adjs nouns h nt r := by
      unfold fixTag
      simp only [E.tag, E.lem (hl r (by simp))]
    unfold fixNode
    rw [ft]
    exact E.upd r _ _ fun hn => hn.map (fun n => { n with tag := fixTag adjs nouns h nt r }) (fun _ _ _ _ => rfl) rfl rfl rfl

theorem Hush.compounds (E : Hush S M h h') (nt : Tree Dep Ref) (nodes : List Ref) :
    compounds h' nt nodes = Model.compounds h nt nodes := by
  have e : compoundParent h' nt = compoundParent h nt := by
    funext r
    unfold compoundParent
    simp only [E.tag, E.idx]
  have e2 : compoundStep h' nt = compoundStep h nt := by
    funext acc r
    unfold compoundStep
    rw [e]
  unfold Model.compounds
  simp only [e2, E.tag]

theorem Hush.chunkOf (E : Hush S M h h') {cn : Dict Ref (List Ref)} {nodes : List Ref} (hS : ∀ r ∈ nodes, ¬ S r)
    (hcn : ∀ a, ∀ b ∈ (cn.get? a).getD [], b ∈ nodes) {r : Ref} (hr : r ∈ nodes) :
    chunkOf h' cn r = Model.chunkOf h cn r := by
  unfold Model.chunkOf
  cases hx : chunkRec cn (cn.keys.length + 1) r with
  | none => rfl
  | some l =>
    simp only [E.idx]
    have : ∀ x ∈ ((r :: l).insertionSort fun a b => (h.node a).idx ≤ (h.node b).idx), (h'.node x).lem = (h.node x).lem := by
      intro x hm
      rw [List.mem_insertionSort, List.mem_cons] at hm
      refine E.lem (hS x ?_)
      rcases hm with rfl | hm
      · exact hr
      · obtain ⟨y, -, hy⟩ := Relation.TransGen.tail'_iff.mp ((chunkRec_mem cn _ r l hx x).mp hm)
        exact hcn y x hy
    rw [List.map_congr_left this]

theorem Hush.chunker (E : Hush S M h h') (nt : Tree Dep Ref) {nodes : List Ref} (hS : ∀ r ∈ nodes, ¬ S r) {k k' : Heap}
    (e : chunker h nt nodes = .ok k) (e' : Model.chunker h' nt nodes = .ok k') : Hush S M k k' := by
  unfold Model.chunker at e e'
  simp only [E.compounds] at e e'
  have hcn : ∀ a, ∀ b ∈ ((Model.compounds h nt nodes).1.get? a).getD [], b ∈ nodes := by
    intro a b hb
    obtain ⟨s1, -⟩ := compounds_spec (h := h) (t := nt) (nodes := nodes)
    rw [s1] at hb
    exact (List.mem_filter.mp (List.mem_filter.mp hb).1).1
  have hne : ∀ r ∈ nodes.filter fun r => (Model.compounds h nt nodes).1.has r ∧ r ∉ (Model.compounds h nt nodes).2, r ∈ nodes :=
    fun r hr => (List.mem_filter.mp hr).1
  revert e e' hne hcn
  generalize nodes.filter (fun r => (Model.compounds h nt nodes).1.has r ∧ r ∉ (Model.compounds h nt nodes).2) = l
  generalize (Model.compounds h nt nodes).1 = cn
  intro e e' hcn hne
  induction l generalizing h h' with
  | nil =>
    simp only [List.foldlM_nil, pure, Except.pure, Except.ok.injEq] at e e'
    subst e e'
    exact E
  | cons r l ih =>
    rw [List.foldlM_cons] at e e'
    have hc := E.chunkOf hS hcn (hne r (by simp))
    cases h1 : Model.chunkOf h cn r with
    | error x => simp [h1, bind, Except.bind] at e
    | ok a =>
      rw [h1] at hc
      simp only [h1, bind, Except.bind, pure, Except.pure] at e
      simp only [hc, bind, Except.bind, pure, Except.pure] at e'
      exact ih (E.upd r _ _ fun hn => hn.map (fun n => { n with chunk := some a }) (fun _ _ _ _ => rfl) rfl rfl rfl) e e'
        fun x hx => hne x (by simp [hx])

/-! ### Finding arguments -/

theorem Hush.applyEv (E : Hush S M h h') (e : Ev) : Hush S M (applyEv h e) (Model.applyEv h' e) := by
  unfold Model.applyEv
  refine E.upd _ _ _ fun hn => ?_
  cases e <;> exact hn.map _ (fun _ _ _ _ => rfl) rfl rfl rfl

theorem Hush.applyEvs (es : List Ev) : ∀ {h h' : Heap}, Hush S M h h' → Hush S M (applyEvs h es) (Model.applyEvs h' es) := by
  induction es with
  | nil => exact fun E => E
  | cons e es ih => exact fun E => ih (E.applyEv e)

theorem Hush.aggreg (t : Tree Dep Ref) (nodes : List Ref) : ∀ {h h' : Heap}, Hush S M h h' →
    Hush S M (nodes.foldl (aggregStep t) h) (nodes.foldl (aggregStep t) h') := by
  induction nodes with
  | nil => exact fun E => E
  | cons r l ih =>
    intro h h' E
    rw [List.foldl_cons, List.foldl_cons]
    refine ih (E.upd r _ _ fun hn => hn.map
      (fun n => { n with andCconjs := t.childrenVia r .AND, orCconjs := t.childrenVia r .OR }) (fun _ _ _ _ => rfl) rfl rfl rfl)

section
variable (E : Hush S M h h')
include E

theorem Hush.rel (t : Tree Dep Ref) (v : Ref) {n : Ref} (hn : ¬ S n) :
    resolveRelativePron t h' v n = resolveRelativePron t h v n := by
  unfold resolveRelativePron
  simp only [E.tag, E.canon hn]

theorem Hush.evs (t : Tree Dep Ref) (naked marked : List Ref) {r : Ref} (hr : ¬ S r)
    (hs : ∀ p x, (t.childrenVia p .SUBJ).head? = some x → ¬ S x)
    (hm : ∀ p x, (t.childrenVia p .MARK).head? = some x → M x) :
    directEvs t h' r = directEvs t h r ∧ longEvs t h' naked marked r = longEvs t h naked marked r := by
  have hS : subjEvs t h' = subjEvs t h := by
    funext v s; unfold subjEvs; simp only [E.cconjs, E.aggregs]
  have hO : objEvs t h' = objEvs t h := by
    funext v s; unfold objEvs; simp only [E.cconjs, E.aggregs]
  have hC : copEvs t h' = copEvs t h := by
    funext s q p; unfold copEvs; simp only [E.aggregs]
  have hI : ipropEvs t h' = ipropEvs t h := by
    funext v p; unfold ipropEvs; simp only [E.aggregs]
  have hA : ∀ d q m, M m → agentEvs t h' d q m = agentEvs t h d q m := by
    intro d q m hm; unfold agentEvs; simp only [E.aggregs, E.by hm]
  have hSr : ∀ v, subjRef t h' v r = subjRef t h v r := by
    intro v; unfold subjRef
    simp only [E.rel t _ hr, E.tag, E.canon hr]
  have hOr : ∀ v, objRef t h' v r = objRef t h v r := by
    intro v; unfold objRef
    simp only [E.rel t _ hr, E.canon hr]
  have hP : parentEvs t h' r = parentEvs t h r := by
    unfold parentEvs
    simp only [hS, hO, hC, hI, hSr, hOr, E.aggregs]
    cases hp : t.parent r with
    | none => rfl
    | some q =>
      obtain ⟨d, p⟩ := q
      cases d <;> try rfl
      simp only
      cases hc : (t.childrenVia p .SUBJ).head? with
      | none => rfl
      | some x => simp only [E.rel t _ (hs p x hc)]
  have hK : nakedEvs t h' = nakedEvs t h := by
    funext n p; unfold nakedEvs
    simp only [E.tag, E.aggregs, E.suffix]
  have hX : cplEvs t h' = cplEvs t h := by
    funext n; unfold cplEvs
    simp only [hK, E.tag, E.aggregs]
    cases hc : (t.childrenVia n .MARK).head? with
    | none => rfl
    | some x => simp only [hA _ _ x (hm n x hc)]
  constructor
  · unfold directEvs
    rw [hP, hX]
  · unfold longEvs
    cases hp : t.parent r with
    | none => rfl
    | some q =>
      obtain ⟨d, p⟩ := q
      simp only [E.tag, hS, hO]
      cases hc : (t.childrenVia r .SUBJ).head? with
      | none => rfl
      | some x => simp only [E.canon (hs r x hc)]

theorem Hush.findArgs {t : Tree Dep Ref} {root : Ref} {hist : List (Dep × Ref × Ref)} (hb : buildTree root hist = .ok t)
    {nodes : List Ref} (hn : ∀ r ∈ nodes, ¬ S r) (hs : ∀ p x, (t.childrenVia p .SUBJ).head? = some x → ¬ S x)
    (hm : ∀ p x, (t.childrenVia p .MARK).head? = some x → M x) :
    ∃ g g', findArgs t nodes h = .ok g ∧ Model.findArgs t nodes h' = .ok g' ∧ Hush S M g g' := by
  refine ⟨_, _, findArgs_eq hb nodes h, findArgs_eq hb nodes h', ?_⟩
  have E₀ := E.aggreg t nodes
  have congr : ∀ {f g : Ref → List Ev}, (∀ r ∈ nodes, f r = g r) → nodes.flatMap f = nodes.flatMap g := by
    intro f g hfg
    rw [List.flatMap_def, List.flatMap_def, List.map_congr_left hfg]
  rw [congr fun r hr => (E₀.evs t [] [] (hn r hr) hs hm).1, congr fun r hr => (E₀.evs t _ _ (hn r hr) hs hm).2]
  exact E₀.applyEvs _

end

/-! ### Tuples -/

/-- All nodes that take part in tuples are read. -/
structure Heard (S : Ref → Prop) (h : Heap) : Prop where
  subjs : ∀ n, ∀ x ∈ (h.node n).subjs, ¬ S x
  objs : ∀ n, ∀ x ∈ (h.node n).objs, ¬ S x
  iobjs : ∀ n, ∀ x ∈ (h.node n).iobjs, ¬ S x
  props : ∀ n, ∀ x ∈ (h.node n).props, ¬ S x
  adjs : ∀ n, ∀ x ∈ (h.node n).adjs, ¬ S x
  agents : ∀ n, ∀ x ∈ (h.node n).agents, ¬ S x
  cop : ∀ n, ∀ x ∈ (h.node n).copulasProps, ¬ S x.1 ∧ ¬ S x.2
  pps : ∀ n, ∀ x ∈ (h.node n).ppsProps, ¬ S x.1 ∧ ¬ S x.2
  svi : ∀ n, ∀ x ∈ (h.node n).subjsVerbsIprops, ¬ S x.2.1 ∧ ¬ S x.2.2

/-- Results that correspond argument by argument are the same. -/
theorem TupSim.eq {m m' : Except PyErr (List STuple)} (s : TupSim Eq m m') : m' = m := by
  obtain ⟨ts, ts', rfl, rfl, h⟩ := s
  have inner : ∀ {a b : STuple}, List.Forall₂ Eq a.args b.args → b = a := by
    rintro ⟨a⟩ ⟨b⟩ h
    rw [List.forall₂_eq_eq_eq] at h
    simp only at h
    rw [h]
  congr 1
  induction h with
  | nil => rfl
  | cons h _ ih => rw [ih, inner h]

section
variable (E : Hush S M h h') (A : Heard S h) (pp : Str → Str)
include E

theorem Hush.nArg {r : Ref} (hr : ¬ S r) : nArg h r = Model.nArg h' r := by
  unfold Model.nArg nounArgCode
  simp only [E.canon hr, E.tag]
theorem Hush.pArg {r : Ref} (hr : ¬ S r) : pArg h r = Model.pArg h' r := by
  unfold Model.pArg propArgCode adjArgCode nounArgCode
  simp only [E.canon hr, E.active, E.tag]
theorem Hush.aArg {r : Ref} (hr : ¬ S r) : aArg h r = Model.aArg h' r := by
  unfold Model.aArg adjArgCode
  simp only [E.canon hr, E.active]
theorem Hush.nominals (l : List Ref) : nominals h' l = Model.nominals h l := by
  unfold Model.nominals; simp only [E.tag]
theorem Hush.subjs2 (s o : Ref) : subjs2 h' s o = Model.subjs2 h s o := by
  unfold Model.subjs2; simp only [E.subjs, E.nominals]
theorem Hush.verbObjs (v : Ref) : verbObjs h' v = Model.verbObjs h v := by
  unfold Model.verbObjs; simp only [E.objs, E.tag]
theorem Hush.headVerb (r : Ref) : headVerb h' r = Model.headVerb h r := by
  unfold Model.headVerb; simp only [E.tag, E.isInfTo, E.plain]
theorem Hush.blockedBy (r : Ref) : blockedBy h' r = Model.blockedBy h r := by
  unfold Model.blockedBy; simp only [E.subjs, E.nominals, E.verbObjs]
theorem Hush.participle {v : Ref} (hv : ¬ S v) : ppWithParticles pp h' v = ppWithParticles pp h v := by
  unfold ppWithParticles; simp only [E.particles, E.lem hv]

include A

local notation "Sim" => TupSim Eq

theorem Hush.clauseTuples {v s o s' : Ref} (hv : ¬ S v) (hs : ¬ S s) (ho : ¬ S o) (hs' : ¬ S s') :
    Sim (clauseTuples h v s o s') (Model.clauseTuples h' v s o s') := by
  unfold Model.clauseTuples
  simp only [nounArg_ok, xnor_affirmed, newT, newI, newC, propArg_ok, bind_ok, pure_bind, bind_assoc]
  simp only [E.canon hv, E.canon ho, E.plain, E.objs, E.props, E.nominals, E.isAff]
  refine TupSim.append (TupSim.ite (fun _ => TupSim.append (TupSim.ite (fun _ => TupSim.one ?_) TupSim.none)
    (TupSim.collect fun x hx => TupSim.one ?_)) TupSim.none) (TupSim.collect fun x hx => TupSim.one ?_)
  · exact .cons (E.nArg hs) (.cons rfl (.cons (E.nArg hs') (.cons rfl .nil)))
  · exact .cons (E.nArg hs) (.cons rfl (.cons (E.nArg hs') (.cons rfl (.cons (E.nArg (A.objs o x (List.mem_filter.mp hx).1)) .nil))))
  · exact .cons (E.nArg hs) (.cons rfl (.cons (E.nArg hs') (.cons rfl (.cons (E.pArg (A.props o x hx)) .nil))))

theorem Hush.fromVerbsSubjsObjs {v : Ref} (hv : ¬ S v) :
    Sim (fromVerbsSubjsObjs h v) (Model.fromVerbsSubjsObjs h' v) := by
  unfold Model.fromVerbsSubjsObjs
  simp only [nounArg_ok, bind_ok, E.subjs, E.nominals, E.subjs2, E.verbObjs]
  refine TupSim.collect fun s hs => TupSim.collect fun o ho => TupSim.collect fun s' hs' => ?_
  have h1 := A.subjs v s (List.mem_filter.mp hs).1
  refine E.clauseTuples A hv h1 (A.objs v o (List.mem_filter.mp ho).1) ?_
  unfold Model.subjs2 at hs'
  split at hs'
  · rw [List.mem_singleton.mp hs']; exact h1
  · exact A.subjs o s' (List.mem_filter.mp hs').1

theorem Hush.fromSubjsObjs {v : Ref} (hv : ¬ S v) :
    Sim (fromSubjsObjs h v) (Model.fromSubjsObjs h' v) := by
  unfold Model.fromSubjsObjs
  simp only [nounArg_ok, xnor_affirmed, newT, newI, bind_ok, E.canon hv, E.objs, E.subjs, E.nominals, E.isAff]
  refine TupSim.append (TupSim.ite (fun _ => TupSim.collect fun x hx => TupSim.one ?_) TupSim.none)
    (TupSim.collect fun x hx => TupSim.collect fun y hy => TupSim.one ?_)
  · exact .cons (E.nArg (A.subjs v x (List.mem_filter.mp hx).1)) (.cons rfl .nil)
  · exact .cons (E.nArg (A.subjs v y (List.mem_filter.mp hy).1)) (.cons rfl
      (.cons (E.nArg (A.objs v x (List.mem_filter.mp hx).1)) .nil))

theorem Hush.fromIobj {v : Ref} (hv : ¬ S v) : Sim (fromIobj h v) (Model.fromIobj h' v) := by
  unfold Model.fromIobj
  simp only [nounArg_ok, xnor_affirmed, newR, bind_ok, E.canon hv, E.iobjs, E.subjs, E.nominals, E.isAff]
  refine TupSim.collect fun x hx => TupSim.collect fun y hy => TupSim.one ?_
  exact .cons (E.nArg (A.subjs v y (List.mem_filter.mp hy).1)) (.cons rfl
    (.cons (E.nArg (A.iobjs v x (List.mem_filter.mp hx).1)) .nil))

theorem Hush.fromObjs {v : Ref} (hv : ¬ S v) : Sim (fromObjs pp h v) (Model.fromObjs pp h' v) := by
  unfold Model.fromObjs
  simp only [nounArg_ok, E.canon hv, E.objs, E.subjs, E.nominals, E.isAff, E.participle pp hv, newC, newL, bind_ok]
  refine TupSim.ite (fun _ => TupSim.collect fun x hx => ?_) TupSim.none
  have h1 := E.nArg (A.objs v x (List.mem_filter.mp hx).1)
  split
  · simp only [xnor_affirmed, bind_ok]
    exact TupSim.one (.cons h1 (.cons rfl (.cons rfl .nil)))
  · simp only [xnor_affirmed, bind_ok]
    exact TupSim.one (.cons h1 (.cons rfl (.cons rfl .nil)))

theorem Hush.activeForms {n : Ref} (hn : ¬ S n) (p : Ref) :
    Sim (activeForms h n p (Model.nArg h n)) (Model.activeForms h' n p (Model.nArg h' n)) := by
  unfold Model.activeForms
  rw [E.active]
  cases (h.node p).active with
  | none => exact TupSim.none
  | some w =>
    simp only [nounArg_ok, xnor_affirmed, newT, bind_ok, E.agents, E.nominals, E.isAff]
    exact TupSim.collect fun x hx => TupSim.one (.cons (E.nArg (A.agents p x (List.mem_filter.mp hx).1)) (.cons rfl (.cons (E.nArg hn) .nil)))

theorem Hush.fromNakedAdjs {n : Ref} (hn : ¬ S n) : Sim (fromNakedAdjs h n) (Model.fromNakedAdjs h' n) := by
  unfold Model.fromNakedAdjs
  simp only [nounArg_ok, xnor_affirmed, newC, adjArg_ok, bind_ok, E.adjs, E.isAff]
  exact TupSim.collect fun x hx => TupSim.cons (.cons (E.nArg hn) (.cons rfl (.cons (E.aArg (A.adjs n x hx)) .nil)))
    (E.activeForms A hn x)

theorem Hush.fromPpProps {n : Ref} (hn : ¬ S n) : Sim (fromPpProps h n) (Model.fromPpProps h' n) := by
  unfold Model.fromPpProps
  simp only [nounArg_ok, xnor_affirmed, newC, propArg_ok, bind_ok, join_be]
  simp only [E.ppsProps, E.tag, E.isAff]
  refine TupSim.collect fun x hx => TupSim.one ?_
  obtain ⟨h1, h2⟩ := A.pps n x (List.mem_filter.mp hx).1
  rw [E.canon h1]
  exact .cons (E.nArg hn) (.cons rfl (.cons (E.pArg h2) .nil))

theorem Hush.fromCopulaProps {n : Ref} (hn : ¬ S n) : Sim (fromCopulaProps h n) (Model.fromCopulaProps h' n) := by
  unfold Model.fromCopulaProps
  simp only [nounArg_ok, xnor_affirmed, newC, propArg_ok, bind_ok]
  simp only [E.copulasProps, E.tag, E.isAff]
  refine TupSim.collect fun x hx => TupSim.cons ?_ (TupSim.ite (fun _ => E.activeForms A hn x.2) TupSim.none)
  obtain ⟨h1, h2⟩ := A.cop n x (List.mem_filter.mp hx).1
  rw [E.canon h1]
  exact .cons (E.nArg hn) (.cons rfl (.cons (E.pArg h2) .nil))

theorem Hush.fromIprops {n : Ref} (hn : ¬ S n) : Sim (fromIprops pp h n) (Model.fromIprops pp h' n) := by
  unfold Model.fromIprops
  simp only [nounArg_ok, ipropAff_eq, newC, propArg_ok, bind_ok, join_be]
  simp only [E.svis, E.tag, E.isAff]
  refine TupSim.collect fun x hx => TupSim.one ?_
  obtain ⟨h1, h2⟩ := A.svi n x (List.mem_filter.mp hx).1
  rw [E.participle pp h1]
  exact .cons (E.nArg hn) (.cons rfl (.cons (E.pArg h2) .nil))

/-- The tuples are the same. -/
theorem Hush.extractTuples {nodes : List Ref} (hn : ∀ r ∈ nodes, ¬ S r) :
    extractTuples pp h' nodes = Model.extractTuples pp h nodes := by
  refine TupSim.eq ?_
  unfold Model.extractTuples
  simp only [E.headVerb]
  have hb : Model.blockedBy h' = Model.blockedBy h := by funext r; exact E.blockedBy r
  rw [hb]
  refine TupSim.append3 (TupSim.collect fun n hx => TupSim.ite (fun _ => E.fromVerbsSubjsObjs A (hn n hx)) TupSim.none)
    (TupSim.collect fun n hx => ?_) (TupSim.collect fun n hx => ?_)
  · have h1 := hn n (List.mem_filter.mp hx).1
    unfold secondRound
    rw [E.headVerb, E.tag]
    exact TupSim.ite (fun _ => TupSim.append (E.fromSubjsObjs A h1) (E.fromIobj A h1))
      (TupSim.ite (fun _ => TupSim.append4 (E.fromIprops A pp h1)
        (E.fromCopulaProps A h1) (E.fromPpProps A h1) (E.fromNakedAdjs A h1)) TupSim.none)
  · unfold thirdRound
    rw [E.tag, E.plain]
    exact TupSim.ite (fun _ => E.fromObjs A pp (hn n hx)) TupSim.none

end
end

/-! ### The whole process -/

theorem process_reworded {c : Logic} (hc : LogicOk c) {t : Tree Dep Nat} {tokens tokens' : List Str} {tags : List Tag} {arcs : List Arc}
    (H : IdxTree t tokens.length arcs) (hl : tags.length = tokens.length) (hrp : ∀ a ∈ arcs, a.2.2 ≠ t.root)
    (hrc : ∃ a ∈ arcs, a.2.1 = t.root)
    (hlab : ∀ {w p p' : Nat} {d d' : Dep}, (d, w) ∈ t.children p → (d', w) ∈ t.children p' → d = d')
    (R : Reworded c.lower t tokens tokens') (ck : Bool) :
    ∃ st st' ts, c.process (tokens, tags, some t, ck) = .ok (st, ts) ∧ c.process (tokens', tags, some t, ck) = .ok (st', ts) := by
  have hmem : ∀ {d i p}, (d, i) ∈ t.children p ↔ (d, p, i) ∈ arcs := by
    intro d i p
    rw [H.inv.mem_children]
  have W : Swapped c.lower t tokens tokens' := by
    refine ⟨R.length, ?_, ?_⟩
    · intro i hi
      refine getElem?_eq_of R.length (fun i w w' a b c => R.flat i w w' a b c) ?_
      rintro ⟨h1, h2⟩
      rcases hi with ⟨p, h⟩ | ⟨j, h⟩
      · exact h1 p h
      · exact h2 j h
    · rintro i ⟨p, hp⟩
      by_cases hlt : i < tokens.length
      · have hlt' : i < tokens'.length := by rw [R.length]; exact hlt
        have e1 := List.getElem?_eq_getElem hlt
        have e2 := List.getElem?_eq_getElem hlt'
        rw [e1, e2, Option.map_some, Option.map_some]
        by_cases hne : tokens[i] = tokens'[i]
        · rw [hne]
        · rcases R.word i _ _ e1 e2 hne with h | h | ⟨l, hl, ⟨q, hq, -⟩, -⟩ | ⟨⟨⟨q, hq, -⟩, -⟩, -⟩
          · rw [h]
          · exact absurd hp (h _ _).2
          · rw [hlab hq hp] at hl
            exact absurd hl (by decide)
          · cases hlab hq hp
      · have hlt' : ¬ i < tokens'.length := by rw [R.length]; exact hlt
        rw [List.getElem?_eq_none (Nat.le_of_not_lt hlt), List.getElem?_eq_none (Nat.le_of_not_lt hlt')]
  obtain ⟨s, s', nt, dict, e, e', inv, hb, hnd, hx, hall, hbl, hd, hs⟩ := nodify_swapped H hl hrp hrc W
  obtain ⟨h₁, h₂, h₃, h₄, h₅, ts, g1, s1, s2, sc, s3, s4, ⟨s5, -⟩, s6⟩ := Logic.process_some hc e hb hnd ck
  have ninv := buildTree_inv hb
  have harc : ∀ {d r r'}, (d, r') ∈ nt.children r ↔ ∃ k k', (k, r) ∈ s.dict ∧ (k', r') ∈ s.dict ∧ (d, k') ∈ t.children k := by
    intro d r r'
    rw [ninv.mem_children, mem_nodeArcs inv.wf]
  have parMem : ∀ {d r r'}, nt.parent r' = some (d, r) → (d, r') ∈ nt.children r := by
    intro d r r' hpar
    rw [ninv.parent] at hpar
    rw [ninv.mem_children]
    exact lastParent_mem hpar
  have nodeLabel : ∀ {d d' r r' x}, (d, x) ∈ nt.children r → (d', x) ∈ nt.children r' → d = d' := by
    intro d d' r r' x a b
    obtain ⟨_, k, -, k1, k2⟩ := harc.mp a
    obtain ⟨_, k', -, k3, k4⟩ := harc.mp b
    have := inv.key_unique k1 k3
    subst this
    exact hlab k2 k4
  have listed : ∀ {d r x}, (d, x) ∈ nt.children r → d ∉ functionalDeps → x ∈ Dict.values dict := by
    intro d r x hx hf
    obtain ⟨_, k, -, k1, -⟩ := harc.mp hx
    refine mem_values ((hd _ x).mpr ⟨⟨_, k1⟩, rfl, ?_⟩)
    rw [Bool.eq_false_iff]
    intro hf'
    unfold Tree.hasParentViaSet at hf'
    split at hf'
    · rename_i q hq
      have hq' : nt.parent x = some (q.1, q.2) := hq
      have := nodeLabel (parMem hq') hx
      exact hf (this ▸ (of_decide_eq_true hf' : q.1 ∈ functionalDeps))
    · cases hf'
  set S : Ref → Prop := fun r => r ∉ dict.values ∧ ∀ l x, (l, x) ∈ nt.children r → l ∈ functionalDeps with hSdef
  have hS : ∀ r ∈ dict.values, ¬ S r := fun r hr h => h.1 hr
  have quiet : ∀ {l i r}, l ∈ functionalDeps → FunctionLeaf t l i → (i, r) ∈ s.dict → S r := by
    rintro l i r hf ⟨⟨p, hp, hm⟩, hch⟩ hir
    have hplt : p < tokens.length := (H.lt _ (hmem.mp hp)).1
    have hpk : ∃ rp, (p, rp) ∈ s.dict := by
      have : p ∈ s.dict.keys := by
        rcases hall p hplt with hbp | h
        · rcases inv.blOk p hbp with h | ⟨q, h⟩ | ⟨q, h⟩ | ⟨-, h⟩
          · exact absurd ⟨_, hmem.mp hp, Or.inl rfl⟩ h
          · exact absurd ⟨q, Or.inr (H.arc h)⟩ hm
          · exact absurd ⟨q, Or.inl (hmem.mpr h)⟩ hm
          · exact h
        · exact h
      obtain ⟨⟨k, rp⟩, hk, rfl⟩ := List.mem_map.mp this
      exact ⟨rp, hk⟩
    obtain ⟨rp, hpk⟩ := hpk
    have ha : (l, r) ∈ nt.children rp := harc.mpr ⟨p, i, hpk, hir, hp⟩
    refine ⟨?_, ?_⟩
    · intro hv
      obtain ⟨⟨k, r'⟩, hk, rfl⟩ := List.mem_map.mp hv
      obtain ⟨-, -, h3⟩ := (hd _ _).mp hk
      have hpar : ∃ d q, nt.parent r' = some (d, q) := by
        rw [ninv.parent]
        cases hlp : lastParent (nodeArcs t s.dict) r' with
        | some q => exact ⟨q.1, q.2, rfl⟩
        | none => exact absurd rfl (lastParent_eq_none.mp hlp _ ((ninv.mem_children _ _ _).mp ha))
      obtain ⟨d, q, hpar⟩ := hpar
      have := nodeLabel (parMem hpar) ha
      subst this
      unfold Tree.hasParentViaSet at h3
      rw [show nt.parents.get? r' = some (d, q) from hpar] at h3
      simp only [hf, decide_true] at h3
      cases h3
    · intro d x hdx
      obtain ⟨k, k', k1, -, k2⟩ := harc.mp hdx
      have := inv.key_unique k1 hir
      subst this
      exact hch d k' k2
  set M : Ref → Prop := fun r => ∃ p, (.MARK, r) ∈ nt.children p with hMdef
  have keep := nodify_keeps (fun n => n.lem = n.standard ∧ n.canon = n.standard) ⟨rfl, rfl⟩
      (fun _ _ _ => ⟨rfl, rfl⟩) (fun _ _ h => h) (fun _ h => h) e
  have E₀ : Hush S M s.heap s'.heap := by
    refine ⟨hx, fun r => ?_⟩
    rcases hs r with e | ⟨⟨w, w', g1, g2, g3, g4, g5, g6, e⟩, hm⟩
    · rw [e]; exact HushNode.refl _ _ _
    · obtain ⟨k1, k2⟩ := keep r
      refine ⟨w', c.lower w', c.lower w', c.lower w', e, ?_, ?_⟩
      · intro hq
        rcases R.word _ w w' g1 g2 g3 with h | h | ⟨l, hl, hf⟩ | ⟨hf, -⟩
        · rw [k1, k2, g5, h]; exact ⟨rfl, rfl, rfl⟩
        · exfalso
          rcases (inv.ent _ _ hm).kind with ⟨-, h1 | h1, -⟩ | ⟨-, -, -, -, up, texts, h1, -⟩
          · obtain ⟨⟨d, j⟩, hj⟩ := List.exists_mem_of_ne_nil _ h1
            exact (h d j).1 hj
          · refine h1 (hbl _ (List.getElem?_eq_some_iff.mp g1).1 ?_)
            rw [Bool.eq_false_iff, Ne, H.hasNode]
            rintro ⟨⟨d, a, b⟩, ha, rfl | rfl⟩
            · exact (h d b).1 (hmem.mpr ha)
            · exact (h d a).2 (hmem.mpr ha)
          · generalize hu : up ++ [(s.heap.node r).idx] = u at h1
            cases h1 with
            | stop _ => simp at hu
            | step h2 _ => exact (h _ _).2 (H.arc h2)
        · exact absurd (quiet (by revert hl; cases l <;> decide) hf hm) hq
        · exact absurd (quiet (by decide) hf hm) hq
      · rintro ⟨p, hp⟩
        obtain ⟨k, k', -, q1, q2⟩ := harc.mp hp
        have := inv.key_unique q1 hm
        subst this
        rw [k2, g5]
        rcases R.word _ w w' g1 g2 g3 with h | h | ⟨l, hl, ⟨q, hq, -⟩, -⟩ | ⟨-, h1, h2⟩
        · rw [h]
        · exact absurd q2 (h _ _).2
        · rw [hlab hq q2] at hl
          exact absurd hl (by decide)
        · exact ⟨fun h => absurd h h2, fun h => absurd h h1⟩
  have via : ∀ {p x d}, (nt.childrenVia p d).head? = some x → (d, x) ∈ nt.children p := by
    intro p x d hx
    have := List.mem_of_head? hx
    rw [← ninv.children_filter] at this
    simp only [List.mem_map, List.mem_filter, decide_eq_true_eq, Prod.exists] at this
    obtain ⟨a, b, ⟨k1, rfl⟩, rfl⟩ := this
    exact k1
  have child : ∀ {d r x}, (d, x) ∈ nt.children r → d ∉ functionalDeps → ¬ S r ∧ ¬ S x :=
    fun hx hf => ⟨fun h => hf (h.2 _ _ hx), hS _ (listed hx hf)⟩
  obtain ⟨k₁, k₁', e1, e1', E₁⟩ := E₀.loop c.normalizeNode_eq (fun n => by obtain ⟨s, l, x, -, -, h⟩ := hc.normalized n; exact ⟨_, h⟩)
    (normalized_original c) hnd hS
  have E₂ := E₁.fixAll c.lemmatizer.adjs c.nouns nt dict.values hS
  have T3 : ∃ k₃ k₃', (if ck then chunker (fixAll c.lemmatizer.adjs c.nouns nt k₁ dict.values) nt dict.values
        else .ok (fixAll c.lemmatizer.adjs c.nouns nt k₁ dict.values)) = .ok k₃ ∧
      (if ck then chunker (fixAll c.lemmatizer.adjs c.nouns nt k₁' dict.values) nt dict.values
        else .ok (fixAll c.lemmatizer.adjs c.nouns nt k₁' dict.values)) = .ok k₃' ∧ Hush S M k₃ k₃' := by
    cases ck with
    | false => exact ⟨_, _, rfl, rfl, E₂⟩
    | true =>
      obtain ⟨k₃, q, -⟩ := Props.C54_chunks (fixAll c.lemmatizer.adjs c.nouns nt k₁ dict.values) nt.root _ nt hb dict.values hnd
      obtain ⟨k₃', q', -⟩ := Props.C54_chunks (fixAll c.lemmatizer.adjs c.nouns nt k₁' dict.values) nt.root _ nt hb dict.values hnd
      exact ⟨k₃, k₃', q, q', E₂.chunker nt hS q q'⟩
  obtain ⟨k₃, k₃', e3, e3', E₃⟩ := T3
  obtain ⟨k₄, k₄', e4, e4', E₄⟩ := E₃.loop c.canonicalizeNode_eq hc.canonicalized (canonicalize_original _) hnd hS
  obtain ⟨g, g', e5, e5', E₅⟩ := E₄.findArgs hb hS (fun p x h => (child (via h) (by decide)).2) (fun p x h => ⟨p, via h⟩)
  obtain ⟨us, e6, -⟩ := Props.C57_extraction_exact c.pp g dict.values
  have hg := process_steps e e1 e3 e4 e5 e6
  rw [g1] at hg
  obtain ⟨hst, rfl⟩ := Prod.mk.inj (Except.ok.inj hg)
  obtain ⟨rfl, -⟩ := Prod.mk.inj hst
  have group : ∀ {x y}, Group nt dict.values x y → ¬ S x → ¬ S y := by
    rintro x y (rfl | ⟨-, h | h⟩) hx
    · exact hx
    · exact (child h (by decide)).2
    · exact (child h (by decide)).2
  have meant : ∀ {rel refl : Ref → Prop} {node ref}, Meant rel refl node ref → (∀ y, rel y → ¬ S y) → (∀ y, refl y → ¬ S y) →
      ¬ S node → ¬ S ref := by
    rintro rel refl node ref (h | ⟨-, h⟩ | ⟨-, -, rfl⟩) h1 h2 h3
    · exact h1 _ h
    · exact h2 _ h
    · exact h3
  have relR : ∀ {v n y}, RelReferent h₄ nt v n y → ¬ S y := fun h => (child (parMem h.2.2.1) (by decide)).1
  have att : ∀ {l r x}, AttachedBy nt dict.values l r x → ¬ S x := by
    rintro l r x ⟨node, hn, -, hg⟩
    exact group hg (hS _ hn)
  have A : Heard S h₅ := by
    refine ⟨?_, ?_, ?_, ?_, ?_, ?_, ?_, ?_, ?_⟩
    · intro n x hx
      rcases (s5.subjs n x).mp hx with ⟨verb, node, ref, n1, -, n3, n4, -⟩ | ⟨verb, p, subj, -, -, -, -, -, -, n7, n8, -⟩
      · refine group n4 (meant n3 (fun _ => relR) ?_ (hS _ n1))
        rintro y ⟨-, p, -, -, hf⟩
        exact (child (via hf) (by decide)).2
      · exact group n8 (child (via n7) (by decide)).2
    · intro n x hx
      rcases (s5.objs n x).mp hx with ⟨verb, node, ref, n1, -, n3, n4, -⟩ | ⟨verb, p, subj, -, n2, -, -, -, -, -, n8, -⟩
      · refine group n4 (meant n3 (fun _ => relR) ?_ (hS _ n1))
        rintro y ⟨-, hf⟩
        exact (child (via hf) (by decide)).2
      · exact group n8 (child (parMem n2) (by decide)).1
    · exact fun n x hx => att ((s5.iobjs n x).mp hx)
    · exact fun n x hx => att ((s5.props n x).mp hx)
    · intro n x hx
      rcases (s5.adjs n x).mp hx with ⟨node, n1, -, -, -, hg⟩ | ⟨p, -, n2, -, -, -, hg⟩
      · exact group hg (hS _ n1)
      · exact group hg (child (parMem n2) (by decide)).1
    · intro n x hx
      obtain ⟨node, m, n1, -, -, -, -, hg⟩ := (s5.agents n x).mp hx
      exact group hg (hS _ n1)
    · rintro n ⟨q, p⟩ hx
      obtain ⟨node, subj, ref, n1, n2, -, -, -, hg, -⟩ := (s5.copulas n q p).mp hx
      exact ⟨(child (parMem n2) (by decide)).1, group hg (hS _ n1)⟩
    · rintro n ⟨q, p⟩ hx
      obtain ⟨prop, n1, -, -, -, -, n6, -, hg⟩ := (s5.pps n q p).mp hx
      exact ⟨hS _ n1, group hg (child (via n6) (by decide)).2⟩
    · rintro n ⟨q, v, p⟩ hx
      obtain ⟨node, obj, n1, n2, -, -, -, hg⟩ := (s5.svis n q v p).mp hx
      exact ⟨(child (parMem n2) (by decide)).1, group hg (hS _ n1)⟩
  exact ⟨_, _, _, g1, process_steps e' e1' e3' e4' e5' ((E₅.extractTuples A c.pp hS).trans e6)⟩

end Model
