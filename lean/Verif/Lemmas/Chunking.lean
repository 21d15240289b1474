import Verif.Lemmas.Pipeline
import Verif.Spec.Chunking

/-! What chunking of compound nouns changes in the later steps of the pipeline. -/

namespace Model
open Py Spec

/-! ### Nodes after nodification -/

theorem put_keeps {P : Node → Prop} {s : Nodif} (h : ∀ r, P (s.heap.node r)) (k : Nat) {n : Node} (hn : P n) (r : Ref) :
    P ((s.put k n).heap.node r) := by
  simp only [Nodif.put, Heap.alloc]
  split
  · exact hn
  · exact h r

/-- What holds of new nodes and is kept by adding particles holds of all nodes after nodification. -/
theorem nodify_keeps (P : Node → Prop) {lower : Str → Str} {tokens : List Str} {tags : List Tag}
    {tree : Option (Tree Dep Nat)} {h : Heap} {d : Dict Nat Ref} {nt : Option (Tree Dep Ref)} (hd : P default)
    (hnew : ∀ i x tag, P (Node.new lower i x tag)) (hpart : ∀ n l, P n → P { n with particles := l })
    (hinf : ∀ n, P n → P { n with isInfTo := true })
    (e : nodify lower tokens tags tree = .ok (h, d, nt)) (r : Ref) : P (h.node r) := by
  have hempty : ∀ r, P (Heap.empty.node r) := fun _ => hd
  unfold nodify at e
  cases tree with
  | none => cases e; exact hempty r
  | some t =>
    simp only at e
    split at e
    · simp only [bind, Except.bind] at e
      split at e
      · cases e
      · split at e
        · cases e
        · cases e
          have := put_keeps (P := P) (s := { heap := Heap.empty, dict := [], bl := [] }) hempty 0
            (hnew t.root (by assumption) (by assumption)) r
          exact this
    · have h0 : ∀ r, P (({ heap := Heap.empty, dict := [], bl := nodepIdxs tokens t } : Nodif).heap.node r) := hempty
      simp only [bind, Except.bind] at e
      split at e
      · cases e
      rename_i s₁ e1
      split at e
      · cases e
      rename_i s₂ e2
      split at e
      · cases e
      rename_i s₃ e3
      split at e
      · cases e
      split at e
      · cases e
      cases e
      have g1 := foldlM_keeps (fun s : Nodif => ∀ r, P (s.heap.node r)) (flattenStep lower tokens tags t) (by
        intro s a s' hs e
        unfold flattenStep at e
        split at e
        · split at e
          · cases e; exact hs
          · split at e
            · simp only [bind, Except.bind] at e
              split at e
              · cases e
              split at e
              · cases e
              split at e
              · cases e
              split at e
              · cases e
              cases e
              exact put_keeps hs 0 (hnew ..)
            · cases e; exact hs
        · cases e; exact hs) _ _ _ h0 e1
      have g2 := foldlM_keeps (fun s : Nodif => ∀ r, P (s.heap.node r)) (particleStep lower tokens tags t) (by
        intro s a s' hs e
        unfold particleStep at e
        simp only at e
        split at e
        · cases e; exact hs
        · simp only [bind, Except.bind] at e
          split at e
          · cases e
          split at e
          · cases e
          rename_i n en
          cases e
          refine put_keeps hs 0 ?_
          refine foldlM_keeps P (addParticle lower tokens a.2) ?_ _ _ _ (hnew ..) en
          intro n i n' hn e
          unfold addParticle at e
          simp only [bind, Except.bind] at e
          split at e
          · cases e
          split at e
          · cases e; exact hpart _ _ hn
          · split at e
            · cases e; exact hinf _ hn
            · cases e; exact hn) _ _ _ g1 e2
      exact foldlM_keeps (fun s : Nodif => ∀ r, P (s.heap.node r)) (remainingStep lower tags) (by
        intro s a s' hs e
        unfold remainingStep at e
        split at e
        · simp only [bind, Except.bind] at e
          split at e
          · cases e
          cases e
          exact put_keeps hs 0 (hnew ..)
        · cases e; exact hs) _ _ _ g2 e3 r

/-! ### Two heaps that differ in the canonical forms of nouns -/

/-- Words that the argument finder looks for. -/
def soughtWords : List Str := c!"by" :: (relativePronouns ++ reflexivePronouns)

/-- `h'` is `h` with other chunks, and other canonical forms for some nouns; `Q` says which. -/
structure Grown (Q : Ref → Str → Prop) (h h' : Heap) : Prop where
  next : h'.next = h.next
  node : ∀ r, ∃ ch cn, h'.node r = { h.node r with chunk := ch, canon := cn } ∧
    (cn = (h.node r).canon ∨ (h.node r).tag = .NOUN ∧ (h.node r).activeVerb = none ∧
      (h.node r).canon = (h.node r).lem ∧ Q r cn ∧ cn ∉ soughtWords ∧ (h.node r).canon ∉ soughtWords)

section
variable {Q : Ref → Str → Prop} {h h' : Heap} (G : Grown Q h h')
include G

theorem Grown.tag (r : Ref) : (h'.node r).tag = (h.node r).tag := by obtain ⟨ch, cn, e, -⟩ := G.node r; rw [e]
theorem Grown.lem (r : Ref) : (h'.node r).lem = (h.node r).lem := by obtain ⟨ch, cn, e, -⟩ := G.node r; rw [e]
theorem Grown.suffix (r : Ref) : (h'.node r).suffix = (h.node r).suffix := by obtain ⟨ch, cn, e, -⟩ := G.node r; rw [e]
theorem Grown.aggreg (r : Ref) : h'.aggreg r = h.aggreg r := by
  obtain ⟨ch, cn, e, -⟩ := G.node r; simp only [Heap.aggreg]; rw [e]
theorem Grown.cconjs (r : Ref) : (h'.node r).cconjs = (h.node r).cconjs := by
  obtain ⟨ch, cn, e, -⟩ := G.node r; simp only [Node.cconjs]; rw [e]
theorem Grown.particles (r : Ref) : (h'.node r).particles = (h.node r).particles := by
  obtain ⟨ch, cn, e, -⟩ := G.node r; rw [e]
theorem Grown.isInfTo (r : Ref) : (h'.node r).isInfTo = (h.node r).isInfTo := by obtain ⟨ch, cn, e, -⟩ := G.node r; rw [e]
theorem Grown.isAff (r : Ref) : (h'.node r).isAff = (h.node r).isAff := by obtain ⟨ch, cn, e, -⟩ := G.node r; rw [e]
theorem Grown.subjs (r : Ref) : (h'.node r).subjs = (h.node r).subjs := by obtain ⟨ch, cn, e, -⟩ := G.node r; rw [e]
theorem Grown.objs (r : Ref) : (h'.node r).objs = (h.node r).objs := by obtain ⟨ch, cn, e, -⟩ := G.node r; rw [e]
theorem Grown.iobjs (r : Ref) : (h'.node r).iobjs = (h.node r).iobjs := by obtain ⟨ch, cn, e, -⟩ := G.node r; rw [e]
theorem Grown.props (r : Ref) : (h'.node r).props = (h.node r).props := by obtain ⟨ch, cn, e, -⟩ := G.node r; rw [e]
theorem Grown.adjs (r : Ref) : (h'.node r).adjs = (h.node r).adjs := by obtain ⟨ch, cn, e, -⟩ := G.node r; rw [e]
theorem Grown.svis (r : Ref) : (h'.node r).subjsVerbsIprops = (h.node r).subjsVerbsIprops := by
  obtain ⟨ch, cn, e, -⟩ := G.node r; rw [e]
theorem Grown.copulasProps (r : Ref) : (h'.node r).copulasProps = (h.node r).copulasProps := by
  obtain ⟨ch, cn, e, -⟩ := G.node r; rw [e]
theorem Grown.ppsProps (r : Ref) : (h'.node r).ppsProps = (h.node r).ppsProps := by
  obtain ⟨ch, cn, e, -⟩ := G.node r; rw [e]
theorem Grown.agents (r : Ref) : (h'.node r).agents = (h.node r).agents := by obtain ⟨ch, cn, e, -⟩ := G.node r; rw [e]
theorem Grown.active (r : Ref) : (h'.node r).active = (h.node r).active := by
  obtain ⟨ch, cn, e, -⟩ := G.node r; simp only [Node.active]; rw [e]
theorem Grown.plain (r : Ref) : (h'.node r).cannotBeTransitive = (h.node r).cannotBeTransitive := by
  obtain ⟨ch, cn, e, -⟩ := G.node r; simp only [Node.cannotBeTransitive]; rw [e]
theorem Grown.nounCode (r : Ref) : nounArgCode (h'.node r) = nounArgCode (h.node r) := by
  simp only [nounArgCode, G.tag]
theorem Grown.adjCode (r : Ref) : adjArgCode (h'.node r) = adjArgCode (h.node r) := by
  simp only [adjArgCode, G.active]
theorem Grown.propCode (r : Ref) : propArgCode (h'.node r) = propArgCode (h.node r) := by
  simp only [propArgCode, G.tag, G.adjCode, G.nounCode]

theorem Grown.canon_of_tag {r : Ref} (ht : (h.node r).tag ≠ .NOUN) : (h'.node r).canon = (h.node r).canon := by
  obtain ⟨ch, cn, e, rfl | ⟨h1, -⟩⟩ := G.node r
  · rw [e]
  · exact absurd h1 ht

/-- The sought words are found in the same nodes. -/
theorem Grown.sought (r : Ref) {l : List Str} (hl : l ⊆ soughtWords) : (h'.node r).canon ∈ l ↔ (h.node r).canon ∈ l := by
  obtain ⟨ch, cn, e, rfl | ⟨-, -, -, -, h1, h2⟩⟩ := G.node r
  · rw [e]
  · rw [e]
    exact ⟨fun h => absurd (hl h) h1, fun h => absurd (hl h) h2⟩

theorem Grown.by (r : Ref) : (h'.node r).canon = c!"by" ↔ (h.node r).canon = c!"by" := by
  have := G.sought r (l := [c!"by"]) (by decide)
  simpa using this

theorem Grown.relative (r : Ref) : (h'.node r).canon ∈ relativePronouns ↔ (h.node r).canon ∈ relativePronouns :=
  G.sought r (by decide)

theorem Grown.reflexive (r : Ref) : (h'.node r).canon ∈ reflexivePronouns ↔ (h.node r).canon ∈ reflexivePronouns :=
  G.sought r (by decide)

theorem Grown.upd (r : Ref) (f : Node → Node) (hf : ∀ n ch cn, f { n with chunk := ch, canon := cn } =
    { f n with chunk := ch, canon := cn } ∧ (f n).tag = n.tag ∧ (f n).activeVerb = n.activeVerb ∧ (f n).lem = n.lem ∧
      (f n).canon = n.canon) : Grown Q (h.upd r f) (h'.upd r f) := by
  refine ⟨G.next, fun x => ?_⟩
  obtain ⟨ch, cn, e, h1⟩ := G.node x
  by_cases hx : x = r
  · subst hx
    obtain ⟨f1, f2, f3, f4, f5⟩ := hf (h.node x) ch cn
    refine ⟨ch, cn, by simp only [Heap.upd, if_true]; rw [e, f1], ?_⟩
    simp only [Heap.upd, if_true, f2, f3, f4, f5]
    exact h1
  · refine ⟨ch, cn, by simp only [Heap.upd, if_neg hx]; exact e, ?_⟩
    simp only [Heap.upd, if_neg hx]
    exact h1

theorem Grown.applyEv (e : Ev) : Grown Q (applyEv h e) (applyEv h' e) :=
  G.upd _ _ fun n ch cn => by cases e <;> exact ⟨rfl, rfl, rfl, rfl, rfl⟩

theorem Grown.aggregStep (t : Tree Dep Ref) (r : Ref) : Grown Q (aggregStep t h r) (Model.aggregStep t h' r) :=
  G.upd _ _ fun n ch cn => ⟨rfl, rfl, rfl, rfl, rfl⟩

omit G in
theorem Grown.applyEvs (es : List Ev) : ∀ {h h' : Heap}, Grown Q h h' → Grown Q (applyEvs h es) (applyEvs h' es) := by
  induction es with
  | nil => exact fun G => G
  | cons e es ih => exact fun G => ih (G.applyEv e)

omit G in
theorem Grown.aggregs (t : Tree Dep Ref) (l : List Ref) : ∀ {h h' : Heap}, Grown Q h h' →
    Grown Q (l.foldl (Model.aggregStep t) h) (l.foldl (Model.aggregStep t) h') := by
  induction l with
  | nil => exact fun G => G
  | cons e es ih => exact fun G => ih (G.aggregStep t e)

variable {t : Tree Dep Ref}

theorem Grown.subjEvs : subjEvs t h' = Model.subjEvs t h := by
  funext v s; unfold Model.subjEvs; simp only [G.cconjs, G.aggreg]
theorem Grown.objEvs : objEvs t h' = Model.objEvs t h := by
  funext v s; unfold Model.objEvs; simp only [G.cconjs, G.aggreg]
theorem Grown.copEvs : copEvs t h' = Model.copEvs t h := by
  funext v s p; unfold Model.copEvs; simp only [G.aggreg]
theorem Grown.ipropEvs : ipropEvs t h' = Model.ipropEvs t h := by
  funext v s; unfold Model.ipropEvs; simp only [G.aggreg]
theorem Grown.agentEvs : agentEvs t h' = Model.agentEvs t h := by
  funext v s p; unfold Model.agentEvs; simp only [G.by, G.aggreg]
theorem Grown.resolve : resolveRelativePron t h' = resolveRelativePron t h := by
  funext v p; unfold resolveRelativePron; simp only [G.tag, G.relative]
theorem Grown.subjRef : subjRef t h' = Model.subjRef t h := by
  funext v p; unfold Model.subjRef; simp only [G.tag, G.resolve, G.reflexive]
theorem Grown.objRef : objRef t h' = Model.objRef t h := by
  funext v p; unfold Model.objRef; simp only [G.resolve, G.reflexive]
theorem Grown.nakedEvs : nakedEvs t h' = Model.nakedEvs t h := by
  funext v p; unfold Model.nakedEvs; simp only [G.tag, G.suffix, G.aggreg]

theorem Grown.directEvs : directEvs t h' = Model.directEvs t h := by
  funext r
  unfold Model.directEvs parentEvs cplEvs
  simp only [G.subjEvs, G.objEvs, G.copEvs, G.ipropEvs, G.agentEvs, G.resolve, G.subjRef, G.objRef, G.nakedEvs, G.tag, G.aggreg]

theorem Grown.longEvs (a b : List Ref) : longEvs t h' a b = Model.longEvs t h a b := by
  funext r
  unfold Model.longEvs
  simp only [G.subjEvs, G.objEvs, G.tag, G.relative]

/-- Argument finding registers the same. -/
theorem Grown.findArgs {root : Ref} {hist : List (Dep × Ref × Ref)} (hb : buildTree root hist = .ok t) (nodes : List Ref) :
    ∃ g g', findArgs t nodes h = .ok g ∧ Model.findArgs t nodes h' = .ok g' ∧ Grown Q g g' := by
  have G' := G.aggregs t nodes
  refine ⟨_, _, findArgs_eq hb nodes h, findArgs_eq hb nodes h', ?_⟩
  rw [G'.directEvs, G'.longEvs]
  exact G'.applyEvs _

end

/-! ### Tuples -/

/-- The arguments are the same, up to the words of nouns. -/
def ArgSim (Q : Ref → Str → Prop) (h : Heap) (a a' : Argument) : Prop :=
  a'.code = a.code ∧ a'.isAff = a.isAff ∧
    (a'.word = a.word ∨ a.code ∈ [c!"N", c!"A", c!"C"] ∧ ∃ r, (h.node r).tag = .NOUN ∧ a.word = (h.node r).lem ∧ Q r a'.word)

def TupleSim (Q : Ref → Str → Prop) (h : Heap) (t t' : STuple) : Prop := List.Forall₂ (ArgSim Q h) t.args t'.args

/-- Both results are lists of similar tuples. -/
def Sim (Q : Ref → Str → Prop) (h : Heap) (m m' : Except PyErr (List STuple)) : Prop :=
  ∃ ts ts', m = .ok ts ∧ m' = .ok ts' ∧ List.Forall₂ (TupleSim Q h) ts ts'

section
variable {Q : Ref → Str → Prop} {h : Heap}

theorem Sim.none : Sim Q h (.ok []) (.ok []) := ⟨[], [], rfl, rfl, .nil⟩

theorem Sim.one {t t' : STuple} (ht : TupleSim Q h t t') : Sim Q h (.ok [t]) (.ok [t']) :=
  ⟨[t], [t'], rfl, rfl, .cons ht .nil⟩

theorem Sim.append {m₁ m₂ m₁' m₂' : Except PyErr (List STuple)} (h₁ : Sim Q h m₁ m₁') (h₂ : Sim Q h m₂ m₂') :
    Sim Q h (do let a ← m₁; let b ← m₂; return a ++ b) (do let a ← m₁'; let b ← m₂'; return a ++ b) := by
  obtain ⟨l₁, l₁', rfl, rfl, k₁⟩ := h₁
  obtain ⟨l₂, l₂', rfl, rfl, k₂⟩ := h₂
  exact ⟨_, _, rfl, rfl, List.rel_append k₁ k₂⟩

theorem Sim.append3 {m₁ m₂ m₃ m₁' m₂' m₃' : Except PyErr (List STuple)} (h₁ : Sim Q h m₁ m₁') (h₂ : Sim Q h m₂ m₂')
    (h₃ : Sim Q h m₃ m₃') : Sim Q h (do let a ← m₁; let b ← m₂; let c ← m₃; return a ++ b ++ c)
      (do let a ← m₁'; let b ← m₂'; let c ← m₃'; return a ++ b ++ c) := by
  obtain ⟨l₁, l₁', rfl, rfl, k₁⟩ := h₁
  obtain ⟨l₂, l₂', rfl, rfl, k₂⟩ := h₂
  obtain ⟨l₃, l₃', rfl, rfl, k₃⟩ := h₃
  exact ⟨_, _, rfl, rfl, List.rel_append (List.rel_append k₁ k₂) k₃⟩

theorem Sim.append4 {m₁ m₂ m₃ m₄ m₁' m₂' m₃' m₄' : Except PyErr (List STuple)} (h₁ : Sim Q h m₁ m₁') (h₂ : Sim Q h m₂ m₂')
    (h₃ : Sim Q h m₃ m₃') (h₄ : Sim Q h m₄ m₄') :
    Sim Q h (do let a ← m₁; let b ← m₂; let c ← m₃; let d ← m₄; return a ++ (b ++ (c ++ d)))
      (do let a ← m₁'; let b ← m₂'; let c ← m₃'; let d ← m₄'; return a ++ (b ++ (c ++ d))) := by
  obtain ⟨l₁, l₁', rfl, rfl, k₁⟩ := h₁
  obtain ⟨l₂, l₂', rfl, rfl, k₂⟩ := h₂
  obtain ⟨l₃, l₃', rfl, rfl, k₃⟩ := h₃
  obtain ⟨l₄, l₄', rfl, rfl, k₄⟩ := h₄
  exact ⟨_, _, rfl, rfl, List.rel_append k₁ (List.rel_append k₂ (List.rel_append k₃ k₄))⟩

theorem Sim.cons {m m' : Except PyErr (List STuple)} {t t' : STuple} (ht : TupleSim Q h t t') (h₁ : Sim Q h m m') :
    Sim Q h (do let a ← m; pure (t :: a)) (do let a ← m'; pure (t' :: a)) := by
  obtain ⟨l₁, l₁', rfl, rfl, k₁⟩ := h₁
  exact ⟨_, _, rfl, rfl, .cons ht k₁⟩

theorem Sim.collect {α : Type} {l : List α} {f f' : α → Except PyErr (List STuple)} (hf : ∀ x ∈ l, Sim Q h (f x) (f' x)) :
    Sim Q h (collect l f) (Model.collect l f') := by
  induction l with
  | nil => exact Sim.none
  | cons x l ih => exact (hf x (by simp)).append (ih fun y hy => hf y (by simp [hy]))

theorem Sim.ite {c : Prop} [Decidable c] {m₁ m₂ m₁' m₂' : Except PyErr (List STuple)} (h₁ : c → Sim Q h m₁ m₁')
    (h₂ : ¬ c → Sim Q h m₂ m₂') : Sim Q h (if c then m₁ else m₂) (if c then m₁' else m₂') := by
  by_cases hc : c
  · rw [if_pos hc, if_pos hc]; exact h₁ hc
  · rw [if_neg hc, if_neg hc]; exact h₂ hc

theorem ArgSim.same (a : Argument) : ArgSim Q h a a := ⟨rfl, rfl, .inl rfl⟩

end

section
variable {Q : Ref → Str → Prop} {h h' : Heap} (G : Grown Q h h')
include G

theorem Grown.word (r : Ref) (c : Str) (b : Bool) (hc : (h.node r).tag = .NOUN → (h.node r).active = none →
    c ∈ [c!"N", c!"A", c!"C"]) : ArgSim Q h ⟨(h.node r).canon, c, b⟩ ⟨(h'.node r).canon, c, b⟩ := by
  refine ⟨rfl, rfl, ?_⟩
  obtain ⟨ch, cn, e, rfl | ⟨h1, h2, h3, h4, -⟩⟩ := G.node r
  · left; rw [e]
  · right
    exact ⟨hc h1 (by simp [Node.active, h2]), r, h1, h3, by rw [e]; exact h4⟩

theorem Grown.nArg (r : Ref) : ArgSim Q h (nArg h r) (Model.nArg h' r) := by
  unfold Model.nArg
  rw [G.nounCode]
  exact G.word r _ _ fun h1 _ => by simp [nounArgCode, h1]

theorem Grown.aArg (r : Ref) : ArgSim Q h (aArg h r) (Model.aArg h' r) := by
  unfold Model.aArg
  rw [G.adjCode]
  exact G.word r _ _ fun _ h2 => by simp [adjArgCode, h2]

theorem Grown.pArg (r : Ref) : ArgSim Q h (pArg h r) (Model.pArg h' r) := by
  unfold Model.pArg
  rw [G.propCode]
  exact G.word r _ _ fun h1 h2 => by simp [propArgCode, nounArgCode, h1]

theorem Grown.nominals (l : List Ref) : nominals h' l = Model.nominals h l := by
  unfold Model.nominals; simp only [G.tag]

theorem Grown.clauseTuples {v s o s' : Ref} (hv : (h.node v).tag = .VERB) (ho : (h.node o).tag = .VERB) :
    Sim Q h (clauseTuples h v s o s') (Model.clauseTuples h' v s o s') := by
  have c1 : (h'.node v).canon = (h.node v).canon := G.canon_of_tag (by rw [hv]; decide)
  have c2 : (h'.node o).canon = (h.node o).canon := G.canon_of_tag (by rw [ho]; decide)
  unfold Model.clauseTuples
  simp only [nounArg_ok, xnor_affirmed, newT, newI, newC, propArg_ok, bind_ok, pure_bind, bind_assoc, c1, c2, G.isAff,
    G.plain, G.objs, G.props, G.nominals]
  refine Sim.append (Sim.ite (fun _ => Sim.append (Sim.ite (fun _ => Sim.one ?_) fun _ => Sim.none)
    (Sim.collect fun x _ => Sim.one ?_)) fun _ => Sim.none) (Sim.collect fun x _ => Sim.one ?_)
  · exact .cons (G.nArg s) (.cons (.same _) (.cons (G.nArg s') (.cons (.same _) .nil)))
  · exact .cons (G.nArg s) (.cons (.same _) (.cons (G.nArg s') (.cons (.same _) (.cons (G.nArg x) .nil))))
  · exact .cons (G.nArg s) (.cons (.same _) (.cons (G.nArg s') (.cons (.same _) (.cons (G.pArg x) .nil))))

theorem Grown.subjs2 (s o : Ref) : subjs2 h' s o = Model.subjs2 h s o := by
  unfold Model.subjs2; simp only [G.subjs, G.nominals]

theorem Grown.verbObjs (v : Ref) : verbObjs h' v = Model.verbObjs h v := by
  unfold Model.verbObjs; simp only [G.objs, G.tag]

theorem Grown.fromVerbsSubjsObjs {v : Ref} (hv : (h.node v).tag = .VERB) :
    Sim Q h (fromVerbsSubjsObjs h v) (Model.fromVerbsSubjsObjs h' v) := by
  unfold Model.fromVerbsSubjsObjs
  simp only [nounArg_ok, bind_ok, G.subjs, G.nominals, G.subjs2, G.verbObjs]
  refine Sim.collect fun s _ => Sim.collect fun o ho => Sim.collect fun s' _ => G.clauseTuples hv ?_
  simpa using (List.mem_filter.mp ho).2

theorem Grown.fromSubjsObjs {v : Ref} (hv : (h.node v).tag = .VERB) :
    Sim Q h (fromSubjsObjs h v) (Model.fromSubjsObjs h' v) := by
  have c1 : (h'.node v).canon = (h.node v).canon := G.canon_of_tag (by rw [hv]; decide)
  unfold Model.fromSubjsObjs
  simp only [nounArg_ok, xnor_affirmed, newT, newI, bind_ok, c1, G.isAff, G.objs, G.subjs, G.nominals]
  refine Sim.append (Sim.ite (fun _ => Sim.collect fun x _ => Sim.one ?_) fun _ => Sim.none)
    (Sim.collect fun x _ => Sim.collect fun y _ => Sim.one ?_)
  · exact .cons (G.nArg x) (.cons (.same _) .nil)
  · exact .cons (G.nArg y) (.cons (.same _) (.cons (G.nArg x) .nil))

theorem Grown.fromIobj {v : Ref} (hv : (h.node v).tag = .VERB) : Sim Q h (fromIobj h v) (Model.fromIobj h' v) := by
  have c1 : (h'.node v).canon = (h.node v).canon := G.canon_of_tag (by rw [hv]; decide)
  unfold Model.fromIobj
  simp only [nounArg_ok, xnor_affirmed, newR, bind_ok, c1, G.isAff, G.iobjs, G.subjs, G.nominals]
  exact Sim.collect fun x _ => Sim.collect fun y _ => Sim.one
    (.cons (G.nArg y) (.cons (.same _) (.cons (G.nArg x) .nil)))

variable (pp : Str → Str)

theorem Grown.participle (v : Ref) : ppWithParticles pp h' v = ppWithParticles pp h v := by
  unfold ppWithParticles; simp only [G.particles, G.lem]

theorem Grown.fromObjs {v : Ref} (hv : (h.node v).tag = .VERB) : Sim Q h (fromObjs pp h v) (Model.fromObjs pp h' v) := by
  have c1 : (h'.node v).canon = (h.node v).canon := G.canon_of_tag (by rw [hv]; decide)
  unfold Model.fromObjs
  simp only [nounArg_ok, c1, G.isAff, G.objs, G.subjs, G.nominals, G.participle, newC, newL, bind_ok]
  refine Sim.ite (fun _ => Sim.collect fun x _ => ?_) fun _ => Sim.none
  split
  · simp only [xnor_affirmed, bind_ok]
    exact Sim.one (.cons (G.nArg x) (.cons (.same _) (.cons (.same _) .nil)))
  · simp only [xnor_affirmed, bind_ok]
    exact Sim.one (.cons (G.nArg x) (.cons (.same _) (.cons (.same _) .nil)))

theorem Grown.activeForms (n p : Ref) : Sim Q h (activeForms h n p (Model.nArg h n))
    (Model.activeForms h' n p (Model.nArg h' n)) := by
  unfold Model.activeForms
  rw [G.active]
  cases (h.node p).active with
  | none => exact Sim.none
  | some w =>
    simp only [nounArg_ok, xnor_affirmed, newT, bind_ok, G.isAff, G.agents, G.nominals]
    exact Sim.collect fun x _ => Sim.one (.cons (G.nArg x) (.cons (.same _) (.cons (G.nArg n) .nil)))

theorem Grown.fromNakedAdjs (n : Ref) : Sim Q h (fromNakedAdjs h n) (Model.fromNakedAdjs h' n) := by
  unfold Model.fromNakedAdjs
  simp only [nounArg_ok, xnor_affirmed, newC, adjArg_ok, bind_ok, G.isAff, G.adjs]
  exact Sim.collect fun x _ => Sim.cons (.cons (G.nArg n) (.cons (.same _) (.cons (G.aArg x) .nil))) (G.activeForms n x)

theorem Grown.fromPpProps (n : Ref) (hp : ∀ x ∈ (h.node n).ppsProps, (h.node x.1).tag ≠ .NOUN) :
    Sim Q h (fromPpProps h n) (Model.fromPpProps h' n) := by
  unfold Model.fromPpProps
  simp only [nounArg_ok, xnor_affirmed, newC, propArg_ok, bind_ok, join_be, G.isAff, G.ppsProps, G.tag]
  refine Sim.collect fun x hx => Sim.one ?_
  rw [G.canon_of_tag (hp x (List.mem_filter.mp hx).1)]
  exact .cons (G.nArg n) (.cons (.same _) (.cons (G.pArg x.2) .nil))

theorem Grown.fromCopulaProps (n : Ref) : Sim Q h (fromCopulaProps h n) (Model.fromCopulaProps h' n) := by
  unfold Model.fromCopulaProps
  simp only [nounArg_ok, xnor_affirmed, newC, propArg_ok, bind_ok, G.isAff, G.copulasProps, G.tag]
  refine Sim.collect fun x _ => Sim.cons ?_ (Sim.ite (fun _ => G.activeForms n x.2) fun _ => Sim.none)
  exact .cons (G.nArg n) (.cons (G.word x.1 _ _ fun _ _ => by simp) (.cons (G.pArg x.2) .nil))

theorem Grown.fromIprops (n : Ref) : Sim Q h (fromIprops pp h n) (Model.fromIprops pp h' n) := by
  unfold Model.fromIprops
  simp only [nounArg_ok, ipropAff_eq, newC, propArg_ok, bind_ok, join_be, G.isAff, G.svis, G.tag, G.participle]
  exact Sim.collect fun x _ => Sim.one (.cons (G.nArg n) (.cons (.same _) (.cons (G.pArg x.2.2) .nil)))

theorem Grown.headVerb (r : Ref) : headVerb h' r = Model.headVerb h r := by
  unfold Model.headVerb; simp only [G.tag, G.isInfTo, G.plain]

theorem Grown.blockedBy (r : Ref) : blockedBy h' r = Model.blockedBy h r := by
  unfold Model.blockedBy; simp only [G.subjs, G.nominals, G.verbObjs]

omit G in
theorem verb_of_headVerb {r : Ref} (hv : Model.headVerb h r = true) : (h.node r).tag = .VERB :=
  ((headVerb_iff h r).mp hv).1

/-- The same tuples are extracted, up to the words of nouns. -/
theorem Grown.extractTuples (nodes : List Ref) (hp : ∀ n, ∀ x ∈ (h.node n).ppsProps, (h.node x.1).tag ≠ .NOUN) :
    Sim Q h (extractTuples pp h nodes) (Model.extractTuples pp h' nodes) := by
  unfold Model.extractTuples
  simp only [G.headVerb]
  have hb : Model.blockedBy h' = Model.blockedBy h := by funext r; exact G.blockedBy r
  rw [hb]
  refine Sim.append3 (Sim.collect fun n _ => Sim.ite (fun hv => G.fromVerbsSubjsObjs (verb_of_headVerb hv)) fun _ => Sim.none)
    (Sim.collect fun n _ => ?_) (Sim.collect fun n _ => ?_)
  · unfold secondRound
    rw [G.headVerb, G.tag]
    exact Sim.ite (fun hv => Sim.append (G.fromSubjsObjs (verb_of_headVerb hv)) (G.fromIobj (verb_of_headVerb hv)))
      fun _ => Sim.ite (fun _ => Sim.append4 (G.fromIprops pp n) (G.fromCopulaProps n) (G.fromPpProps n (hp n))
        (G.fromNakedAdjs n)) fun _ => Sim.none
  · unfold thirdRound
    rw [G.tag, G.plain]
    exact Sim.ite (fun hv => G.fromObjs pp hv.1) fun _ => Sim.none

end


/-! ### One sentence, with and without chunking -/

theorem join_before (l : List Str) (w : Str) : join c!" " (l ++ [w]) = l.flatMap (fun x => x ++ c!" ") ++ w := by
  induction l with
  | nil => rfl
  | cons a l ih =>
    have : l ++ [w] ≠ [] := by simp
    rw [List.cons_append, join_cons this, ih]
    simp

/-- What the nodes before canonicalization have in common with those after argument finding. -/
def Framed (h h' : Heap) : Prop := ∀ r, (h'.node r).idx = (h.node r).idx ∧ (h'.node r).tag = (h.node r).tag ∧
  (h'.node r).lem = (h.node r).lem ∧ (h'.node r).chunk = (h.node r).chunk

theorem framed_of {z : Lemmatizer} {h₃ h₄ h₅ : Heap} {t : Tree Dep Ref} {nodes : List Ref} (h1 : Canonical z h₃ nodes h₄)
    (h2 : ArgsFound h₄ t nodes h₅) : Framed h₃ h₅ := by
  intro r
  obtain ⟨_, _, _, _, _, _, _, _, _, _, _, _, _, _, e⟩ := h2.same r
  rw [e]
  by_cases hr : r ∈ nodes
  · rw [(Props.C40_frame _ _ ((h1 r).2 hr)).1]
    exact ⟨rfl, rfl, rfl, rfl⟩
  · rw [(h1 r).1 hr]
    exact ⟨rfl, rfl, rfl, rfl⟩

/-- `cn` is the chunk of `r`. -/
def ChunkText (h h' : Heap) (nodes : List Ref) (r : Ref) (cn : Str) : Prop :=
  r ∈ nodes ∧ (h'.node r).chunk = some cn ∧ ∃ before : List Ref, before ≠ [] ∧
    (∀ x ∈ before, x ∈ nodes ∧ (h.node x).tag ∈ nominal ∧ (h.node x).idx < (h.node r).idx) ∧
    before.Pairwise (fun a b => (h.node a).idx ≤ (h.node b).idx) ∧
    cn = before.flatMap (fun x => (h.node x).lem ++ c!" ") ++ (h.node r).lem

theorem chunkText_space {h h' : Heap} {nodes : List Ref} {r : Ref} {cn : Str} (H : ChunkText h h' nodes r cn) : ' ' ∈ cn := by
  obtain ⟨-, -, before, hb, -, -, rfl⟩ := H
  cases before with
  | nil => exact absurd rfl hb
  | cons a l => simp

theorem compound_idx {h : Heap} {t : Tree Dep Ref} {nodes : List Ref} {x r : Ref}
    (H : Relation.TransGen (Compound h t nodes) x r) :
    x ∈ nodes ∧ (h.node x).tag ∈ nominal ∧ (h.node x).idx < (h.node r).idx := by
  induction H with
  | single h1 => exact ⟨h1.mem, h1.tagC, h1.before⟩
  | tail _ h1 ih => exact ⟨ih.1, ih.2.1, ih.2.2.trans h1.before⟩

theorem chunkText_of {h h' : Heap} {t : Tree Dep Ref} {nodes : List Ref} (H : Chunked h t nodes h') (r : Ref) :
    (∃ cn, ChunkText h h' nodes r cn ∧ h'.node r = { h.node r with chunk := some cn }) ∨ h'.node r = h.node r := by
  by_cases hr : r ∈ nodes
  swap
  · exact .inr ((H r).2 (.inl hr))
  by_cases hc : ∃ c, Compound h t nodes c r
  swap
  · exact .inr ((H r).2 (.inr (.inl (by simpa using hc))))
  by_cases hp : ∃ p, Compound h t nodes r p
  · exact .inr ((H r).2 (.inr (.inr hp)))
  left
  obtain ⟨ns, h1, h2⟩ := (H r).1 hr hc (by simpa using hp)
  obtain ⟨before, rfl⟩ : ∃ before, ns = before ++ [r] := by
    have := h1.rootLast
    rw [List.getLast?_eq_some_iff] at this
    exact this
  have hlt : ∀ x ∈ before, Relation.TransGen (Compound h t nodes) x r := by
    intro x hx
    rcases (h1.mem x).mp (by simp [hx]) with rfl | h3
    · exfalso
      have := h1.once
      rw [List.nodup_append] at this
      exact this.2.2 x hx x (by simp) rfl
    · exact h3
  refine ⟨_, ⟨hr, by rw [h2], before, ?_, fun x hx => compound_idx (hlt x hx), ?_, ?_⟩, h2⟩
  · rintro rfl
    obtain ⟨c, hc⟩ := hc
    have := (h1.mem c).mpr (.inr (.single hc))
    simp only [List.nil_append, List.mem_singleton] at this
    have hb := hc.before
    rw [this] at hb
    exact lt_irrefl _ hb
  · exact (List.pairwise_append.mp h1.order).1
  · rw [List.map_append, List.map_cons, List.map_nil, join_before, List.flatMap_map]

theorem canonOf_chunk {tag : Tag} (ht : tag ≠ .NOUN) (lem : Str) (c c' : Option Str) (ps : List Str) :
    Props.canonOf tag lem c ps = Props.canonOf tag lem c' ps := by
  cases tag <;> first | rfl | exact absurd rfl ht

/-- Canonicalization after chunking. -/
theorem grown_canonical {z : Lemmatizer} {h₂ h₃ h₄ h₄' : Heap} {t : Tree Dep Ref} {nodes : List Ref}
    (hn : h₄'.next = h₄.next) (hfresh : ∀ r, (h₂.node r).chunk = none ∧ (h₂.node r).activeVerb = none)
    (H : Chunked h₂ t nodes h₃) (c1 : Canonical z h₂ nodes h₄) (c2 : Canonical z h₃ nodes h₄')
    (hplain : ∀ r ∈ nodes, (h₂.node r).tag = .NOUN → (h₃.node r).chunk ≠ none → (h₂.node r).lem ∉ soughtWords) :
    Grown (ChunkText h₂ h₃ nodes) h₄ h₄' := by
  refine ⟨hn, fun r => ?_⟩
  rcases chunkText_of H r with ⟨cn, H1, e⟩ | e
  · have hr := H1.1
    have k1 := (c1 r).2 hr
    have k2 := (c2 r).2 hr
    rw [e] at k2
    by_cases ht : (h₂.node r).tag = .NOUN
    · have hx : (h₂.node r).tag ≠ .ADJ := by rw [ht]; decide
      rw [Props.canonicalize_eq, if_neg hx] at k1 k2
      have k1 := Except.ok.inj k1
      have k2 := Except.ok.inj k2
      have hcn : cn ≠ [] := by
        rintro rfl
        exact absurd (chunkText_space H1) (by simp)
      obtain ⟨a, l, rfl⟩ : ∃ a l, cn = a :: l := by
        cases cn with
        | nil => exact absurd rfl hcn
        | cons a l => exact ⟨a, l, rfl⟩
      have g1 : Props.canonOf (h₂.node r).tag (h₂.node r).lem (h₂.node r).chunk (h₂.node r).particles = (h₂.node r).lem := by
        rw [ht, (hfresh r).1]; rfl
      have g2 : Props.canonOf (h₂.node r).tag (h₂.node r).lem (some (a :: l)) (h₂.node r).particles = a :: l := by
        rw [ht]; rfl
      rw [g1] at k1
      simp only [g2] at k2
      refine ⟨some (a :: l), a :: l, by rw [← k1, ← k2], .inr ?_⟩
      rw [← k1]
      refine ⟨ht, (hfresh r).2, rfl, H1, ?_, hplain r hr ht (by rw [e]; simp)⟩
      intro hm
      have : ∀ w ∈ soughtWords, ' ' ∉ w := by decide
      exact this _ hm (chunkText_space H1)
    · refine ⟨some cn, (h₄.node r).canon, ?_, .inl rfl⟩
      have hk : canonicalize z.call { h₂.node r with chunk := some cn } =
          (canonicalize z.call (h₂.node r)).map fun n => { n with chunk := some cn } := by
        rw [Props.canonicalize_eq, Props.canonicalize_eq]
        simp only
        rw [canonOf_chunk ht _ (some cn) (h₂.node r).chunk]
        split
        · cases z.call (h₂.node r).standard .VERB with
          | error e => rfl
          | ok ls => rfl
        · rfl
      rw [hk, k1] at k2
      exact (Except.ok.inj k2).symm
  · have : h₄'.node r = h₄.node r := by
      by_cases hr : r ∈ nodes
      · have k1 := (c1 r).2 hr
        have k2 := (c2 r).2 hr
        rw [e, k1] at k2
        exact (Except.ok.inj k2).symm
      · rw [(c1 r).1 hr, (c2 r).1 hr, e]
    exact ⟨(h₄.node r).chunk, (h₄.node r).canon, this, .inl rfl⟩

/-- A sentence with a tree, processed without and with chunking. -/
theorem Logic.process_two {c : Logic} (hc : LogicOk c) {tokens : List Str} {tags : List Tag}
    {it : Option (Tree Dep Nat)} {h₀ : Heap} {dict : Dict Nat Ref} {nt : Tree Dep Ref}
    {hist : List (Dep × Ref × Ref)} {root : Ref}
    (hn : nodify c.lower tokens tags it = .ok (h₀, dict, some nt)) (hb : buildTree root hist = .ok nt)
    (hnd : dict.values.Nodup) : ∃ h h' ts ts',
      c.process (tokens, tags, it, false) = .ok ((h, dict), ts) ∧ c.process (tokens, tags, it, true) = .ok ((h', dict), ts') ∧
      ((∀ r ∈ dict.values, (h'.node r).tag = .NOUN → (h'.node r).chunk ≠ none → (h'.node r).lem ∉ referringWords) →
        SameTuples (CompoundOf h' dict.values) ts ts' ∧ ∀ r, ∃ ch cn, h'.node r = { h.node r with chunk := ch, canon := cn }) := by
  have n0 := nodify_noArgs hn
  have f0 := nodify_keeps (fun n => n.chunk = none ∧ n.activeVerb = none) ⟨rfl, rfl⟩ (fun _ _ _ => ⟨rfl, rfl⟩)
    (fun _ _ h => h) (fun _ h => h) hn
  obtain ⟨h₁, e1, -, s1⟩ := foldlM_upd c.normalizeNode c.normalized c.normalizeNode_eq dict.values hnd h₀
    (fun r _ => by obtain ⟨s, l, x, -, -, h⟩ := hc.normalized (h₀.node r); exact ⟨_, h⟩)
  have n1 : ∀ r, NoArgs (h₁.node r) ∧ (h₁.node r).chunk = none ∧ (h₁.node r).activeVerb = none := by
    intro r
    by_cases hr : r ∈ dict.values
    · obtain ⟨s, l, x, -, -, g3⟩ := hc.normalized (h₀.node r)
      rw [(s1 r).1 hr] at g3
      rw [Except.ok.inj g3]
      have hn := n0 r
      exact ⟨⟨hn.1, hn.2, hn.3, hn.4, hn.5, hn.6, hn.7, hn.8, hn.9, hn.10, hn.11, hn.12, hn.13, hn.14⟩, f0 r⟩
    · rw [(s1 r).2 hr]
      exact ⟨n0 r, f0 r⟩
  obtain ⟨tag, g, -⟩ : TagsFixed c.lemmatizer.adjs c.nouns h₁ nt dict.values
      (fixAll c.lemmatizer.adjs c.nouns nt h₁ dict.values) :=
    Props.C55_fix_effect c.lemmatizer.adjs c.nouns h₁ root hist nt hb dict.values hnd
  generalize hh2 : fixAll c.lemmatizer.adjs c.nouns nt h₁ dict.values = h₂ at g
  have n2 : ∀ r, NoArgs (h₂.node r) ∧ (h₂.node r).chunk = none ∧ (h₂.node r).activeVerb = none := by
    intro r
    rw [g]
    obtain ⟨hn, hf⟩ := n1 r
    exact ⟨⟨hn.1, hn.2, hn.3, hn.4, hn.5, hn.6, hn.7, hn.8, hn.9, hn.10, hn.11, hn.12, hn.13, hn.14⟩, hf⟩
  obtain ⟨h₃, e3, x3, t3⟩ := Props.C54_chunks h₂ root hist nt hb dict.values hnd
  have n3 : ∀ r, NoArgs (h₃.node r) := by
    intro r
    rcases chunkText_of t3 r with ⟨cn, -, e⟩ | e
    · rw [e]
      have hn := (n2 r).1
      exact ⟨hn.1, hn.2, hn.3, hn.4, hn.5, hn.6, hn.7, hn.8, hn.9, hn.10, hn.11, hn.12, hn.13, hn.14⟩
    · rw [e]
      exact (n2 r).1
  -- canonicalization and arguments of either
  have rest : ∀ h₃ : Heap, (∀ r, NoArgs (h₃.node r)) → ∃ h₄ h₅, dict.values.foldlM c.canonicalizeNode h₃ = .ok h₄ ∧
      h₄.next = h₃.next ∧ Canonical c.lemmatizer h₃ dict.values h₄ ∧ findArgs nt dict.values h₄ = .ok h₅ ∧
      ArgsFound h₄ nt dict.values h₅ := by
    intro h₃ n3
    obtain ⟨h₄, e4, x4, s4⟩ := foldlM_upd c.canonicalizeNode (canonicalize c.lemmatizer.call) c.canonicalizeNode_eq
      dict.values hnd h₃ (fun r _ => hc.canonicalized (h₃.node r))
    have t4 : Canonical c.lemmatizer h₃ dict.values h₄ := fun r => ⟨(s4 r).2, (s4 r).1⟩
    have n4 : ∀ r, NoArgs (h₄.node r) := by
      intro r
      by_cases hr : r ∈ dict.values
      · rw [(Props.C40_frame _ _ ((t4 r).2 hr)).1]
        have hn := n3 r
        exact ⟨hn.1, hn.2, hn.3, hn.4, hn.5, hn.6, hn.7, hn.8, hn.9, hn.10, hn.11, hn.12, hn.13, hn.14⟩
      · rw [(t4 r).1 hr]
        exact n3 r
    obtain ⟨h₅, e5, t5⟩ := Props.C56_arguments_exact root hist nt hb dict.values h₄ n4
    exact ⟨h₄, h₅, e4, x4, t4, e5, t5⟩
  obtain ⟨h₄, h, e4, x4, t4, e5, t5⟩ := rest h₂ fun r => (n2 r).1
  obtain ⟨h₄', h', e4', x4', t4', e5', t5'⟩ := rest h₃ n3
  obtain ⟨ts, e6, -⟩ := Props.C57_extraction_exact c.pp h dict.values
  obtain ⟨ts', e6', -⟩ := Props.C57_extraction_exact c.pp h' dict.values
  refine ⟨h, h', ts, ts', ?_, ?_, fun hplain => ?_⟩
  · unfold Logic.process
    simp only [hn, bind, Except.bind, e1, hh2, pure, Except.pure, Bool.false_eq_true, if_false, e4, e5, e6]
  · unfold Logic.process
    simp only [hn, bind, Except.bind, e1, hh2, pure, Except.pure, if_true, e3, e4', e5', e6']
  have fr := framed_of t4 t5
  have fr' := framed_of t4' t5'
  have f3 : ∀ r, (h₃.node r).idx = (h₂.node r).idx ∧ (h₃.node r).tag = (h₂.node r).tag ∧ (h₃.node r).lem = (h₂.node r).lem := by
    intro r
    rcases chunkText_of t3 r with ⟨cn, -, e⟩ | e <;> rw [e] <;> exact ⟨rfl, rfl, rfl⟩
  have hsw : soughtWords ⊆ referringWords := by decide
  have G : Grown (ChunkText h₂ h₃ dict.values) h₄ h₄' := by
    refine grown_canonical (by rw [x4, x4', x3]) (fun r => (n2 r).2) t3 t4 t4' fun r hr k1 k2 k3 => ?_
    refine hplain r hr ?_ ?_ ?_
    · rw [(fr' r).2.1, (f3 r).2.1, k1]
    · rw [(fr' r).2.2.2]; exact k2
    · rw [(fr' r).2.2.1, (f3 r).2.2]; exact hsw k3
  obtain ⟨g, g', q1, q2, G5⟩ := G.findArgs hb dict.values
  rw [e5] at q1
  rw [e5'] at q2
  obtain rfl := Except.ok.inj q1
  obtain rfl := Except.ok.inj q2
  refine ⟨?_, fun r => by obtain ⟨ch, cn, e, -⟩ := G5.node r; exact ⟨ch, cn, e⟩⟩
  obtain ⟨l, l', w1, w2, w3⟩ := G5.extractTuples c.pp dict.values (by
    intro n x hx
    obtain ⟨_, _, _, _, k, _⟩ := (t5.pps n x.1 x.2).mp hx
    have : (h.node x.1).tag = (h₄.node x.1).tag := by
      obtain ⟨_, _, _, _, _, _, _, _, _, _, _, _, _, _, e⟩ := t5.same x.1
      rw [e]
    rw [this, k]
    decide)
  rw [e6] at w1
  rw [e6'] at w2
  obtain rfl := Except.ok.inj w1
  obtain rfl := Except.ok.inj w2
  refine w3.imp fun t t' ht => List.Forall₂.imp ?_ ht
  rintro a a' ⟨k1, k2, k3⟩
  refine ⟨k1, k2, k3.imp_right ?_⟩
  rintro ⟨k4, r, k5, k6, k7, k8, before, k9, k10, k11, k12⟩
  have hi : ∀ x, (h'.node x).idx = (h₂.node x).idx := fun x => (fr' x).1.trans (f3 x).1
  have hl : ∀ x, (h'.node x).lem = (h₂.node x).lem := fun x => (fr' x).2.2.1.trans (f3 x).2.2
  have ht : ∀ x, (h'.node x).tag = (h₂.node x).tag := fun x => (fr' x).2.1.trans (f3 x).2.1
  have hw : a.word = (h₂.node r).lem := by rw [k6, (fr r).2.2.1]
  refine ⟨k4, r, k7, ?_, ?_, ?_, before, k9, ?_, ?_, ?_⟩
  · rw [ht, ← (fr r).2.1, k5]
  · rw [hl, hw]
  · rw [(fr' r).2.2.2, k8]
  · simpa only [hi, ht] using k10
  · simpa only [hi] using k11
  · simpa only [hl, hw] using k12

end Model
