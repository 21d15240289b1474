import Verif.Model.Nodifier
import Verif.Lemmas.Tree
import Verif.Lemmas.Parser
import Verif.Spec.Nodes

/-! Lemmas on nodification. -/

namespace Model
open Py Spec

/-- What nodification needs to know of a parse tree over `n` tokens. -/
structure IdxTree (t : Tree Dep Nat) (n : Nat) (arcs : List Arc) : Prop where
  inv : TreeInv t.root arcs t
  lt : ∀ a ∈ arcs, a.2.1 < n ∧ a.2.2 < n
  acyclic : Acyclic (HasArc arcs)
  hasNode : ∀ i, t.hasNode i = true ↔ ∃ a ∈ arcs, a.2.1 = i ∨ a.2.2 = i

/-- Content of an entry `key ↦ node` of the working dictionary. -/
structure NodContent (t : Tree Dep Nat) (lower : Str → Str) (tokens : List Str) (tags : List Tag) (bl : List Nat)
    (key : Nat) (n : Node) : Prop where
  tag : tags[n.idx]? = some n.tag
  blank : Blank n
  names : n.standard = lower n.original
  kind : (n.idx = key ∧ (t.children key ≠ [] ∨ key ∉ bl) ∧ tokens[key]? = some n.original ∧
      PartWords lower tokens (t.children key) key n.particles ∧
      (n.isInfTo = true ↔ InfTo lower tokens (t.children key) key)) ∨
    (n.idx ∈ bl ∧ t.children n.idx = [] ∧ n.particles = [] ∧ n.isInfTo = false ∧
      ∃ up texts, UpChain t.parent .FLAT n.idx (up ++ [key]) ∧
        List.Forall₂ (fun (i : Nat) tok => tokens[i]? = some tok) (key :: up.reverse ++ [n.idx]) texts ∧
        n.original = join c!" " texts)

/-- Invariant of the working state. -/
structure NodInv (t : Tree Dep Nat) (arcs : List Arc) (lower : Str → Str) (tokens : List Str) (tags : List Tag)
    (s : Nodif) : Prop where
  wf : s.dict.Wf
  vals : s.dict.values.Nodup
  fresh : ∀ k r, (k, r) ∈ s.dict → r < s.heap.next
  ent : ∀ k r, (k, r) ∈ s.dict → NodContent t lower tokens tags s.bl k (s.heap.node r)
  blOk : ∀ i ∈ s.bl, (¬ ∃ a ∈ arcs, a.2.1 = i ∨ a.2.2 = i) ∨ (∃ p, t.parent i = some (.FLAT, p)) ∨
    (∃ p, (Dep.PART, p, i) ∈ arcs) ∨ ((∃ c, t.parent c = some (.FLAT, i)) ∧ i ∈ s.dict.keys)

theorem mem_values {κ ν : Type} {d : Dict κ ν} {k : κ} {v : ν} (h : (k, v) ∈ d) : v ∈ d.values :=
  List.mem_map.mpr ⟨_, h, rfl⟩

theorem values_set_nodup {κ ν : Type} [DecidableEq κ] (d : Dict κ ν) (k : κ) (v : ν) (h : d.values.Nodup)
    (hv : v ∉ d.values) : (d.set k v).values.Nodup ∧ ∀ x ∈ (d.set k v).values, x = v ∨ x ∈ d.values := by
  induction d with
  | nil => simp [Dict.set, Dict.values]
  | cons p d ih =>
    obtain ⟨a, b⟩ := p
    simp only [Dict.values, List.map_cons, List.nodup_cons, List.mem_cons, not_or] at h hv
    by_cases hk : a = k
    · simp only [Dict.set, hk, if_true, Dict.values, List.map_cons, List.nodup_cons]
      refine ⟨⟨hv.2, h.2⟩, ?_⟩
      intro x hx
      rcases List.mem_cons.mp hx with rfl | hx
      · exact Or.inl rfl
      · exact Or.inr (List.mem_cons_of_mem _ hx)
    · obtain ⟨h1, h2⟩ := ih h.2 hv.2
      simp only [Dict.set, hk, if_false, Dict.values, List.map_cons, List.nodup_cons]
      refine ⟨⟨?_, h1⟩, ?_⟩
      · intro hb
        rcases h2 b hb with e | e
        · exact hv.1 e.symm
        · exact h.1 e
      · intro x hx
        rcases List.mem_cons.mp hx with rfl | hx
        · exact Or.inr (by simp)
        · rcases h2 x hx with e | e
          · exact Or.inl e
          · exact Or.inr (List.mem_cons_of_mem _ e)

section
variable {t : Tree Dep Nat} {arcs : List Arc} {lower : Str → Str} {tokens : List Str} {tags : List Tag}

/-- Putting a new node keeps the invariant, if the old entries survive the change of black list. -/
theorem NodInv.put {s : Nodif} (h : NodInv t arcs lower tokens tags s) (key : Nat) (n : Node)
    (bl : List Nat) (hbl : ∀ i ∈ s.bl, i ∈ bl)
    (hold : ∀ k r, (k, r) ∈ s.dict → (s.heap.node r).idx = k → t.children k ≠ [] ∨ k ∉ bl)
    (hn : NodContent t lower tokens tags bl key n)
    (hnew : ∀ i ∈ bl, i ∉ s.bl → (∃ p, t.parent i = some (.FLAT, p)) ∨
      (∃ p, (Dep.PART, p, i) ∈ arcs) ∨ ((∃ c, t.parent c = some (.FLAT, i)) ∧ i = key)) :
    NodInv t arcs lower tokens tags { s.put key n with bl := bl } := by
  have hfresh : s.heap.next ∉ s.dict.values := by
    intro hm
    obtain ⟨⟨k, r⟩, hp, rfl⟩ := List.mem_map.mp hm
    exact absurd (h.fresh k _ hp) (Nat.lt_irrefl _)
  refine ⟨h.wf.set _ _, (values_set_nodup s.dict key s.heap.next h.vals hfresh).1, ?_, ?_, ?_⟩
  · intro k r hm
    simp only [Nodif.put, Heap.alloc] at hm ⊢
    rw [Dict.mem_set h.wf] at hm
    rcases hm with ⟨rfl, rfl⟩ | ⟨hne, hm⟩
    · exact Nat.lt_succ_self _
    · exact Nat.lt_succ_of_lt (h.fresh k r hm)
  · intro k r hm
    simp only [Nodif.put, Heap.alloc] at hm ⊢
    rw [Dict.mem_set h.wf] at hm
    rcases hm with ⟨rfl, rfl⟩ | ⟨hne, hm⟩
    · simpa using hn
    · have he := h.ent k r hm
      have hr : r ≠ s.heap.next := Nat.ne_of_lt (h.fresh k r hm)
      simp only [hr, if_false]
      refine ⟨he.tag, he.blank, he.names, ?_⟩
      rcases he.kind with ⟨e, _, h2⟩ | ⟨h1, h2⟩
      · exact Or.inl ⟨e, hold k r hm e, h2⟩
      · exact Or.inr ⟨hbl _ h1, h2⟩
  · intro i hi
    simp only [Nodif.put, Heap.alloc, Dict.mem_keys_set]
    simp only at hi
    by_cases hs : i ∈ s.bl
    · rcases h.blOk i hs with e | e | e | ⟨e1, e2⟩
      · exact Or.inl e
      · exact Or.inr (Or.inl e)
      · exact Or.inr (Or.inr (Or.inl e))
      · exact Or.inr (Or.inr (Or.inr ⟨e1, Or.inr e2⟩))
    · rcases hnew i hi hs with e | e | ⟨e1, e2⟩
      · exact Or.inr (Or.inl e)
      · exact Or.inr (Or.inr (Or.inl e))
      · exact Or.inr (Or.inr (Or.inr ⟨e1, Or.inl e2⟩))

theorem blank_new (idx : Nat) (text : Str) (tag : Tag) : Blank (Node.new lower idx text tag) := by
  constructor
  · constructor <;> rfl
  · rfl

end

section
variable {t : Tree Dep Nat} {n : Nat} {arcs : List Arc}

theorem IdxTree.parAcyclic (H : IdxTree t n arcs) : Acyclic fun a b => ∃ l, t.parent a = some (l, b) := by
  intro x hx
  have : Relation.TransGen (HasArc arcs) x x := by
    rw [← Relation.transGen_swap]
    refine Relation.TransGen.mono ?_ _ _ hx
    rintro a b ⟨l, hl⟩
    rw [H.inv.parent] at hl
    exact ⟨l, lastParent_mem hl⟩
  exact H.acyclic x this

theorem upChain_mem {L N : Type} {parent : N → Option (L × N)} {l : L} {x : N} {path : List N}
    (h : UpChain parent l x path) : ∀ y ∈ path, ∃ z, parent z = some (l, y) := by
  induction h with
  | stop _ => simp
  | step hp _ ih =>
    intro y hy
    rcases List.mem_cons.mp hy with rfl | hy
    · exact ⟨_, hp⟩
    · exact ih y hy

theorem upChain_step {L N : Type} {parent : N → Option (L × N)} {l : L} {x : N} {path : List N}
    (h : UpChain parent l x path) (hne : path ≠ []) : ∃ q, parent x = some (l, q) := by
  cases h with
  | stop _ => exact absurd rfl hne
  | step hp _ => exact ⟨_, hp⟩

/-- All members but the last have a parent by the label. -/
theorem upChain_inner {L N : Type} {parent : N → Option (L × N)} {l : L} {x : N} {path : List N}
    (h : UpChain parent l x path) : ∀ up k, path = up ++ [k] → ∀ y ∈ up, ∃ q, parent y = some (l, q) := by
  induction h with
  | stop _ => intro up k e; simp at e
  | @step n p ps hp hc ih =>
    intro up k e y hy
    cases up with
    | nil => simp at hy
    | cons u up =>
      simp only [List.cons_append, List.cons.injEq] at e
      obtain ⟨rfl, e⟩ := e
      rcases List.mem_cons.mp hy with rfl | hy
      · cases hc with
        | stop _ => simp at e
        | step hq _ => exact ⟨_, hq⟩
      · exact ih up k e y hy

/-- The last member has no parent by the label. -/
theorem upChain_top {L N : Type} {parent : N → Option (L × N)} {l : L} {x : N} {path : List N}
    (h : UpChain parent l x path) : ∀ up k, path = up ++ [k] → ∀ q, parent k ≠ some (l, q) := by
  induction h with
  | stop _ => intro up k e; simp at e
  | @step n p ps hp hc ih =>
    intro up k e q
    cases up with
    | nil =>
      simp only [List.nil_append, List.cons.injEq] at e
      obtain ⟨rfl, rfl⟩ := e
      cases hc with
      | stop h => exact h q
    | cons u up =>
      simp only [List.cons_append, List.cons.injEq] at e
      exact ih up k e.2 q

theorem IdxTree.ancestors (H : IdxTree t n arcs) (i : Nat) : ∃ path, ancestorsOrRaise t i .FLAT = .ok path ∧
    UpChain t.parent .FLAT i path.reverse ∧ ∀ y ∈ path, y < n := by
  have hs := climb_isSome t .FLAT H.parAcyclic t.len i [] (by simp) (by simp) (by simp) (by simp [Tree.len])
  obtain ⟨p, hp⟩ := Option.isSome_iff_exists.mp hs
  have hu := climb_upChain t .FLAT t.len i p hp
  refine ⟨p.reverse, by simp [ancestorsOrRaise, Tree.ancestorsVia, hp], by simpa using hu, ?_⟩
  intro y hy
  obtain ⟨z, hz⟩ := upChain_mem hu y (List.mem_reverse.mp hy)
  rw [H.inv.parent] at hz
  exact (H.lt _ (lastParent_mem hz)).1

end

theorem index_lt {α} (l : List α) (i : Nat) (h : i < l.length) : index l (i : Int) = .ok l[i] :=
  index_of_getElem? (List.getElem?_eq_getElem h)

theorem foldlM_inv {ε σ β : Type} (f : σ → β → Except ε σ) (P : σ → Prop) (l : List β)
    (hstep : ∀ s b, b ∈ l → P s → ∃ s', f s b = .ok s' ∧ P s') :
    ∀ s, P s → ∃ s', l.foldlM f s = .ok s' ∧ P s' := by
  induction l with
  | nil => intro s hs; exact ⟨s, rfl, hs⟩
  | cons b l ih =>
    intro s hs
    obtain ⟨s', h1, h2⟩ := hstep s b (by simp) hs
    obtain ⟨s'', h3, h4⟩ := ih (fun s b hb hs => hstep s b (by simp [hb]) hs) s' h2
    exact ⟨s'', by rw [List.foldlM_cons, h1]; exact h3, h4⟩

/-- A loop invariant together with facts established one item at a time. -/
theorem foldlM_inv_each {ε σ β : Type} (f : σ → β → Except ε σ) (P : σ → Prop) (Q : β → σ → Prop) (l : List β)
    (hstep : ∀ s b, b ∈ l → P s → ∃ s', f s b = .ok s' ∧ P s' ∧ Q b s' ∧ ∀ b', Q b' s → Q b' s') :
    ∀ s, P s → ∃ s', l.foldlM f s = .ok s' ∧ P s' ∧ (∀ b ∈ l, Q b s') ∧ ∀ b', Q b' s → Q b' s' := by
  induction l with
  | nil => intro s hs; exact ⟨s, rfl, hs, by simp, fun _ h => h⟩
  | cons b l ih =>
    intro s hs
    obtain ⟨s', h1, h2, h3, h4⟩ := hstep s b (by simp) hs
    obtain ⟨s'', h5, h6, h7, h8⟩ := ih (fun s b hb hs => hstep s b (by simp [hb]) hs) s' h2
    refine ⟨s'', by rw [List.foldlM_cons, h1]; exact h5, h6, ?_, fun b' hb' => h8 b' (h4 b' hb')⟩
    intro b' hb'
    rcases List.mem_cons.mp hb' with rfl | hb'
    · exact h8 _ h3
    · exact h7 b' hb'

theorem mapM_index_ok (tokens : List Str) (l : List Nat) (h : ∀ y ∈ l, y < tokens.length) :
    ∃ out, l.mapM (fun (i : Nat) => index tokens (i : Int)) = .ok out ∧
      List.Forall₂ (fun (i : Nat) tok => tokens[i]? = some tok) l out := by
  induction l with
  | nil => exact ⟨[], rfl, .nil⟩
  | cons y l ih =>
    obtain ⟨out, h1, h2⟩ := ih fun z hz => h z (by simp [hz])
    have hy := h y (by simp)
    refine ⟨tokens[y] :: out, ?_, .cons (List.getElem?_eq_getElem hy) h2⟩
    rw [List.mapM_cons, index_lt tokens y hy, h1]
    rfl

section
variable {t : Tree Dep Nat} {arcs : List Arc} {lower : Str → Str} {tokens : List Str} {tags : List Tag}

theorem zipIdx_tok {tok : Str × Nat} (h : tok ∈ tokens.zipIdx) : tokens[tok.2]? = some tok.1 := by
  rwa [List.mem_zipIdx_iff_getElem?] at h

theorem flattenStep_inv (H : IdxTree t tokens.length arcs) (hl : tags.length = tokens.length) (s : Nodif)
    (tok : Str × Nat) (hm : tok ∈ tokens.zipIdx)
    (h : NodInv t arcs lower tokens tags s ∧ ∀ k r, (k, r) ∈ s.dict → (s.heap.node r).idx ≠ k) :
    ∃ s', flattenStep lower tokens tags t s tok = .ok s' ∧
      (NodInv t arcs lower tokens tags s' ∧ ∀ k r, (k, r) ∈ s'.dict → (s'.heap.node r).idx ≠ k) := by
  obtain ⟨h, hno⟩ := h
  unfold flattenStep
  by_cases hc : t.children tok.2 = []
  · rw [if_pos hc]
    cases hp : t.parent tok.2 with
    | none => exact ⟨s, rfl, h, hno⟩
    | some q =>
      obtain ⟨dep, p⟩ := q
      by_cases hd : dep = .FLAT
      · subst hd
        simp only [if_true]
        obtain ⟨path, h1, h2, h3⟩ := H.ancestors tok.2
        have htok := zipIdx_tok hm
        have hlt : tok.2 < tokens.length := (List.getElem?_eq_some_iff.mp htok).1
        -- the chain is not empty
        cases hpath : path with
        | nil =>
          rw [hpath] at h2
          cases h2 with
          | stop hs => exact absurd hp (hs p)
        | cons top rest =>
          subst hpath
          have hchain : UpChain t.parent .FLAT tok.2 (rest.reverse ++ [top]) := by simpa using h2
          obtain ⟨texts, h4, h5⟩ := mapM_index_ok tokens (top :: rest) h3
          have h6 : index (top :: rest) 0 = .ok top := by
            unfold index; simp
          have h7 : index tags (tok.2 : Int) = .ok (tags[tok.2]'(by omega)) := index_lt tags tok.2 (by omega)
          have htopchild : t.children top ≠ [] := by
            obtain ⟨z, hz⟩ := upChain_mem hchain top (by simp)
            rw [H.inv.parent] at hz
            have := (H.inv.mem_children top z .FLAT).mpr (lastParent_mem hz)
            exact List.ne_nil_of_mem this
          have hne : tok.2 ≠ top := fun e => htopchild (e ▸ hc)
          refine ⟨_, by simp only [h1, bind, Except.bind, h6, h4, h7]; rfl, ?_, ?_⟩
          · apply h.put
            · intro i hi; exact List.mem_append_left _ hi
            · intro k r hkr e; exact absurd e (hno k r hkr)
            · refine ⟨?_, blank_new _ _ _, rfl, Or.inr ⟨?_, hc, rfl, rfl, rest.reverse, texts ++ [tok.1], hchain, ?_, rfl⟩⟩
              · exact List.getElem?_eq_getElem (l := tags) (i := tok.2) (by omega)
              · simp [Node.new]
              · rw [List.reverse_reverse]
                exact List.rel_append h5 (.cons htok .nil)
            · intro i hi hns
              rcases List.mem_append.mp hi with hi | hi
              · exact absurd hi hns
              · rcases List.mem_cons.mp hi with rfl | hi
                · exact Or.inl ⟨p, hp⟩
                · rcases List.mem_cons.mp hi with rfl | hi
                  · exact Or.inr (Or.inr ⟨upChain_mem hchain i (by simp), rfl⟩)
                  · exact Or.inl (upChain_inner hchain _ _ rfl i (by simpa using hi))
          · intro k r hkr
            simp only [Nodif.put, Heap.alloc] at hkr ⊢
            rw [Dict.mem_set h.wf] at hkr
            rcases hkr with ⟨rfl, rfl⟩ | ⟨-, hkr⟩
            · simpa [Node.new] using hne
            · have hr : r ≠ s.heap.next := Nat.ne_of_lt (h.fresh k r hkr)
              simp only [hr, if_false]
              exact hno k r hkr
      · simp only [hd, if_false]
        exact ⟨s, rfl, h, hno⟩
  · rw [if_neg hc]
    exact ⟨s, rfl, h, hno⟩

/-- Effect of the particles on a node. -/
theorem addParticle_fold (key : Nat) (l : List Nat) (hlt : ∀ i ∈ l, i < tokens.length) (n : Node) :
    ∃ n' toks, l.foldlM (addParticle lower tokens key) n = .ok n' ∧
      List.Forall₂ (fun (i : Nat) tok => tokens[i]? = some tok) (l.filter fun i => key < i) toks ∧
      n' = { n with particles := n.particles ++ toks.map lower,
                    isInfTo := n.isInfTo || l.any fun i => decide (i ≤ key ∧ ∃ tok ∈ tokens[i]?, lower tok = c!"to") } := by
  induction l generalizing n with
  | nil => exact ⟨n, [], rfl, .nil, by simp⟩
  | cons i l ih =>
    have hi := hlt i (by simp)
    have hidx := index_lt tokens i hi
    by_cases hk : key < i
    · obtain ⟨n', toks, h1, h2, h3⟩ := ih (fun j hj => hlt j (by simp [hj]))
        { n with particles := n.particles ++ [lower tokens[i]] }
      refine ⟨n', tokens[i] :: toks, ?_, ?_, ?_⟩
      · rw [List.foldlM_cons]
        simp only [addParticle, hidx, bind, Except.bind, gt_iff_lt, hk, if_true]
        exact h1
      · rw [List.filter_cons, if_pos (by simpa using hk)]
        exact .cons (List.getElem?_eq_getElem hi) h2
      · rw [h3]
        have : ¬ i ≤ key := by omega
        simp [this]
    · have hk' : i ≤ key := by omega
      by_cases hto : lower tokens[i] = c!"to"
      · obtain ⟨n', toks, h1, h2, h3⟩ := ih (fun j hj => hlt j (by simp [hj])) { n with isInfTo := true }
        refine ⟨n', toks, ?_, ?_, ?_⟩
        · rw [List.foldlM_cons]
          simp only [addParticle, hidx, bind, Except.bind, gt_iff_lt, hk, if_false, hto, if_true]
          exact h1
        · rw [List.filter_cons, if_neg (by simpa using hk)]
          exact h2
        · rw [h3]
          simp [hk', List.getElem?_eq_getElem hi, hto]
      · obtain ⟨n', toks, h1, h2, h3⟩ := ih (fun j hj => hlt j (by simp [hj])) n
        refine ⟨n', toks, ?_, ?_, ?_⟩
        · rw [List.foldlM_cons]
          simp only [addParticle, hidx, bind, Except.bind, gt_iff_lt, hk, if_false, hto]
          exact h1
        · rw [List.filter_cons, if_neg (by simpa using hk)]
          exact h2
        · rw [h3]
          have : ¬ (decide (i ≤ key ∧ ∃ tok ∈ tokens[i]?, lower tok = c!"to")) = true := by
            simp [hk', List.getElem?_eq_getElem hi, hto]
          rw [List.any_cons, Bool.eq_false_iff.mpr this]
          simp

theorem mem_part_children (key i : Nat) :
    i ∈ ((t.children key).filter fun c => c.1 = .PART).map Prod.snd ↔ (Dep.PART, i) ∈ t.children key := by
  simp only [List.mem_map, List.mem_filter, decide_eq_true_eq]
  constructor
  · rintro ⟨⟨d, c⟩, ⟨h1, h2⟩, rfl⟩
    simp only at h2
    rw [← h2]; exact h1
  · intro h
    exact ⟨_, ⟨h, rfl⟩, rfl⟩

/-- State after the flattening loop: entries whose key is the node's index have children. -/
def KeyHasChild (t : Tree Dep Nat) (s : Nodif) : Prop :=
  ∀ k r, (k, r) ∈ s.dict → (s.heap.node r).idx = k → t.children k ≠ []

theorem particleStep_inv (H : IdxTree t tokens.length arcs) (hl : tags.length = tokens.length) (s : Nodif)
    (tok : Str × Nat) (hm : tok ∈ tokens.zipIdx)
    (h : NodInv t arcs lower tokens tags s ∧ KeyHasChild t s) :
    ∃ s', particleStep lower tokens tags t s tok = .ok s' ∧ (NodInv t arcs lower tokens tags s' ∧ KeyHasChild t s') ∧
      ((∃ i, (Dep.PART, i) ∈ t.children tok.2) → tok.2 ∈ s'.dict.keys) ∧
      ∀ b : Str × Nat, ((∃ i, (Dep.PART, i) ∈ t.children b.2) → b.2 ∈ s.dict.keys) →
        ((∃ i, (Dep.PART, i) ∈ t.children b.2) → b.2 ∈ s'.dict.keys) := by
  obtain ⟨h, hch⟩ := h
  unfold particleStep
  set parts := ((t.children tok.2).filter fun c => c.1 = .PART).map Prod.snd with hparts
  by_cases hp : parts = []
  · rw [if_pos hp]
    refine ⟨s, rfl, ⟨h, hch⟩, ?_, fun _ h => h⟩
    rintro ⟨i, hi⟩
    rw [← mem_part_children, ← hparts, hp] at hi
    simp at hi
  · rw [if_neg hp]
    have htok := zipIdx_tok hm
    have hlt : tok.2 < tokens.length := (List.getElem?_eq_some_iff.mp htok).1
    have hpl : ∀ i ∈ parts.insertionSort (· ≤ ·), i < tokens.length := by
      intro i hi
      have hi : i ∈ parts := (List.mem_insertionSort _).mp hi
      rw [hparts, mem_part_children, H.inv.mem_children] at hi
      exact (H.lt _ hi).2
    have h7 : index tags (tok.2 : Int) = .ok (tags[tok.2]'(by omega)) := index_lt tags tok.2 (by omega)
    obtain ⟨n', toks, h1, h2, h3⟩ := addParticle_fold (lower := lower) tok.2 _ hpl
      (Node.new lower tok.2 tok.1 (tags[tok.2]'(by omega)))
    have hidx : n'.idx = tok.2 := by rw [h3]; rfl
    have hcne : t.children tok.2 ≠ [] := by
      intro e
      rw [hparts, e] at hp
      simp at hp
    refine ⟨_, by simp only [h7, bind, Except.bind, h1]; rfl, ⟨?_, ?_⟩, ?_, ?_⟩
    · apply h.put
      · intro i hi; exact List.mem_append_left _ hi
      · intro k r hkr e; exact Or.inl (hch k r hkr e)
      · refine ⟨?_, ?_, ?_, Or.inl ⟨hidx, Or.inl hcne, ?_, ?_, ?_⟩⟩
        · rw [hidx, h3]; exact List.getElem?_eq_getElem (by omega)
        · rw [h3]
          constructor
          · constructor <;> rfl
          · rfl
        · rw [h3]; rfl
        · rw [h3]; exact htok
        · refine ⟨_, toks, ?_, ?_, h2, ?_⟩
          · exact (List.pairwise_insertionSort (· ≤ ·) parts).filter _
          · refine ((List.perm_insertionSort (· ≤ ·) parts).filter _).trans ?_
            rw [hparts, List.filter_map, List.filter_filter]
            apply List.Perm.map
            apply List.Perm.of_eq
            apply List.filter_congr
            intro c _
            simp only [Function.comp]
            by_cases e1 : c.1 = .PART <;> by_cases e2 : tok.2 < c.2 <;> simp [e1, e2]
          · rw [h3]; simp [Node.new]
        · rw [h3]
          simp only [Node.new, Bool.false_or, List.any_eq_true, decide_eq_true_eq, InfTo, List.mem_insertionSort]
          constructor
          · rintro ⟨i, hi, h5, tk, h6, h8⟩
            exact ⟨i, tk, h5, (mem_part_children _ _).mp hi, h6, h8⟩
          · rintro ⟨i, tk, h5, hi, h6, h8⟩
            exact ⟨i, (mem_part_children _ _).mpr hi, h5, tk, h6, h8⟩
      · intro i hi hns
        rcases List.mem_append.mp hi with hi | hi
        · exact absurd hi hns
        · rw [hparts, mem_part_children, H.inv.mem_children] at hi
          exact Or.inr (Or.inl ⟨_, hi⟩)
    · intro k r hkr
      simp only [Nodif.put, Heap.alloc] at hkr ⊢
      rw [Dict.mem_set h.wf] at hkr
      rcases hkr with ⟨rfl, rfl⟩ | ⟨-, hkr⟩
      · intro _; exact hcne
      · have hr : r ≠ s.heap.next := Nat.ne_of_lt (h.fresh k r hkr)
        simp only [hr, if_false]
        exact hch k r hkr
    · intro _
      simp only [Nodif.put]
      rw [Dict.mem_keys_set]
      exact Or.inl rfl
    · intro b hb hb'
      simp only [Nodif.put]
      rw [Dict.mem_keys_set]
      exact Or.inr (hb hb')

theorem remainingStep_inv (hl : tags.length = tokens.length) (bl : List Nat) (s : Nodif)
    (tok : Str × Nat) (hm : tok ∈ tokens.zipIdx)
    (h : NodInv t arcs lower tokens tags s ∧ s.bl = bl ∧
      ∀ i < tokens.length, (∃ c, (Dep.PART, c) ∈ t.children i) → i ∈ s.dict.keys) :
    ∃ s', remainingStep lower tags s tok = .ok s' ∧ (NodInv t arcs lower tokens tags s' ∧ s'.bl = bl ∧
      ∀ i < tokens.length, (∃ c, (Dep.PART, c) ∈ t.children i) → i ∈ s'.dict.keys) ∧
      (tok.2 ∈ bl ∨ tok.2 ∈ s'.dict.keys) ∧
      ∀ b : Str × Nat, (b.2 ∈ bl ∨ b.2 ∈ s.dict.keys) → (b.2 ∈ bl ∨ b.2 ∈ s'.dict.keys) := by
  obtain ⟨h, hbl, hpart⟩ := h
  unfold remainingStep
  by_cases hc : s.dict.has tok.2 = false ∧ tok.2 ∉ s.bl
  · rw [if_pos hc]
    have htok := zipIdx_tok hm
    have hlt : tok.2 < tokens.length := (List.getElem?_eq_some_iff.mp htok).1
    have h7 : index tags (tok.2 : Int) = .ok (tags[tok.2]'(by omega)) := index_lt tags tok.2 (by omega)
    have hnk : tok.2 ∉ s.dict.keys := by
      rw [← Dict.has_iff]; simp [hc.1]
    have hnp : ∀ c, (Dep.PART, c) ∉ t.children tok.2 := fun c hcc => hnk (hpart _ hlt ⟨c, hcc⟩)
    have hfilter : ∀ q : Nat → Prop, [DecidablePred q] →
        ((t.children tok.2).filter fun c => c.1 = .PART ∧ q c.2) = [] := by
      intro q _
      rw [List.filter_eq_nil_iff]
      rintro ⟨d, c⟩ hdc
      simp only [decide_eq_true_eq, not_and]
      intro e
      subst e
      exact absurd hdc (hnp c)
    refine ⟨s.put tok.2 (Node.new lower tok.2 tok.1 (tags[tok.2]'(by omega))),
      by simp only [h7, bind, Except.bind]; rfl, ⟨?_, hbl, ?_⟩, ?_, ?_⟩
    · refine h.put tok.2 _ s.bl (fun i hi => hi) ?_ ?_ ?_
      · intro k r hkr e
        rcases (h.ent k r hkr).kind with ⟨_, h2, _⟩ | ⟨h1, h2, _, _, up, _, hch, _⟩
        · exact h2
        · rw [e] at hch h2
          -- a node cannot be above itself
          exact Or.inl (by
            intro _
            have := upChain_top hch _ _ rfl
            obtain ⟨q, hq⟩ := upChain_step hch (by simp)
            exact this _ hq)
      · refine ⟨List.getElem?_eq_getElem (by simpa [Node.new] using (by omega : tok.2 < tags.length)), blank_new _ _ _, rfl,
          Or.inl ⟨rfl, Or.inr hc.2, htok, ?_, ?_⟩⟩
        · refine ⟨[], [], .nil, ?_, .nil, rfl⟩
          rw [hfilter (fun i => tok.2 < i)]
          exact List.Perm.nil
        · constructor
          · intro e; simp [Node.new] at e
          · rintro ⟨i, tk, _, hi, _⟩
            exact absurd hi (hnp i)
      · intro i hi hns; exact absurd hi hns
    · intro i hi hcc
      simp only [Nodif.put]
      rw [Dict.mem_keys_set]
      exact Or.inr (hpart i hi hcc)
    · right
      simp only [Nodif.put]
      rw [Dict.mem_keys_set]
      exact Or.inl rfl
    · rintro b (hb | hb)
      · exact Or.inl hb
      · right
        simp only [Nodif.put]
        rw [Dict.mem_keys_set]
        exact Or.inr hb
  · rw [if_neg hc]
    refine ⟨s, rfl, ⟨h, hbl, hpart⟩, ?_, fun _ h => h⟩
    by_cases hb : tok.2 ∈ s.bl
    · exact Or.inl (hbl ▸ hb)
    · right
      rw [← Dict.has_iff]
      by_contra hh
      exact hc ⟨by simpa using hh, hb⟩


theorem bl_mono_flatten {s s' : Nodif} {tok : Str × Nat} (h : flattenStep lower tokens tags t s tok = .ok s') :
    ∀ i ∈ s.bl, i ∈ s'.bl := by
  unfold flattenStep at h
  split at h
  · split at h
    · cases h; exact fun _ h => h
    · split at h
      · simp only [bind, Except.bind] at h
        split at h
        · cases h
        split at h
        · cases h
        split at h
        · cases h
        split at h
        · cases h
        cases h
        exact fun i hi => List.mem_append_left _ hi
      · cases h; exact fun _ h => h
  · cases h; exact fun _ h => h

theorem bl_mono_particle {s s' : Nodif} {tok : Str × Nat} (h : particleStep lower tokens tags t s tok = .ok s') :
    ∀ i ∈ s.bl, i ∈ s'.bl := by
  unfold particleStep at h
  simp only [bind, Except.bind] at h
  split at h
  · cases h; exact fun _ h => h
  · split at h
    · cases h
    split at h
    · cases h
    cases h
    exact fun i hi => List.mem_append_left _ hi

theorem ofPairs_nodup_keys {κ ν : Type} [DecidableEq κ] (l : List (κ × ν)) (h : (l.map Prod.fst).Nodup) :
    Dict.ofPairs l = l := by
  have : ∀ (acc l : List (κ × ν)), ((acc ++ l).map Prod.fst).Nodup →
      l.foldl (fun d p => Dict.set d p.1 p.2) acc = acc ++ l := by
    intro acc l
    induction l generalizing acc with
    | nil => simp
    | cons p l ih =>
      intro hn
      have hp : p.1 ∉ Dict.keys acc := by
        simp only [List.map_append, List.map_cons] at hn
        intro hm
        exact (List.nodup_append.mp hn).2.2 p.1 hm p.1 (by simp) rfl
      rw [List.foldl_cons, Dict.set_of_not_mem hp]
      rw [ih _ (by simpa using hn)]
      simp
  simpa [Dict.ofPairs] using this [] l (by simpa using h)

theorem mem_nodeArcs {dict : Dict Nat Ref} (hw : dict.Wf) {d : Dep} {r r' : Ref} :
    (d, r, r') ∈ nodeArcs t dict ↔ ∃ k k', (k, r) ∈ dict ∧ (k', r') ∈ dict ∧ (d, k') ∈ t.children k := by
  simp only [nodeArcs, List.mem_flatMap, List.mem_filterMap, Option.map_eq_some_iff, Prod.exists, Prod.mk.injEq]
  constructor
  · rintro ⟨k, r1, hk, d', k', hc, r2, hg, rfl, rfl, rfl⟩
    exact ⟨k, k', hk, Dict.mem_of_get? hg, hc⟩
  · rintro ⟨k, k', h1, h2, h3⟩
    exact ⟨k, r, h1, d, k', h3, r', Dict.get?_of_mem hw h2, rfl, rfl, rfl⟩

theorem NodInv.key_unique {s : Nodif} (h : NodInv t arcs lower tokens tags s) {k k' : Nat} {r : Ref}
    (h1 : (k, r) ∈ s.dict) (h2 : (k', r) ∈ s.dict) : k = k' := by
  have := List.inj_on_of_nodup_map h.vals h1 h2 rfl
  exact congrArg Prod.fst this

/-- Two nodes never share an index. -/
theorem NodInv.idx_unique {s : Nodif} (h : NodInv t arcs lower tokens tags s) {k k' : Nat} {r r' : Ref}
    (h1 : (k, r) ∈ s.dict) (h2 : (k', r') ∈ s.dict) (e : (s.heap.node r).idx = (s.heap.node r').idx) :
    k = k' ∧ r = r' := by
  have hk : k = k' := by
    rcases (h.ent k r h1).kind with ⟨a1, a2, _⟩ | ⟨a1, a2, _, _, up, _, a3, _⟩ <;>
    rcases (h.ent k' r' h2).kind with ⟨b1, b2, _⟩ | ⟨b1, b2, _, _, up', _, b3, _⟩
    · omega
    · exfalso
      rw [← e, a1] at b1 b2
      rcases a2 with a2 | a2
      · exact a2 b2
      · exact a2 b1
    · exfalso
      rw [e, b1] at a1 a2
      rcases b2 with b2 | b2
      · exact b2 a2
      · exact b2 a1
    · rw [← e] at b3
      have := upChain_unique a3 b3
      have := congrArg List.getLast? this
      simpa using this
  subst hk
  have e1 := Dict.get?_of_mem h.wf h1
  have e2 := Dict.get?_of_mem h.wf h2
  rw [e1] at e2
  exact ⟨rfl, Option.some.inj e2⟩

/-- The result of nodification of a tree with an arc from its root, with the states after its three loops. -/
theorem nodify_full (H : IdxTree t tokens.length arcs) (hl : tags.length = tokens.length)
    (hrp : ∀ a ∈ arcs, a.2.2 ≠ t.root) (hrc : ∃ a ∈ arcs, a.2.1 = t.root) :
    ∃ s nt dict, (nodify lower tokens tags (some t) = .ok (s.heap, dict, some nt) ∧
      NodInv t arcs lower tokens tags s ∧ (∀ i < tokens.length, i ∈ s.bl ∨ i ∈ s.dict.keys) ∧
      (∀ i < tokens.length, t.hasNode i = false → i ∈ s.bl) ∧
      (t.root, nt.root) ∈ s.dict ∧ buildTree nt.root (nodeArcs t s.dict) = .ok nt ∧
      dict.Wf ∧
      ∀ i r, (i, r) ∈ dict ↔ (∃ k, (k, r) ∈ s.dict) ∧ (s.heap.node r).idx = i ∧
        nt.hasParentViaSet r functionalDeps = false) ∧
      (∃ s₁ s₂, tokens.zipIdx.foldlM (flattenStep lower tokens tags t)
          { heap := Heap.empty, dict := [], bl := nodepIdxs tokens t } = .ok s₁ ∧
        tokens.zipIdx.foldlM (particleStep lower tokens tags t) s₁ = .ok s₂ ∧
        tokens.zipIdx.foldlM (remainingStep lower tags) s₂ = .ok s) ∧
      dict = Dict.ofPairs ((s.dict.values.filter fun r => !nt.hasParentViaSet r functionalDeps).map fun r =>
        ((s.heap.node r).idx, r)) := by
  obtain ⟨a₀, ha₀, hra₀⟩ := hrc
  have hrlt : t.root < tokens.length := by rw [← hra₀]; exact (H.lt _ ha₀).1
  have hlen : t.len ≠ 1 := by
    have : a₀.2.2 ∈ t.parents.keys := by
      rw [H.inv.parKeys, mem_firstSeen]
      exact List.mem_map.mpr ⟨_, ha₀, rfl⟩
    have := List.length_pos_of_mem this
    unfold Tree.len; omega
  set s₀ : Nodif := { heap := Heap.empty, dict := [], bl := nodepIdxs tokens t } with hs₀
  have hnodep : ∀ i, i ∈ nodepIdxs tokens t ↔ i < tokens.length ∧ t.hasNode i = false := by
    intro i; simp [nodepIdxs]
  have inv₀ : NodInv t arcs lower tokens tags s₀ := by
    refine ⟨Dict.Wf.nil, by simp [hs₀, Dict.values], by simp [hs₀], by simp [hs₀], ?_⟩
    intro i hi
    left
    rw [← H.hasNode]
    rw [((hnodep i).mp hi).2]
    simp
  obtain ⟨s₁, e1, ⟨inv₁, hno₁⟩, hb₁⟩ : ∃ s₁, tokens.zipIdx.foldlM (flattenStep lower tokens tags t) s₀ = .ok s₁ ∧
      (NodInv t arcs lower tokens tags s₁ ∧ ∀ k r, (k, r) ∈ s₁.dict → (s₁.heap.node r).idx ≠ k) ∧
      ∀ i ∈ s₀.bl, i ∈ s₁.bl := by
    obtain ⟨s', h1, h2, h3⟩ := foldlM_inv (flattenStep lower tokens tags t)
      (fun s => (NodInv t arcs lower tokens tags s ∧ ∀ k r, (k, r) ∈ s.dict → (s.heap.node r).idx ≠ k) ∧
        ∀ i ∈ s₀.bl, i ∈ s.bl) tokens.zipIdx
      (by
        intro s b hb ⟨h1, h2⟩
        obtain ⟨s', e, h3⟩ := flattenStep_inv H hl s b hb h1
        exact ⟨s', e, h3, fun i hi => bl_mono_flatten e i (h2 i hi)⟩)
      s₀ ⟨⟨inv₀, by simp [hs₀]⟩, fun _ h => h⟩
    exact ⟨s', h1, h2, h3⟩
  obtain ⟨s₂, e2, ⟨⟨inv₂, _⟩, hb₂⟩, hp₂, -⟩ := foldlM_inv_each (particleStep lower tokens tags t)
      (fun s => (NodInv t arcs lower tokens tags s ∧ KeyHasChild t s) ∧ ∀ i ∈ s₀.bl, i ∈ s.bl)
      (fun b s => (∃ i, (Dep.PART, i) ∈ t.children b.2) → b.2 ∈ s.dict.keys) tokens.zipIdx
      (by
        intro s b hb ⟨h1, h2⟩
        obtain ⟨s', e, h3, h4, h5⟩ := particleStep_inv H hl s b hb h1
        exact ⟨s', e, ⟨h3, fun i hi => bl_mono_particle e i (h2 i hi)⟩, h4, h5⟩)
      s₁ ⟨⟨inv₁, fun k r hkr e => absurd e (hno₁ k r hkr)⟩, hb₁⟩
  have hz : ∀ i < tokens.length, ∃ b ∈ tokens.zipIdx, b.2 = i := by
    intro i hi
    refine ⟨(tokens[i], i), ?_, rfl⟩
    rw [List.mem_zipIdx_iff_getElem?]
    exact List.getElem?_eq_getElem hi
  obtain ⟨s₃, e3, ⟨inv₃, hbl₃, _⟩, hp₃, -⟩ := foldlM_inv_each (remainingStep lower tags)
      (fun s => NodInv t arcs lower tokens tags s ∧ s.bl = s₂.bl ∧
        ∀ i < tokens.length, (∃ c, (Dep.PART, c) ∈ t.children i) → i ∈ s.dict.keys)
      (fun b s => b.2 ∈ s₂.bl ∨ b.2 ∈ s.dict.keys) tokens.zipIdx
      (fun s b hb h => remainingStep_inv hl s₂.bl s b hb h)
      s₂ ⟨inv₂, rfl, by
        intro i hi hc
        obtain ⟨b, hb, rfl⟩ := hz i hi
        exact hp₂ b hb hc⟩
  have hall : ∀ i < tokens.length, i ∈ s₃.bl ∨ i ∈ s₃.dict.keys := by
    intro i hi
    obtain ⟨b, hb, rfl⟩ := hz i hi
    rw [hbl₃]
    exact hp₃ b hb
  have hrk : t.root ∈ s₃.dict.keys := by
    rcases hall t.root hrlt with h | h
    · rcases inv₃.blOk _ h with e | ⟨p, e⟩ | ⟨p, e⟩ | ⟨_, e⟩
      · exact absurd ⟨a₀, ha₀, Or.inl hra₀⟩ e
      · rw [H.inv.parent] at e
        exact absurd rfl (hrp _ (lastParent_mem e))
      · exact absurd rfl (hrp _ e)
      · exact e
    · exact h
  obtain ⟨rr, hrr⟩ := Option.isSome_iff_exists.mp ((Dict.get?_isSome_iff _ _).mpr hrk)
  obtain ⟨nt, hnt⟩ := buildTree_total rr (nodeArcs t s₃.dict) (by
    rintro ⟨d, r, r'⟩ hm e
    simp only at e
    subst e
    obtain ⟨k, k', h1, h2, h3⟩ := (mem_nodeArcs inv₃.wf).mp hm
    have := inv₃.key_unique h1 h2
    subst this
    exact H.inv.ne _ ((H.inv.mem_children _ _ _).mp h3) rfl)
  have hroot : nt.root = rr := (buildTree_inv hnt).root_eq
  set kept := s₃.dict.values.filter fun r => !nt.hasParentViaSet r functionalDeps with hkept
  have hget : s₃.dict.get t.root = .ok rr := by simp [Dict.get, hrr]
  have hmk : ∀ r, r ∈ kept ↔ (∃ k, (k, r) ∈ s₃.dict) ∧ nt.hasParentViaSet r functionalDeps = false := by
    intro r
    simp only [hkept, List.mem_filter, Dict.values, List.mem_map, Prod.exists, Bool.not_eq_true']
    constructor
    · rintro ⟨⟨k, r', h1, rfl⟩, h2⟩; exact ⟨⟨k, h1⟩, h2⟩
    · rintro ⟨⟨k, h1⟩, h2⟩; exact ⟨⟨k, r, h1, rfl⟩, h2⟩
  have hnd : ((kept.map fun r => ((s₃.heap.node r).idx, r)).map Prod.fst).Nodup := by
    rw [List.map_map]
    refine List.Nodup.map_on ?_ (inv₃.vals.filter _)
    intro r hr r' hr' e
    obtain ⟨⟨k, h1⟩, -⟩ := (hmk r).mp hr
    obtain ⟨⟨k', h2⟩, -⟩ := (hmk r').mp hr'
    exact (inv₃.idx_unique h1 h2 e).2
  refine ⟨s₃, nt, Dict.ofPairs (kept.map fun r => ((s₃.heap.node r).idx, r)), ⟨?_, inv₃, hall, ?_, ?_, ?_,
    Dict.Wf.ofPairs _, ?_⟩, ⟨s₁, s₂, e1, e2, e3⟩, rfl⟩
  · simp only [nodify, hlen, if_false]
    rw [← hs₀]
    simp only [e1, e2, e3, hget, hnt, bind, Except.bind]
    rfl
  · intro i hi hn
    rw [hbl₃]
    exact hb₂ i ((hnodep i).mpr ⟨hi, hn⟩)
  · rw [hroot]; exact Dict.mem_of_get? hrr
  · rw [hroot]; exact hnt
  · intro i r
    rw [ofPairs_nodup_keys _ hnd]
    simp only [List.mem_map, Prod.mk.injEq]
    constructor
    · rintro ⟨r', h1, rfl, rfl⟩
      exact ⟨((hmk _).mp h1).1, rfl, ((hmk _).mp h1).2⟩
    · rintro ⟨h1, rfl, h2⟩
      exact ⟨r, (hmk _).mpr ⟨h1, h2⟩, rfl, rfl⟩

/-- The result of nodification of a tree with an arc from its root. -/
theorem nodify_spec (H : IdxTree t tokens.length arcs) (hl : tags.length = tokens.length)
    (hrp : ∀ a ∈ arcs, a.2.2 ≠ t.root) (hrc : ∃ a ∈ arcs, a.2.1 = t.root) :
    ∃ s nt dict, nodify lower tokens tags (some t) = .ok (s.heap, dict, some nt) ∧
      NodInv t arcs lower tokens tags s ∧ (∀ i < tokens.length, i ∈ s.bl ∨ i ∈ s.dict.keys) ∧
      (∀ i < tokens.length, t.hasNode i = false → i ∈ s.bl) ∧
      (t.root, nt.root) ∈ s.dict ∧ buildTree nt.root (nodeArcs t s.dict) = .ok nt ∧
      dict.Wf ∧
      ∀ i r, (i, r) ∈ dict ↔ (∃ k, (k, r) ∈ s.dict) ∧ (s.heap.node r).idx = i ∧
        nt.hasParentViaSet r functionalDeps = false := by
  obtain ⟨s, nt, dict, h, -⟩ := nodify_full (lower := lower) H hl hrp hrc
  exact ⟨s, nt, dict, h⟩

end
end Model
