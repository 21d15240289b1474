import Verif.Lemmas.Nodifier
import Verif.Spec.NodeOrder

/-! Lemmas on the order of nodes. -/

namespace Model
open Py Spec

/-- Indexes of the nodes of a working state, in order. -/
def Nodif.idxs (s : Nodif) : List Nat := s.dict.map fun p => (s.heap.node p.2).idx

theorem upChain_from {L N : Type} {parent : N → Option (L × N)} {l : L} {x : N} {path : List N}
    (h : UpChain parent l x path) : ∀ y ∈ path, ∃ z ∈ x :: path, parent z = some (l, y) := by
  induction h with
  | stop _ => simp
  | @step n p ps hp _ ih =>
    intro y hy
    rcases List.mem_cons.mp hy with rfl | hy
    · exact ⟨n, by simp, hp⟩
    · obtain ⟨z, hz, e⟩ := ih y hy
      exact ⟨z, List.mem_cons_of_mem _ hz, e⟩

/-- Of two chains to the same top, one is part of the other, if a node has only one child by the label. -/
theorem upChain_meet {L N : Type} {parent : N → Option (L × N)} {l : L}
    (hu : ∀ x y p, parent x = some (l, p) → parent y = some (l, p) → x = y) {j : N} {path' : List N}
    (h' : UpChain parent l j path') {i : N} {path : List N} (h : UpChain parent l i path)
    (hk : (i :: path).getLast (by simp) ∈ j :: path') : i ∈ j :: path' ∨ j ∈ i :: path := by
  induction h with
  | stop _ => exact Or.inl hk
  | @step n p ps hp _ ih =>
    rcases ih (by simpa using hk) with h1 | h1
    · rcases List.mem_cons.mp h1 with rfl | h1
      · exact Or.inr (by simp)
      · obtain ⟨z, hz, e⟩ := upChain_from h' p h1
        rw [hu n z p hp e]
        exact Or.inl hz
    · exact Or.inr (List.mem_cons_of_mem _ h1)

theorem upChain_same {L N : Type} {parent : N → Option (L × N)} {l : L}
    (hu : ∀ x y p, parent x = some (l, p) → parent y = some (l, p) → x = y) {i j k : N} {up up' : List N}
    (h : UpChain parent l i (up ++ [k])) (h' : UpChain parent l j (up' ++ [k]))
    (hi : ∀ z, parent z ≠ some (l, i)) (hj : ∀ z, parent z ≠ some (l, j)) : i = j := by
  rcases upChain_meet hu h' h (by simp) with e | e
  · rcases List.mem_cons.mp e with e | e
    · exact e
    · obtain ⟨z, hz⟩ := upChain_mem h' i e
      exact absurd hz (hi z)
  · rcases List.mem_cons.mp e with e | e
    · exact e.symm
    · obtain ⟨z, hz⟩ := upChain_mem h j e
      exact absurd hz (hj z)

/-- A loop whose steps append the selected items to a list. -/
theorem foldlM_out {ε σ β : Type} (f : σ → β × Nat → Except ε σ) (P : σ → Prop) (out : σ → List Nat) (sel : Nat → Bool)
    (l : List (β × Nat)) (hn : (l.map Prod.snd).Nodup)
    (hstep : ∀ s b s', b ∈ l → P s → f s b = .ok s' → (sel b.2 = true → b.2 ∉ out s) →
      P s' ∧ out s' = out s ++ [b.2].filter sel) :
    ∀ s s', P s → (∀ b ∈ l, sel b.2 = true → b.2 ∉ out s) → l.foldlM f s = .ok s' →
      P s' ∧ out s' = out s ++ (l.map Prod.snd).filter sel := by
  induction l with
  | nil =>
    intro s s' hs _ e
    cases e
    exact ⟨hs, by simp⟩
  | cons b l ih =>
    intro s s' hs hf e
    rw [List.foldlM_cons] at e
    cases hb : f s b with
    | error x => rw [hb] at e; cases e
    | ok s1 =>
      rw [hb] at e
      obtain ⟨h1, h2⟩ := hstep s b s1 (by simp) hs hb (hf b (by simp))
      simp only [List.map_cons, List.nodup_cons] at hn
      obtain ⟨h3, h4⟩ := ih hn.2 (fun s b s' hb => hstep s b s' (by simp [hb])) s1 s' h1 (by
        intro c hc hsel hm
        rw [h2] at hm
        rcases List.mem_append.mp hm with hm | hm
        · exact hf c (by simp [hc]) hsel hm
        · have := (List.mem_filter.mp hm).1
          simp only [List.mem_singleton] at this
          exact hn.1 (this ▸ List.mem_map_of_mem hc)) e
      refine ⟨h3, ?_⟩
      rw [h4, h2, List.append_assoc, ← List.filter_append]
      rfl

section
variable {t : Tree Dep Nat} {arcs : List Arc} {lower : Str → Str} {tokens : List Str} {tags : List Tag}

theorem NodInv.idxs_put {s : Nodif} (h : NodInv t arcs lower tokens tags s) {key : Nat} (hk : key ∉ s.dict.keys)
    (n : Node) (bl : List Nat) : Nodif.idxs { s.put key n with bl := bl } = s.idxs ++ [n.idx] := by
  simp only [Nodif.idxs, Nodif.put, Heap.alloc, Dict.set_of_not_mem hk, List.map_append, List.map_cons, List.map_nil,
    if_true]
  congr 1
  refine List.map_congr_left ?_
  rintro ⟨k, r⟩ hr
  have : r ≠ s.heap.next := Nat.ne_of_lt (h.fresh k r hr)
  simp [this]

theorem mem_idxs {s : Nodif} {i : Nat} : i ∈ s.idxs ↔ ∃ k r, (k, r) ∈ s.dict ∧ (s.heap.node r).idx = i := by
  simp [Nodif.idxs]

theorem exists_of_key {d : Dict Nat Ref} {k : Nat} (h : k ∈ d.keys) : ∃ r, (k, r) ∈ d := by
  obtain ⟨⟨a, r⟩, h1, rfl⟩ := List.mem_map.mp h
  exact ⟨r, h1⟩

theorem IdxTree.child_of_parent {n : Nat} (H : IdxTree t n arcs) {d : Dep} {z p : Nat}
    (h : t.parent z = some (d, p)) : (d, z) ∈ t.children p := by
  rw [H.inv.parent] at h
  exact (H.inv.mem_children p z d).mpr (lastParent_mem h)

theorem flatten_out (H : IdxTree t tokens.length arcs)
    (h1 : ∀ p x y, (Dep.FLAT, x) ∈ t.children p → (Dep.FLAT, y) ∈ t.children p → x = y) (s s' : Nodif)
    (tok : Str × Nat) (h : NodInv t arcs lower tokens tags s ∧ ∀ k r, (k, r) ∈ s.dict → (s.heap.node r).idx ≠ k)
    (e : flattenStep lower tokens tags t s tok = .ok s') (hf : endsFlat t tok.2 = true → tok.2 ∉ s.idxs) :
    s'.idxs = s.idxs ++ [tok.2].filter (endsFlat t) := by
  unfold flattenStep at e
  by_cases hc : t.children tok.2 = []
  · rw [if_pos hc] at e
    cases hp : t.parent tok.2 with
    | none =>
      rw [hp] at e
      cases e
      simp [endsFlat, hp]
    | some q =>
      obtain ⟨dep, p⟩ := q
      rw [hp] at e
      simp only at e
      by_cases hd : dep = .FLAT
      · subst hd
        have hsel : endsFlat t tok.2 = true := by simp [endsFlat, hc, hp]
        have hnot := hf hsel
        simp only [if_true] at e
        obtain ⟨path, h2, h3, -⟩ := H.ancestors tok.2
        cases hpath : path with
        | nil =>
          rw [hpath] at h3
          cases h3 with
          | stop hs => exact absurd hp (hs p)
        | cons top rest =>
          subst hpath
          have hchain : UpChain t.parent .FLAT tok.2 (rest.reverse ++ [top]) := by simpa using h3
          have h6 : index (top :: rest) 0 = .ok top := by unfold index; simp
          have hkey : top ∉ s.dict.keys := by
            intro hm
            obtain ⟨r, hr⟩ := exists_of_key hm
            rcases (h.1.ent top r hr).kind with ⟨a1, _⟩ | ⟨_, a2, _, _, up, _, a3, _⟩
            · exact h.2 top r hr a1
            · refine hnot (mem_idxs.mpr ⟨top, r, hr, ?_⟩)
              refine upChain_same ?_ a3 hchain ?_ ?_
              · intro x y p hx hy
                exact h1 p x y (H.child_of_parent hx) (H.child_of_parent hy)
              · intro z hz
                exact absurd (H.child_of_parent hz) (by simp [a2])
              · intro z hz
                exact absurd (H.child_of_parent hz) (by simp [hc])
          rw [h2] at e
          simp only [bind, Except.bind, h6] at e
          split at e
          · cases e
          split at e
          · cases e
          cases e
          rw [h.1.idxs_put hkey]
          simp [hsel, Node.new]
      · simp only [hd, if_false] at e
        cases e
        simp [endsFlat, hp, hd]
  · rw [if_neg hc] at e
    cases e
    simp [endsFlat, hc]

theorem addParticle_idx {key : Nat} (l : List Nat) : ∀ {n n' : Node},
    l.foldlM (addParticle lower tokens key) n = .ok n' → n'.idx = n.idx := by
  induction l with
  | nil => intro n n' e; cases e; rfl
  | cons i l ih =>
    intro n n' e
    rw [List.foldlM_cons] at e
    cases hb : addParticle lower tokens key n i with
    | error x => rw [hb] at e; cases e
    | ok n1 =>
      rw [hb] at e
      rw [ih e]
      unfold addParticle at hb
      cases ht : index tokens (i : Int) with
      | error x => rw [ht] at hb; cases hb
      | ok x =>
        rw [ht] at hb
        simp only [bind, Except.bind] at hb
        split at hb
        · cases hb; rfl
        · split at hb <;> · cases hb; rfl

theorem particle_out (H : IdxTree t tokens.length arcs)
    (h2 : ∀ p x y, (Dep.FLAT, x) ∈ t.children p → (Dep.PART, y) ∉ t.children p) (s s' : Nodif)
    (tok : Str × Nat) (h : NodInv t arcs lower tokens tags s)
    (e : particleStep lower tokens tags t s tok = .ok s') (hf : hasParticle t tok.2 = true → tok.2 ∉ s.idxs) :
    s'.idxs = s.idxs ++ [tok.2].filter (hasParticle t) := by
  unfold particleStep at e
  simp only at e
  split at e
  · rename_i hp
    cases e
    have : hasParticle t tok.2 = false := by
      simp only [List.map_eq_nil_iff, List.filter_eq_nil_iff, decide_eq_true_eq] at hp
      simpa [hasParticle] using hp
    simp [this]
  · rename_i hp
    have hsel : hasParticle t tok.2 = true := by
      simp only [List.map_eq_nil_iff, List.filter_eq_nil_iff, decide_eq_true_eq, not_forall, not_not] at hp
      obtain ⟨a, ha, hd⟩ := hp
      exact List.any_eq_true.mpr ⟨a, ha, by simp [hd]⟩
    have hnot := hf hsel
    have hkey : tok.2 ∉ s.dict.keys := by
      intro hm
      obtain ⟨r, hr⟩ := exists_of_key hm
      rcases (h.ent _ r hr).kind with ⟨a1, _⟩ | ⟨_, _, _, _, up, _, a3, _⟩
      · exact hnot (mem_idxs.mpr ⟨_, r, hr, a1⟩)
      · obtain ⟨z, hz⟩ := upChain_mem a3 tok.2 (by simp)
        obtain ⟨⟨d, c⟩, hc, hd⟩ := List.any_eq_true.mp hsel
        simp only [decide_eq_true_eq] at hd
        subst hd
        exact h2 _ _ _ (H.child_of_parent hz) hc
    cases ht : index tags (tok.2 : Int) with
    | error x => rw [ht] at e; cases e
    | ok tag =>
      rw [ht] at e
      simp only [bind, Except.bind] at e
      split at e
      · cases e
      · rename_i n hn
        cases e
        rw [h.idxs_put hkey, addParticle_idx _ hn]
        simp [hsel, Node.new]

theorem remaining_out (bl out keys : List Nat) (s s' : Nodif) (tok : Str × Nat)
    (h : NodInv t arcs lower tokens tags s) (hbl : s.bl = bl) (hout : ∀ i ∈ out, i ∈ s.idxs)
    (e : remainingStep lower tags s tok = .ok s')
    (hf : decide (tok.2 ∉ out ∧ tok.2 ∉ bl ∧ tok.2 ∉ keys) = true → tok.2 ∉ s.idxs)
    (hsub : ∀ i ∈ keys, i ∈ s.dict.keys) (hkeys : tok.2 ∈ s.dict.keys → tok.2 ∈ s.idxs ∨ tok.2 ∈ keys) :
    s'.idxs = s.idxs ++ [tok.2].filter fun i => decide (i ∉ out ∧ i ∉ bl ∧ i ∉ keys) := by
  subst hbl
  have hin : tok.2 ∈ s.idxs → s.dict.has tok.2 = true ∨ tok.2 ∈ s.bl := by
    intro hm
    obtain ⟨k, r, hr, ei⟩ := mem_idxs.mp hm
    rcases (h.ent k r hr).kind with ⟨a1, _⟩ | ⟨a1, _⟩
    · left
      have : k = tok.2 := by rw [← ei, a1]
      subst this
      unfold Dict.has
      rw [Dict.get?_isSome_iff]
      exact List.mem_map_of_mem hr
    · exact Or.inr (ei ▸ a1)
  unfold remainingStep at e
  split at e
  · rename_i hc
    have hk : tok.2 ∉ s.dict.keys := by
      intro hm
      have := (Dict.get?_isSome_iff _ _).mpr hm
      unfold Dict.has at hc
      rw [hc.1] at this
      cases this
    have ho : tok.2 ∉ out := by
      intro hm
      rcases hin (hout _ hm) with h1 | h1
      · rw [hc.1] at h1; cases h1
      · exact hc.2 h1
    cases ht : index tags (tok.2 : Int) with
    | error x => rw [ht] at e; cases e
    | ok tag =>
      rw [ht] at e
      cases e
      have := h.idxs_put hk (Node.new lower tok.2 tok.1 tag) s.bl
      refine Eq.trans this ?_
      simp [ho, hc.2, mt (hsub tok.2) hk, Node.new]
  · rename_i hc
    cases e
    have : decide (tok.2 ∉ out ∧ tok.2 ∉ s.bl ∧ tok.2 ∉ keys) = false := by
      by_contra hne
      rw [Bool.not_eq_false] at hne
      have h1 := hf hne
      simp only [decide_eq_true_eq] at hne
      rw [not_and_or, Bool.not_eq_false, not_not] at hc
      rcases hc with hc | hc
      · unfold Dict.has at hc
        rcases hkeys ((Dict.get?_isSome_iff _ _).mp hc) with h2 | h2
        · exact h1 h2
        · exact hne.2.2 h2
      · exact hne.2.1 hc
    simp only [List.filter_cons, this, List.filter_nil, List.append_nil, Bool.false_eq_true, if_false]

theorem zipIdx_snd (l : List Str) : l.zipIdx.map Prod.snd = List.range l.length := by
  rw [List.zipIdx_map_snd, List.range_eq_range']

/-- The nodes come in the order of the specification. -/
theorem nodify_order (H : IdxTree t tokens.length arcs) (hl : tags.length = tokens.length)
    (hrp : ∀ a ∈ arcs, a.2.2 ≠ t.root) (hrc : ∃ a ∈ arcs, a.2.1 = t.root)
    (h1 : ∀ p x y, (Dep.FLAT, x) ∈ t.children p → (Dep.FLAT, y) ∈ t.children p → x = y)
    (h2 : ∀ p x y, (Dep.FLAT, x) ∈ t.children p → (Dep.PART, y) ∉ t.children p)
    {heap : Heap} {dict : Dict Nat Ref} {nt : Option (Tree Dep Ref)}
    (hn : nodify lower tokens tags (some t) = .ok (heap, dict, nt)) :
    List.Sublist dict.keys (nodeOrder t tokens.length) := by
  obtain ⟨s, nt', dict', ⟨e, inv, -⟩, ⟨s₁, s₂, e1, e2, e3⟩, hd⟩ := nodify_full (lower := lower) H hl hrp hrc
  rw [hn] at e
  cases e
  have hnd : (tokens.zipIdx.map Prod.snd).Nodup := by rw [zipIdx_snd]; exact List.nodup_range
  have inv₀ : NodInv t arcs lower tokens tags { heap := Heap.empty, dict := [], bl := nodepIdxs tokens t } := by
    refine ⟨Dict.Wf.nil, by simp [Dict.values], by simp, by simp, ?_⟩
    intro i hi
    left
    rw [← H.hasNode]
    have : i < tokens.length ∧ t.hasNode i = false := by simpa [nodepIdxs] using hi
    simp [this.2]
  obtain ⟨⟨inv₁, hno₁⟩, o1⟩ := foldlM_out (flattenStep lower tokens tags t)
    (fun s => NodInv t arcs lower tokens tags s ∧ ∀ k r, (k, r) ∈ s.dict → (s.heap.node r).idx ≠ k)
    Nodif.idxs (endsFlat t) tokens.zipIdx hnd (by
      intro s b s' hb hs e hf
      obtain ⟨s'', e', h3⟩ := flattenStep_inv H hl s b hb hs
      rw [e] at e'
      cases e'
      exact ⟨h3, flatten_out H h1 s s' b hs e hf⟩) _ _ ⟨inv₀, by simp⟩ (by simp [Nodif.idxs]) e1
  have o1' : s₁.idxs = (List.range tokens.length).filter (endsFlat t) := by
    rw [o1, zipIdx_snd]; simp [Nodif.idxs]
  have hdisj : ∀ i, hasParticle t i = true → endsFlat t i = false := by
    intro i hi
    obtain ⟨c, hc, -⟩ := List.any_eq_true.mp hi
    have : t.children i ≠ [] := List.ne_nil_of_mem hc
    simp [endsFlat, this]
  obtain ⟨⟨inv₂, -⟩, o2⟩ := foldlM_out (particleStep lower tokens tags t)
    (fun s => NodInv t arcs lower tokens tags s ∧ KeyHasChild t s)
    Nodif.idxs (hasParticle t) tokens.zipIdx hnd (by
      intro s b s' hb hs e hf
      obtain ⟨s'', e', h3, -⟩ := particleStep_inv H hl s b hb hs
      rw [e] at e'
      cases e'
      exact ⟨h3, particle_out H h2 s s' b hs.1 e hf⟩) _ _
      ⟨inv₁, fun k r hkr e => absurd e (hno₁ k r hkr)⟩ (by
      intro b _ hsel hm
      rw [o1'] at hm
      have := (List.mem_filter.mp hm).2
      rw [hdisj _ hsel] at this
      cases this) e2
  have o2' : s₂.idxs = (List.range tokens.length).filter (endsFlat t) ++
      (List.range tokens.length).filter (hasParticle t) := by
    rw [o2, o1', zipIdx_snd]
  have hpk : ∀ i < tokens.length, (∃ c, (Dep.PART, c) ∈ t.children i) → i ∈ s₂.dict.keys := by
    rintro i hi ⟨c, hc⟩
    have hs : hasParticle t i = true := List.any_eq_true.mpr ⟨_, hc, by simp⟩
    have hm : i ∈ s₂.idxs := by
      rw [o2']
      exact List.mem_append_right _ (List.mem_filter.mpr ⟨List.mem_range.mpr hi, hs⟩)
    obtain ⟨k, r, hr, ei⟩ := mem_idxs.mp hm
    rcases (inv₂.ent k r hr).kind with ⟨a1, _⟩ | ⟨_, a2, _⟩
    · rw [← ei, a1]
      exact List.mem_map_of_mem hr
    · rw [ei] at a2
      rw [a2] at hc
      cases hc
  obtain ⟨-, o3⟩ := foldlM_out (remainingStep lower tags)
    (fun s => (NodInv t arcs lower tokens tags s ∧ s.bl = s₂.bl ∧
      ∀ i < tokens.length, (∃ c, (Dep.PART, c) ∈ t.children i) → i ∈ s.dict.keys) ∧
      (∀ i ∈ s₂.idxs, i ∈ s.idxs) ∧ (∀ i ∈ s₂.dict.keys, i ∈ s.dict.keys) ∧
      ∀ i ∈ s.dict.keys, i ∈ s.idxs ∨ i ∈ s₂.dict.keys)
    Nodif.idxs (fun i => decide (i ∉ s₂.idxs ∧ i ∉ s₂.bl ∧ i ∉ s₂.dict.keys)) tokens.zipIdx hnd (by
      rintro s b s' hb ⟨hs, ha, hk, hki⟩ e hf
      obtain ⟨s'', e', h3, -⟩ := remainingStep_inv hl s₂.bl s b hb hs
      rw [e] at e'
      cases e'
      have ho := remaining_out s₂.bl s₂.idxs s₂.dict.keys s s' b hs.1 hs.2.1 ha e hf hk (hki b.2)
      refine ⟨⟨h3, fun i hi => ?_, fun i hi => ?_, fun i hi => ?_⟩, ho⟩
      · rw [ho]; exact List.mem_append_left _ (ha i hi)
      · have := hk i hi
        unfold remainingStep at e
        split at e
        · cases ht : index tags (b.2 : Int) with
          | error x => rw [ht] at e; cases e
          | ok tag =>
            rw [ht] at e
            cases e
            exact (Dict.mem_keys_set _ _ _ _).mpr (Or.inr this)
        · cases e; exact this
      · unfold remainingStep at e
        split at e
        · rename_i hc
          cases ht : index tags (b.2 : Int) with
          | error x => rw [ht] at e; cases e
          | ok tag =>
            rw [ht] at e
            cases e
            rcases (Dict.mem_keys_set _ _ _ _).mp hi with rfl | hi
            · left
              have hbk : b.2 ∉ s.dict.keys := by
                intro hm
                have := (Dict.get?_isSome_iff _ _).mpr hm
                have hc1 := hc.1
                unfold Dict.has at hc1
                rw [hc1] at this
                cases this
              have := hs.1.idxs_put hbk (Node.new lower b.2 b.1 tag) s.bl
              exact this ▸ List.mem_append_right _ (by simp [Node.new])
            · rcases hki i hi with h4 | h4
              · left
                rw [ho]
                exact List.mem_append_left _ h4
              · exact Or.inr h4
        · cases e; exact hki i hi) _ _
      ⟨⟨inv₂, rfl, hpk⟩, fun _ h => h, fun _ h => h, fun _ h => Or.inr h⟩ (by
      intro b _ hsel
      exact (of_decide_eq_true hsel).1) e3
  have hsub : List.Sublist s.idxs (nodeOrder t tokens.length) := by
    rw [o3, zipIdx_snd, nodeOrder, ← o2']
    refine List.Sublist.append (List.Sublist.refl _) ?_
    have : ∀ i ∈ List.range tokens.length, decide (i ∉ s₂.idxs ∧ i ∉ s₂.bl ∧ i ∉ s₂.dict.keys) =
        (decide (i ∉ s₂.idxs ∧ i ∉ s₂.bl ∧ i ∉ s₂.dict.keys) && (!endsFlat t i && !hasParticle t i)) := by
      intro i hi
      by_cases hc : i ∉ s₂.idxs ∧ i ∉ s₂.bl ∧ i ∉ s₂.dict.keys
      · have h3 := hc.1
        rw [o2'] at h3
        simp only [List.mem_append, List.mem_filter, hi, true_and, not_or, Bool.not_eq_true] at h3
        rw [decide_eq_true hc, h3.1, h3.2]
        rfl
      · rw [decide_eq_false hc]
        rfl
    rw [List.filter_congr this, ← List.filter_filter]
    exact List.filter_sublist
  refine List.Sublist.trans ?_ hsub
  have hk : (s.dict.values.filter fun r => !nt'.hasParentViaSet r functionalDeps).map (fun r => (s.heap.node r).idx) =
      dict.keys := by
    rw [hd, ofPairs_nodup_keys]
    · simp [Dict.keys, Function.comp_def]
    · rw [List.map_map]
      refine List.Nodup.map_on ?_ (inv.vals.filter _)
      intro r hr r' hr' e
      obtain ⟨⟨k, r₁⟩, h3, rfl⟩ := List.mem_map.mp (List.mem_filter.mp hr).1
      obtain ⟨⟨k', r₂⟩, h4, rfl⟩ := List.mem_map.mp (List.mem_filter.mp hr').1
      exact (inv.idx_unique h3 h4 e).2
  rw [← hk]
  have : s.idxs = s.dict.values.map fun r => (s.heap.node r).idx := by
    simp [Nodif.idxs, Dict.values, Function.comp_def]
  rw [this]
  exact List.Sublist.map _ List.filter_sublist

end
end Model
