import Verif.Lemmas.Flats
import Verif.Lemmas.FunctionWords
import Verif.Lemmas.Voice
import Verif.Spec.Nouns

/-! Replacing nouns changes no decision of the logic pipeline. -/

namespace Model
open Py Spec

/-! ### Nodification -/

section
variable {c : Logic} {tags : List Tag} {t : Tree Dep Nat} {tokens tokens' : List Str} {arcs : List Arc}

/-- Two nodes of the same replaced token, before normalization. -/
def FreshPair (lower : Str → Str) (tags : List Tag) (tokens tokens' : List Str) (n n' : Node) : Prop :=
  ∃ w w', tokens[n.idx]? = some w ∧ tokens'[n.idx]? = some w' ∧ w ≠ w' ∧ tags[n.idx]? = some n.tag ∧
    n.standard = lower w ∧ n.chunk = none ∧
    n' = { n with original := w', standard := lower w', lem := lower w', canon := lower w' }

/-- The same state of nodification, but for the nodes of replaced tokens. -/
structure NodSame (lower : Str → Str) (tags : List Tag) (tokens tokens' : List Str) (s s' : Nodif) : Prop where
  dict : s'.dict = s.dict
  bl : s'.bl = s.bl
  next : s'.heap.next = s.heap.next
  node : ∀ r, s'.heap.node r = s.heap.node r ∨
    FreshPair lower tags tokens tokens' (s.heap.node r) (s'.heap.node r) ∧ ((s.heap.node r).idx, r) ∈ s.dict

theorem NodSame.put {lower : Str → Str} {s s' : Nodif} (h : NodSame lower tags tokens tokens' s s') (ok : DictOk s) {k : Nat}
    {n n' : Node} (bl : List Nat) (hn : n' = n ∨ FreshPair lower tags tokens tokens' n n' ∧ n.idx = k)
    (hk : ∀ r, (k, r) ∈ s.dict → s'.heap.node r = s.heap.node r) :
    NodSame lower tags tokens tokens' { s.put k n with bl := bl } { s'.put k n' with bl := bl } := by
  refine ⟨?_, rfl, ?_, ?_⟩
  · simp only [Nodif.put, Heap.alloc, h.dict, h.next]
  · simp only [Nodif.put, Heap.alloc, h.next]
  · intro r
    simp only [Nodif.put, Heap.alloc, h.next]
    by_cases hr : r = s.heap.next
    · simp only [hr, if_true]
      rcases hn with rfl | ⟨h1, h2⟩
      · exact Or.inl rfl
      · refine Or.inr ⟨h1, (Dict.mem_set ok.wf).mpr (Or.inl ⟨h2, rfl⟩)⟩
    · simp only [hr, if_false]
      rcases h.node r with e | ⟨h1, h2⟩
      · exact Or.inl e
      · by_cases hi : (s.heap.node r).idx = k
        · exact Or.inl (hk r (hi ▸ h2))
        · exact Or.inr ⟨h1, (Dict.mem_set ok.wf).mpr (Or.inr ⟨hi, h2⟩)⟩

/-- Two loops over the tokens in step. -/
theorem tokens_rel {β : Type} {f f' : β → Str × Nat → Except PyErr β} (P : Nat → β → β → Prop)
    (step : ∀ (i : Nat) w w' b b' b₁ b₁', tokens[i]? = some w → tokens'[i]? = some w' → P i b b' → f b (w, i) = .ok b₁ →
      f' b' (w', i) = .ok b₁' → P (i + 1) b₁ b₁') :
    ∀ (l l' : List Str) (n : Nat), (∀ j : Nat, l[j]? = tokens[n + j]?) → (∀ j : Nat, l'[j]? = tokens'[n + j]?) → l'.length = l.length →
      ∀ b b' b₁ b₁', P n b b' → (l.zipIdx n).foldlM f b = .ok b₁ → (l'.zipIdx n).foldlM f' b' = .ok b₁' →
        P (n + l.length) b₁ b₁'
  | [], [], n, _, _, _, b, b', b₁, b₁', h, e, e' => by
    simp only [List.zipIdx_nil, List.foldlM_nil, pure, Except.pure, Except.ok.injEq] at e e'
    subst e e'
    simpa using h
  | w :: l, w' :: l', n, hl, hl', hlen, b, b', b₁, b₁', h, e, e' => by
    rw [List.zipIdx_cons, List.foldlM_cons] at e e'
    cases h1 : f b (w, n) with
    | error x => rw [h1] at e; simp [bind, Except.bind] at e
    | ok b₂ =>
      cases h2 : f' b' (w', n) with
      | error x => rw [h2] at e'; simp [bind, Except.bind] at e'
      | ok b₂' =>
        rw [h1] at e
        rw [h2] at e'
        have hw : tokens[n]? = some w := by simpa using (hl 0).symm
        have hw' : tokens'[n]? = some w' := by simpa using (hl' 0).symm
        have := tokens_rel P step l l' (n + 1) (fun j => by
            have := hl (j + 1)
            rw [List.getElem?_cons_succ] at this
            rw [this]; congr 1; omega)
          (fun j => by
            have := hl' (j + 1)
            rw [List.getElem?_cons_succ] at this
            rw [this]; congr 1; omega) (by simpa using hlen) b₂ b₂' b₁ b₁'
          (step n w w' b b' b₂ b₂' hw hw' h h1 h2) e e'
        rw [List.length_cons]
        have e3 : n + (l.length + 1) = n + 1 + l.length := by omega
        rw [e3]
        exact this
  | [], w' :: l', _, _, _, hlen, _, _, _, _, _, _, _ => by simp at hlen
  | w :: l, [], _, _, _, hlen, _, _, _, _, _, _, _ => by simp at hlen

/-- Sentences of the same length that have the same flat expressions, and the same particles in lower case. -/
structure Swapped (lower : Str → Str) (t : Tree Dep Nat) (tokens tokens' : List Str) : Prop where
  length : tokens'.length = tokens.length
  flat : ∀ i : Nat, ((∃ p, (.FLAT, i) ∈ t.children p) ∨ ∃ j, (.FLAT, j) ∈ t.children i) → tokens'[i]? = tokens[i]?
  part : ∀ i : Nat, (∃ p, (.PART, i) ∈ t.children p) → tokens'[i]?.map lower = tokens[i]?.map lower

/-- Sentences with equal words, except in some places. -/
theorem getElem?_eq_of {P : Nat → Prop} (hl : tokens'.length = tokens.length)
    (h : ∀ (i : Nat) w w', tokens[i]? = some w → tokens'[i]? = some w' → w ≠ w' → P i) {i : Nat} (hi : ¬ P i) :
    tokens'[i]? = tokens[i]? := by
  by_cases hlt : i < tokens.length
  · have hlt' : i < tokens'.length := by rw [hl]; exact hlt
    by_contra hne
    rw [List.getElem?_eq_getElem hlt, List.getElem?_eq_getElem hlt'] at hne
    exact hi (h i _ _ (List.getElem?_eq_getElem hlt) (List.getElem?_eq_getElem hlt') (fun e => hne (by rw [e])))
  · have hlt' : ¬ i < tokens'.length := by rw [hl]; exact hlt
    rw [List.getElem?_eq_none (Nat.le_of_not_lt hlt), List.getElem?_eq_none (Nat.le_of_not_lt hlt')]

theorem _root_.Spec.NounsReplaced.swapped (R : NounsReplaced c tags t tokens tokens') (lower : Str → Str) :
    Swapped lower t tokens tokens' := by
  refine ⟨R.length, ?_, ?_⟩
  · intro i hi
    refine getElem?_eq_of R.length (fun i w w' a b c => R.place i w w' a b c) ?_
    rintro ⟨h1, h2⟩
    rcases hi with ⟨p, h⟩ | ⟨j, h⟩
    · exact (h1 _ _ h).2 rfl
    · exact h2 j h
  · rintro i ⟨p, hp⟩
    rw [getElem?_eq_of R.length (fun i w w' a b c => R.place i w w' a b c) (i := i)]
    rintro ⟨h1, -⟩
    exact (h1 _ _ hp).1 (by decide)

theorem index_congr {l l' : List Str} {i : Nat} (h : l'[i]? = l[i]?) : index l' (i : Int) = index l (i : Int) := by
  rw [index_nat, index_nat]
  by_cases hi : i < l.length
  · have hi' : i < l'.length := by
      by_contra hc
      rw [List.getElem?_eq_getElem hi, List.getElem?_eq_none (by omega)] at h
      cases h
    rw [List.getElem?_eq_getElem hi, List.getElem?_eq_getElem hi', Option.some.injEq] at h
    simp only [hi, hi', dif_pos, h]
  · have hi' : ¬ i < l'.length := by
      intro hc
      rw [List.getElem?_eq_none (Nat.le_of_not_lt hi), List.getElem?_eq_getElem hc] at h
      cases h
    simp only [hi, hi', dif_neg, not_false_eq_true]

/-- Flattening reads no replaced token. -/
theorem flattenStep_nouns {n : Nat} (H : IdxTree t n arcs) {lower : Str → Str} (R : Swapped lower t tokens tokens') {i : Nat}
    {w w' : Str} (hw : tokens[i]? = some w) (hw' : tokens'[i]? = some w') (s : Nodif) :
    flattenStep lower tokens' tags t s (w', i) = flattenStep lower tokens tags t s (w, i) := by
  unfold flattenStep
  simp only
  by_cases hc : t.children i = []
  · rw [if_pos hc, if_pos hc]
    cases hp : t.parent i with
    | none => rfl
    | some q =>
      obtain ⟨dep, p⟩ := q
      simp only
      by_cases hd : dep = .FLAT
      · subst hd
        have hww : w' = w := by
          have := R.flat i (Or.inl ⟨p, H.arc hp⟩)
          rw [hw, hw', Option.some.injEq] at this
          exact this
        subst hww
        simp only [if_true]
        obtain ⟨path, h1, h2, h3⟩ := H.ancestors i
        rw [h1]
        have hm : ∀ x ∈ path, index tokens' (x : Int) = index tokens (x : Int) := by
          intro x hx
          obtain ⟨z, hz⟩ := upChain_mem h2 x (by simpa using hx)
          exact index_congr (R.flat x (Or.inr ⟨z, H.arc hz⟩))
        have : ∀ l : List Nat, (∀ x ∈ l, index tokens' (x : Int) = index tokens (x : Int)) →
            l.mapM (fun (x : Nat) => index tokens' (x : Int)) = l.mapM fun (x : Nat) => index tokens (x : Int) := by
          intro l hl
          induction l with
          | nil => rfl
          | cons x l ih =>
            rw [List.mapM_cons, List.mapM_cons, hl x (by simp), ih fun y hy => hl y (by simp [hy])]
        simp only [bind, Except.bind, this path hm]
      · simp only [hd, if_false]
  · rw [if_neg hc, if_neg hc]

theorem addParticle_congr {lower : Str → Str} {i : Nat} (h : tokens'[i]?.map lower = tokens[i]?.map lower) (key : Nat) (n : Node) :
    addParticle lower tokens' key n i = addParticle lower tokens key n i := by
  unfold addParticle
  rw [index_nat, index_nat]
  by_cases hi : i < tokens.length
  · have hi' : i < tokens'.length := by
      by_contra hc
      rw [List.getElem?_eq_getElem hi, List.getElem?_eq_none (by omega)] at h
      cases h
    rw [List.getElem?_eq_getElem hi, List.getElem?_eq_getElem hi', Option.map_some, Option.map_some, Option.some.injEq] at h
    simp only [hi, hi', dif_pos, bind, Except.bind, h]
  · have hi' : ¬ i < tokens'.length := by
      intro hc
      rw [List.getElem?_eq_none (Nat.le_of_not_lt hi), List.getElem?_eq_getElem hc] at h
      cases h
    simp only [hi, hi', dif_neg, not_false_eq_true]

theorem addParticle_nouns {lower : Str → Str} {key : Nat} {l : List Nat}
    (hl : ∀ i ∈ l, tokens'[i]?.map lower = tokens[i]?.map lower) : ∀ {n n' n₁ n₁' : Node},
    FreshPair lower tags tokens tokens' n n' → l.foldlM (addParticle lower tokens key) n = .ok n₁ →
    l.foldlM (addParticle lower tokens' key) n' = .ok n₁' → FreshPair lower tags tokens tokens' n₁ n₁' ∧ n₁.idx = n.idx := by
  induction l with
  | nil =>
    intro n n' n₁ n₁' h e e'
    simp only [List.foldlM_nil, pure, Except.pure, Except.ok.injEq] at e e'
    subst e e'
    exact ⟨h, rfl⟩
  | cons i l ih =>
    intro n n' n₁ n₁' h e e'
    rw [List.foldlM_cons] at e e'
    cases hi : addParticle lower tokens key n i with
    | error x => rw [hi] at e; simp [bind, Except.bind] at e
    | ok n₂ =>
      cases hi' : addParticle lower tokens' key n' i with
      | error x => rw [hi'] at e'; simp [bind, Except.bind] at e'
      | ok n₂' =>
        rw [hi] at e
        rw [hi'] at e'
        have hF : FreshPair lower tags tokens tokens' n₂ n₂' ∧ n₂.idx = n.idx := by
          obtain ⟨w, w', h1, h2, h3, h4, h5, h6, rfl⟩ := h
          rw [addParticle_congr (hl i (by simp))] at hi'
          unfold addParticle at hi hi'
          cases ht : index tokens (i : Int) with
          | error x => rw [ht] at hi; simp [bind, Except.bind] at hi
          | ok tok =>
            rw [ht] at hi hi'
            simp only [bind, Except.bind] at hi hi'
            split at hi
            · rename_i hk
              rw [if_pos hk] at hi'
              cases hi
              cases hi'
              exact ⟨⟨w, w', h1, h2, h3, h4, h5, h6, rfl⟩, rfl⟩
            · rename_i hk
              rw [if_neg hk] at hi'
              split at hi
              · rename_i hk
                rw [if_pos hk] at hi'
                cases hi
                cases hi'
                exact ⟨⟨w, w', h1, h2, h3, h4, h5, h6, rfl⟩, rfl⟩
              · rename_i hk
                rw [if_neg hk] at hi'
                cases hi
                cases hi'
                exact ⟨⟨w, w', h1, h2, h3, h4, h5, h6, rfl⟩, rfl⟩
        obtain ⟨k1, k2⟩ := ih (fun j hj => hl j (by simp [hj])) hF.1 e e'
        exact ⟨k1, k2.trans hF.2⟩

theorem addParticle_same {lower : Str → Str} {key : Nat} {l : List Nat}
    (hl : ∀ i ∈ l, tokens'[i]?.map lower = tokens[i]?.map lower) (n : Node) :
    l.foldlM (addParticle lower tokens' key) n = l.foldlM (addParticle lower tokens key) n := by
  induction l generalizing n with
  | nil => rfl
  | cons i l ih =>
    rw [List.foldlM_cons, List.foldlM_cons]
    rw [addParticle_congr (hl i (by simp))]
    refine bind_congr fun n' => ?_
    exact ih (fun j hj => hl j (by simp [hj])) n'

/-- Node pairs of new nodes. -/
theorem newPair {lower : Str → Str} {i : Nat} {w w' : Str} (hw : tokens[i]? = some w) (hw' : tokens'[i]? = some w') {tag : Tag}
    (ht : tags[i]? = some tag) : Node.new lower i w' tag = Node.new lower i w tag ∨
      FreshPair lower tags tokens tokens' (Node.new lower i w tag) (Node.new lower i w' tag) := by
  by_cases h : w = w'
  · subst h; exact Or.inl rfl
  · exact Or.inr ⟨w, w', hw, hw', h, ht, rfl, rfl, rfl⟩

theorem getElem?_of_index {α : Type} {l : List α} {i : Nat} {x : α} (h : index l (i : Int) = .ok x) : l[i]? = some x := by
  rw [index_nat] at h
  split at h
  · rename_i hi
    rw [List.getElem?_eq_getElem hi]
    cases h; rfl
  · cases h

theorem particleStep_nouns {lower : Str → Str} (R : Swapped lower t tokens tokens') {i : Nat}
    {w w' : Str} (hw : tokens[i]? = some w) (hw' : tokens'[i]? = some w') {s s' s₁ s₁' : Nodif}
    (h : NodSame lower tags tokens tokens' s s' ∧ DictOk s ∧ ∀ k r, (k, r) ∈ s.dict → i ≤ k → s'.heap.node r = s.heap.node r)
    (e : particleStep lower tokens tags t s (w, i) = .ok s₁) (e' : particleStep lower tokens' tags t s' (w', i) = .ok s₁') :
    NodSame lower tags tokens tokens' s₁ s₁' ∧ DictOk s₁ ∧
      ∀ k r, (k, r) ∈ s₁.dict → i + 1 ≤ k → s₁'.heap.node r = s₁.heap.node r := by
  obtain ⟨h1, h2, h3⟩ := h
  have h4 := particleStep_dictOk h2 e
  unfold particleStep at e e'
  simp only at e e'
  split at e
  · rename_i hp
    rw [if_pos hp] at e'
    cases e
    cases e'
    exact ⟨h1, h2, fun k r hk hi => h3 k r hk (by omega)⟩
  · rename_i hp
    rw [if_neg hp] at e'
    simp only [bind, Except.bind] at e e'
    split at e
    · cases e
    rename_i tag hg
    rw [hg] at e'
    simp only at e'
    split at e
    · cases e
    rename_i n₁ hn₁
    split at e'
    · cases e'
    rename_i n₁' hn₁'
    cases e
    cases e'
    have hq : ∀ j ∈ (((t.children i).filter fun c => c.1 = .PART).map Prod.snd).insertionSort (· ≤ ·),
        tokens'[j]?.map lower = tokens[j]?.map lower := by
      intro j hj
      rw [List.mem_insertionSort, mem_part_children] at hj
      exact R.part j ⟨_, hj⟩
    have hpair : n₁' = n₁ ∨ FreshPair lower tags tokens tokens' n₁ n₁' ∧ n₁.idx = i := by
      rcases newPair (lower := lower) hw hw' (getElem?_of_index hg) with e1 | F
      · rw [e1, addParticle_same hq, hn₁] at hn₁'
        cases hn₁'
        exact Or.inl rfl
      · exact Or.inr (addParticle_nouns hq F hn₁ hn₁')
    refine ⟨?_, h4, ?_⟩
    · rw [h1.bl]
      exact h1.put h2 _ hpair fun r hr => h3 i r hr (Nat.le_refl i)
    · intro k r hk hi
      simp only [Nodif.put, Heap.alloc] at hk ⊢
      rw [Dict.mem_set h2.wf] at hk
      rcases hk with ⟨rfl, -⟩ | ⟨-, hk⟩
      · omega
      · have : r ≠ s.heap.next := Nat.ne_of_lt (h2.fresh r (mem_values hk))
        simp only [h1.next, this, if_false]
        exact h3 k r hk (by omega)

theorem remainingStep_nouns {lower : Str → Str} {i : Nat}
    {w w' : Str} (hw : tokens[i]? = some w) (hw' : tokens'[i]? = some w') {s s' s₁ s₁' : Nodif}
    (h : NodSame lower tags tokens tokens' s s' ∧ DictOk s)
    (e : remainingStep lower tags s (w, i) = .ok s₁) (e' : remainingStep lower tags s' (w', i) = .ok s₁') :
    NodSame lower tags tokens tokens' s₁ s₁' ∧ DictOk s₁ := by
  obtain ⟨h1, h2⟩ := h
  refine ⟨?_, remainingStep_dictOk h2 e⟩
  unfold remainingStep at e e'
  rw [h1.dict, h1.bl] at e'
  split at e
  · rename_i hp
    rw [if_pos hp] at e'
    simp only [bind, Except.bind] at e e'
    split at e
    · cases e
    rename_i tag hg
    rw [hg] at e'
    cases e
    cases e'
    have := h1.put h2 (k := i) s.bl (n := Node.new lower i w tag) (n' := Node.new lower i w' tag)
      ((newPair hw hw' (getElem?_of_index hg)).imp id fun h => ⟨h, rfl⟩) (fun r hr => by
        have h3 := hp.1
        simp only at h3
        rw [(Dict.mem_iff_get? h2.wf)] at hr
        simp [Dict.has, hr] at h3)
    have e3 : s'.put i (Node.new lower i w' tag) = { s'.put i (Node.new lower i w' tag) with bl := s.bl } := by
      rw [← h1.bl]; rfl
    rw [e3]
    exact this
  · rename_i hp
    rw [if_neg hp] at e'
    cases e
    cases e'
    exact h1

/-- Nodification of both sentences. -/
theorem nodify_swapped (H : IdxTree t tokens.length arcs) (hl : tags.length = tokens.length)
    (hrp : ∀ a ∈ arcs, a.2.2 ≠ t.root) (hrc : ∃ a ∈ arcs, a.2.1 = t.root) {lower : Str → Str}
    (R : Swapped lower t tokens tokens') : ∃ (s s' : Nodif) (nt : Tree Dep Ref) (dict : Dict Nat Ref), nodify lower tokens tags (some t) = .ok (s.heap, dict, some nt) ∧
      nodify lower tokens' tags (some t) = .ok (s'.heap, dict, some nt) ∧ NodInv t arcs lower tokens tags s ∧
      buildTree nt.root (nodeArcs t s.dict) = .ok nt ∧ dict.values.Nodup ∧ s'.heap.next = s.heap.next ∧
      (∀ i < tokens.length, i ∈ s.bl ∨ i ∈ s.dict.keys) ∧ (∀ i < tokens.length, t.hasNode i = false → i ∈ s.bl) ∧
      (∀ k r, (k, r) ∈ dict ↔ (∃ k', (k', r) ∈ s.dict) ∧ (s.heap.node r).idx = k ∧ nt.hasParentViaSet r functionalDeps = false) ∧
      ∀ r, s'.heap.node r = s.heap.node r ∨
        FreshPair lower tags tokens tokens' (s.heap.node r) (s'.heap.node r) ∧ ((s.heap.node r).idx, r) ∈ s.dict := by
  obtain ⟨s, nt, dict, ⟨e, inv, hall, hbl, hr, hb, hw, hd⟩, ⟨s₁, s₂, f1, f2, f3⟩, ed⟩ := nodify_full (lower := lower) H hl hrp hrc
  have H' : IdxTree t tokens'.length arcs := by rw [R.length]; exact H
  obtain ⟨s', nt', dict', ⟨e', inv', -, -, hr', hb', hw', hd'⟩, ⟨s₁', s₂', f1', f2', f3'⟩, ed'⟩ :=
    nodify_full (lower := lower) H' (by rw [R.length]; exact hl) hrp hrc
  have hnd : nodepIdxs tokens' t = nodepIdxs tokens t := by
    unfold nodepIdxs
    rw [R.length]
  rw [hnd] at f1'
  set s₀ : Nodif := { heap := Heap.empty, dict := [], bl := nodepIdxs tokens t } with hs₀
  have ok₀ : DictOk s₀ := ⟨Dict.Wf.nil, by simp [hs₀, Dict.values], by simp [hs₀, Dict.values]⟩
  have ok₁ : DictOk s₁ := foldlM_holds DictOk _ (fun s a s' h e => flattenStep_dictOk h e) _ _ _ ok₀ f1
  have hs₁ : s₁' = s₁ := by
    refine tokens_rel (tokens := tokens) (tokens' := tokens') (fun _ b b' => b' = b) ?_ tokens tokens' 0 (by simp) (by simp)
      R.length s₀ s₀ s₁ s₁' rfl f1 f1'
    intro i w w' b b' b₁ b₁' hw hw' h1 h2 h3
    subst h1
    rw [flattenStep_nouns H R hw hw', h2] at h3
    exact (Except.ok.inj h3).symm
  subst hs₁
  have hp := tokens_rel (tokens := tokens) (tokens' := tokens') (fun i (s s' : Nodif) => NodSame lower tags tokens tokens' s s' ∧ DictOk s ∧
    ∀ k r, (k, r) ∈ s.dict → i ≤ k → s'.heap.node r = s.heap.node r)
    (fun i w w' b b' b₁ b₁' hw hw' h e e' => particleStep_nouns R hw hw' h e e') tokens tokens' 0 (by simp) (by simp)
      R.length s₁' s₁' s₂ s₂' ⟨⟨rfl, rfl, rfl, fun _ => Or.inl rfl⟩, ok₁, fun _ _ _ _ => rfl⟩ f2 f2'
  have hs := (tokens_rel (tokens := tokens) (tokens' := tokens') (fun _ (s s' : Nodif) => NodSame lower tags tokens tokens' s s' ∧ DictOk s)
    (fun i w w' b b' b₁ b₁' hw hw' h e e' => remainingStep_nouns hw hw' h e e') tokens tokens' 0 (by simp) (by simp)
      R.length s₂ s₂' s s' ⟨hp.1, hp.2.1⟩ f3 f3').1
  rw [hs.dict] at hr' hb' ed'
  have hroot : nt'.root = nt.root := by
    have h1 := (Dict.mem_iff_get? inv.wf).mp hr
    rw [(Dict.mem_iff_get? inv.wf).mp hr', Option.some.injEq] at h1
    exact h1
  have hnt : nt' = nt := by
    rw [hroot, hb, Except.ok.injEq] at hb'
    exact hb'.symm
  subst hnt
  have hidx : ∀ r, (s'.heap.node r).idx = (s.heap.node r).idx := by
    intro r
    rcases hs.node r with e | ⟨⟨w, w', -, -, -, -, -, -, e⟩, -⟩ <;> rw [e]
  simp only [hidx] at ed'
  have hdd : dict' = dict := by rw [ed, ed']
  subst hdd
  refine ⟨s, s', nt', dict', e, e', inv, hb, ?_, hs.next, hall, hbl, hd, hs.node⟩
  rw [Dict.values, List.nodup_map_iff_inj_on (List.Nodup.of_map _ hw)]
  intro a ha b hb' e
  obtain ⟨i, r⟩ := a
  obtain ⟨j, r'⟩ := b
  simp only at e
  subst e
  obtain ⟨-, h1, -⟩ := (hd _ _).mp ha
  obtain ⟨-, h2, -⟩ := (hd _ _).mp hb'
  rw [← h1, ← h2]

/-- Nodification of sentences that differ in nouns. -/
theorem nodify_nouns (H : IdxTree t tokens.length arcs) (hl : tags.length = tokens.length)
    (hrp : ∀ a ∈ arcs, a.2.2 ≠ t.root) (hrc : ∃ a ∈ arcs, a.2.1 = t.root) (R : NounsReplaced c tags t tokens tokens')
    (lower : Str → Str) : ∃ (s s' : Nodif) (nt : Tree Dep Ref) (dict : Dict Nat Ref), nodify lower tokens tags (some t) = .ok (s.heap, dict, some nt) ∧
      nodify lower tokens' tags (some t) = .ok (s'.heap, dict, some nt) ∧ NodInv t arcs lower tokens tags s ∧
      buildTree nt.root (nodeArcs t s.dict) = .ok nt ∧ dict.values.Nodup ∧ s'.heap.next = s.heap.next ∧
      ∀ r, s'.heap.node r = s.heap.node r ∨
        FreshPair lower tags tokens tokens' (s.heap.node r) (s'.heap.node r) ∧ r ∈ dict.values := by
  obtain ⟨s, s', nt, dict, e, e', inv, hb, hnd, hx, -, -, hd, hs⟩ := nodify_swapped H hl hrp hrc (R.swapped lower)
  refine ⟨s, s', nt, dict, e, e', inv, hb, hnd, hx, ?_⟩
  intro r
  refine (hs r).imp id fun ⟨F, hm⟩ => ⟨F, ?_⟩
  refine mem_values ((hd _ r).mpr ⟨⟨_, hm⟩, rfl, ?_⟩)
  rw [Bool.eq_false_iff]
  intro hf
  unfold Tree.hasParentViaSet at hf
  split at hf
  · rename_i q hq
    have hq' : nt.parent r = some (q.1, q.2) := hq
    have ninv := buildTree_inv hb
    rw [ninv.parent] at hq'
    obtain ⟨k, k', h1, h2, h3⟩ := (mem_nodeArcs inv.wf).mp (lastParent_mem hq')
    have := inv.key_unique h2 hm
    subst this
    obtain ⟨w, w', g1, g2, g3, -⟩ := F
    exact ((R.place _ w w' g1 g2 g3).1 _ _ h3).1 (of_decide_eq_true hf)
  · cases hf

end

/-! ### From normalization to canonical words -/

section
variable {c : Logic} {tags : List Tag} {t : Tree Dep Nat} {tokens tokens' : List Str}

/-- Lemmas of a replaced noun; neither is an adjective or a word that is read. -/
def LemSwap (c : Logic) (tags : List Tag) (tokens tokens' : List Str) (l l' : Str) : Prop :=
  LemmaReplaced c tags tokens tokens' l l' ∧ (l ∉ c.lemmatizer.adjs ∧ l ∉ readWords) ∧ l' ∉ c.lemmatizer.adjs ∧ l' ∉ readWords

/-- The same chunk, or two chunks of several words that differ in replaced nouns. -/
def ChunkLike (c : Logic) (tags : List Tag) (tokens tokens' : List Str) (k k' : Option Str) : Prop :=
  k' = k ∨ ∃ a b, k = some a ∧ k' = some b ∧ PhraseReplaced c tags tokens tokens' a b ∧ ' ' ∈ a ∧ ' ' ∈ b

/-- The same node up to its chunk, or two nodes of a replaced noun. -/
def MidNode (c : Logic) (tags : List Tag) (tokens tokens' : List Str) (n n' : Node) : Prop :=
  (∃ k, n' = { n with chunk := k } ∧ ChunkLike c tags tokens tokens' n.chunk k) ∨
  (n.tag ∈ namingTags ∧ ∃ o s l x k w,
    n' = { n with original := o, standard := s, lem := l, suffix := x, chunk := k, canon := w } ∧
    LemSwap c tags tokens tokens' n.lem l ∧ ChunkLike c tags tokens tokens' n.chunk k)

/-- Corresponding nodes between normalization and canonicalization. -/
structure Mid (c : Logic) (tags : List Tag) (tokens tokens' : List Str) (nodes : List Ref) (h h' : Heap) : Prop where
  next : h'.next = h.next
  node : ∀ r, MidNode c tags tokens tokens' (h.node r) (h'.node r)
  rest : ∀ r, r ∉ nodes → h'.node r = h.node r

theorem MidNode.tag {n n' : Node} (h : MidNode c tags tokens tokens' n n') : n'.tag = n.tag := by
  rcases h with ⟨k, rfl, -⟩ | ⟨-, o, s, l, x, k, w, rfl, -⟩ <;> rfl
theorem MidNode.idx {n n' : Node} (h : MidNode c tags tokens tokens' n n') : n'.idx = n.idx := by
  rcases h with ⟨k, rfl, -⟩ | ⟨-, o, s, l, x, k, w, rfl, -⟩ <;> rfl

theorem mid_normalize (hc : LogicOk c) (R : NounsReplaced c tags t tokens tokens') {nodes : List Ref} (hnd : nodes.Nodup)
    {h h' : Heap} (hn : h'.next = h.next) (H : ∀ r, h'.node r = h.node r ∨
      FreshPair c.lower tags tokens tokens' (h.node r) (h'.node r) ∧ r ∈ nodes) :
    ∃ h₁ h₁', nodes.foldlM c.normalizeNode h = .ok h₁ ∧ nodes.foldlM c.normalizeNode h' = .ok h₁' ∧
      Mid c tags tokens tokens' nodes h₁ h₁' ∧ ∀ r, (h₁.node r).tag = (h.node r).tag := by
  have tot : ∀ h : Heap, ∀ r ∈ nodes, ∃ n, c.normalized (h.node r) = .ok n := by
    intro h r _
    obtain ⟨s, l, x, -, -, e⟩ := hc.normalized (h.node r)
    exact ⟨_, e⟩
  obtain ⟨h₁, e1, n1, s1⟩ := foldlM_upd c.normalizeNode c.normalized c.normalizeNode_eq nodes hnd h (tot h)
  obtain ⟨h₁', e1', n1', s1'⟩ := foldlM_upd c.normalizeNode c.normalized c.normalizeNode_eq nodes hnd h' (tot h')
  refine ⟨h₁, h₁', e1, e1', ⟨by rw [n1, n1', hn], ?_, ?_⟩, ?_⟩
  · intro r
    by_cases hr : r ∈ nodes
    · have a := (s1 r).1 hr
      have a' := (s1' r).1 hr
      rcases H r with e | ⟨⟨w, w', h1, h2, h3, h4, h5, h6, e⟩, -⟩
      · rw [e, a] at a'
        rw [Except.ok.injEq] at a'
        exact Or.inl ⟨(h₁.node r).chunk, by rw [← a'], Or.inl rfl⟩
      · obtain ⟨s, l, x, b1, b2, b3⟩ := hc.normalized (h.node r)
        obtain ⟨s', l', x', b1', b2', b3'⟩ := hc.normalized (h'.node r)
        rw [a, Except.ok.injEq] at b3
        rw [a', Except.ok.injEq] at b3'
        rw [b3, b3']
        rw [e] at b1' b2' ⊢
        simp only at b1' b2' ⊢
        obtain ⟨tag, g1, g2, g3⟩ := R.noun _ w w' h1 h2 h3
        rw [h4, Option.some.injEq] at g1
        subst g1
        rw [h5] at b1
        refine Or.inr ⟨g2.1, w', s', l', x', (h.node r).chunk, c.lower w', rfl, ⟨⟨_, w, w', _, h1, h2, h4, ⟨s, x, b1, b2⟩,
          s', x', b1', b2'⟩, g2.2 l ⟨s, x, b1, b2⟩, g3.2 l' ⟨s', x', b1', b2'⟩⟩, Or.inl rfl⟩
    · rw [(s1 r).2 hr, (s1' r).2 hr]
      rcases H r with e | ⟨-, hm⟩
      · exact Or.inl ⟨(h.node r).chunk, by rw [e], Or.inl rfl⟩
      · exact absurd hm hr
  · intro r hr
    rw [(s1 r).2 hr, (s1' r).2 hr]
    rcases H r with e | ⟨-, hm⟩
    · exact e
    · exact absurd hm hr
  · intro r
    by_cases hr : r ∈ nodes
    · obtain ⟨s, l, x, -, -, b3⟩ := hc.normalized (h.node r)
      rw [(s1 r).1 hr, Except.ok.injEq] at b3
      rw [b3]
    · rw [(s1 r).2 hr]

theorem Mid.fixTag {nodes : List Ref} {h h' : Heap} (M : Mid c tags tokens tokens' nodes h h') (nouns : List Str)
    (nt : Tree Dep Ref) (r : Ref) :
    fixTag c.lemmatizer.adjs nouns h' nt r = Model.fixTag c.lemmatizer.adjs nouns h nt r ∧
      ((h.node r).tag ∈ namingTags → (∀ k, h'.node r ≠ { h.node r with chunk := k }) →
        Model.fixTag c.lemmatizer.adjs nouns h nt r = (h.node r).tag) := by
  have hN := M.node r
  have ht := hN.tag
  unfold Model.fixTag
  simp only [ht, fun p => (M.node p).tag]
  rcases hN with ⟨k, e, -⟩ | ⟨hg, o, s, l, x, k, w, e, L, -⟩
  · have hlem : (h'.node r).lem = (h.node r).lem := by rw [e]
    rw [hlem]
    exact ⟨rfl, fun _ hk => absurd e (hk k)⟩
  · have hlem : (h'.node r).lem = l := by rw [e]
    have hna : (h.node r).tag ≠ .ADJ := by
      intro ha
      rw [ha] at hg
      revert hg
      decide
    simp only [hlem, L.2.1.1, L.2.2.1, false_and, hna, and_false, if_false]
    exact ⟨trivial, fun _ _ => by split <;> (try split) <;> (try split) <;> rfl⟩

theorem mid_fix (nouns : List Str) (nt : Tree Dep Ref) {nodes : List Ref} : ∀ (l : List Ref), (∀ r ∈ l, r ∈ nodes) →
    ∀ {h h' : Heap}, Mid c tags tokens tokens' nodes h h' →
      Mid c tags tokens tokens' nodes (l.foldl (fixNode c.lemmatizer.adjs nouns nt) h)
        (l.foldl (fixNode c.lemmatizer.adjs nouns nt) h')
  | [], _, _, _, M => M
  | r :: l, hl, h, h', M => by
    rw [List.foldl_cons, List.foldl_cons]
    refine mid_fix nouns nt l (fun x hx => hl x (by simp [hx])) ⟨M.next, ?_, ?_⟩
    · intro x
      obtain ⟨f1, f2⟩ := M.fixTag nouns nt r
      simp only [fixNode, Heap.upd, f1]
      by_cases hx : x = r
      · subst hx
        simp only [if_true]
        rcases M.node x with ⟨k, e, hk⟩ | ⟨hg, o, s, l, y, k, w, e, L, hk⟩
        · exact Or.inl ⟨k, by rw [e], hk⟩
        · by_cases hs : ∃ k, h'.node x = { h.node x with chunk := k }
          · obtain ⟨k', e'⟩ := hs
            have : k' = k := by
              rw [e] at e'
              exact (congrArg Node.chunk e').symm
            subst this
            exact Or.inl ⟨k', by rw [e'], hk⟩
          · rw [f2 hg (fun k hk => hs ⟨k, hk⟩)]
            exact Or.inr ⟨hg, o, s, l, y, k, w, by rw [e], L, hk⟩
      · simp only [hx, if_false]
        exact M.node x
    · intro x hx
      have : x ≠ r := by rintro rfl; exact hx (hl x (by simp))
      simp only [fixNode, Heap.upd, this, if_false]
      exact M.rest x hx

theorem MidNode.lem {n n' : Node} (h : MidNode c tags tokens tokens' n n') :
    n'.lem = n.lem ∨ LemmaReplaced c tags tokens tokens' n.lem n'.lem := by
  rcases h with ⟨k, rfl, -⟩ | ⟨-, o, s, l, x, k, w, rfl, L, -⟩
  · exact Or.inl rfl
  · exact Or.inr L.1

theorem blank_mem_intercalate {l : List Str} (h : 2 ≤ l.length) : ' ' ∈ List.intercalate c!" " l := by
  match l, h with
  | a :: b :: l, _ =>
    rw [List.intercalate, List.intersperse_cons₂]
    simp

theorem chunkOf_mid {nodes : List Ref} {h h' : Heap} (M : Mid c tags tokens tokens' nodes h h') {cn : Dict Ref (List Ref)} {r : Ref}
    {a b : Str} (hr : (cn.get? r).getD [] ≠ []) (e : chunkOf h cn r = .ok a) (e' : chunkOf h' cn r = .ok b) :
    PhraseReplaced c tags tokens tokens' a b ∧ ' ' ∈ a ∧ ' ' ∈ b := by
  unfold chunkOf at e e'
  have hidx : ∀ x, (h'.node x).idx = (h.node x).idx := fun x => (M.node x).idx
  simp only [hidx] at e'
  cases hx : chunkRec cn (cn.keys.length + 1) r with
  | none => rw [hx] at e; cases e
  | some l =>
    rw [hx] at e e'
    simp only [Except.ok.injEq] at e e'
    rw [join_eq_intercalate] at e e'
    have hlen : 2 ≤ ((r :: l).insertionSort fun a b => (h.node a).idx ≤ (h.node b).idx).length := by
      rw [List.length_insertionSort, List.length_cons]
      obtain ⟨x, hm⟩ := List.exists_mem_of_ne_nil _ hr
      have := List.length_pos_of_mem ((chunkRec_mem cn _ r l hx x).mpr (.single hm))
      omega
    refine ⟨⟨_, _, e.symm, e'.symm, ?_⟩, ?_, ?_⟩
    · rw [List.forall₂_map_left_iff, List.forall₂_map_right_iff, List.forall₂_same]
      intro x _
      exact (M.node x).lem
    · rw [← e]; exact blank_mem_intercalate (by simpa using hlen)
    · rw [← e']; exact blank_mem_intercalate (by simpa using hlen)

theorem compounds_mid {nodes : List Ref} {h h' : Heap} (M : Mid c tags tokens tokens' nodes h h') (nt : Tree Dep Ref) :
    compounds h' nt nodes = compounds h nt nodes := by
  have e : compoundParent h' nt = compoundParent h nt := by
    funext r
    unfold compoundParent
    simp only [fun p => (M.node p).tag, fun p => (M.node p).idx]
  have e2 : compoundStep h' nt = compoundStep h nt := by
    funext acc r
    unfold compoundStep
    rw [e]
  unfold compounds
  simp only [e2, fun p => (M.node p).tag]

theorem mid_chunker (nt : Tree Dep Ref) {nodes : List Ref} {h h' h₁ h₁' : Heap} (M : Mid c tags tokens tokens' nodes h h')
    (e : chunker h nt nodes = .ok h₁) (e' : chunker h' nt nodes = .ok h₁') :
    Mid c tags tokens tokens' nodes h₁ h₁' ∧ ∀ r, (h₁.node r).tag = (h.node r).tag := by
  unfold chunker at e e'
  simp only [compounds_mid M] at e e'
  have hne : ∀ r ∈ nodes.filter fun r => (compounds h nt nodes).1.has r ∧ r ∉ (compounds h nt nodes).2,
      r ∈ nodes ∧ ((compounds h nt nodes).1.get? r).getD [] ≠ [] := by
    intro r hr
    rw [List.mem_filter] at hr
    refine ⟨hr.1, ?_⟩
    have h1 := (of_decide_eq_true hr.2).1
    obtain ⟨s1, s2, -⟩ := compounds_spec (h := h) (t := nt) (nodes := nodes)
    have h2 : r ∈ (compounds h nt nodes).1.keys := (Dict.get?_isSome_iff _ _).mp h1
    obtain ⟨x, hx, hp⟩ := (s2 r).mp h2
    rw [s1]
    exact List.ne_nil_of_mem (List.mem_filter.mpr ⟨hx, by simpa using hp⟩)
  revert e e' hne
  generalize nodes.filter (fun r => (compounds h nt nodes).1.has r ∧ r ∉ (compounds h nt nodes).2) = l
  generalize (compounds h nt nodes).1 = cn
  intro e e' hne
  induction l generalizing h h' with
  | nil =>
    simp only [List.foldlM_nil, pure, Except.pure, Except.ok.injEq] at e e'
    subst e e'
    exact ⟨M, fun _ => rfl⟩
  | cons r l ih =>
    rw [List.foldlM_cons] at e e'
    cases h1 : chunkOf h cn r with
    | error x => simp [h1, bind, Except.bind] at e
    | ok a =>
      cases h2 : chunkOf h' cn r with
      | error x => simp [h2, bind, Except.bind] at e'
      | ok b =>
        simp only [h1, bind, Except.bind, pure, Except.pure] at e
        simp only [h2, bind, Except.bind, pure, Except.pure] at e'
        obtain ⟨k1, k2⟩ := hne r (by simp)
        obtain ⟨p1, p2, p3⟩ := chunkOf_mid M k2 h1 h2
        have M' : Mid c tags tokens tokens' nodes (h.upd r fun n => { n with chunk := some a })
            (h'.upd r fun n => { n with chunk := some b }) := by
          refine ⟨M.next, ?_, ?_⟩
          · intro x
            simp only [Heap.upd]
            by_cases hx : x = r
            · subst hx
              simp only [if_true]
              have hk : ChunkLike c tags tokens tokens' (some a) (some b) := Or.inr ⟨a, b, rfl, rfl, p1, p2, p3⟩
              rcases M.node x with ⟨k, e, -⟩ | ⟨hg, o, s, l, y, k, w, e, L, -⟩
              · exact Or.inl ⟨some b, by rw [e], hk⟩
              · exact Or.inr ⟨hg, o, s, l, y, some b, w, by rw [e], L, hk⟩
            · simp only [hx, if_false]
              exact M.node x
          · intro x hx
            have : x ≠ r := by rintro rfl; exact hx k1
            simp only [Heap.upd, this, if_false]
            exact M.rest x hx
        obtain ⟨q1, q2⟩ := ih M' e e' fun x hx => hne x (by simp [hx])
        refine ⟨q1, fun x => ?_⟩
        rw [q2 x]
        simp only [Heap.upd]
        split
        · rename_i hx; rw [hx]
        · rfl

/-- The same node, or two nodes tagged as nouns whose words differ in replaced nouns. -/
def EndNode (c : Logic) (tags : List Tag) (tokens tokens' : List Str) (n n' : Node) : Prop :=
  ∃ o s l x k w, n' = { n with original := o, standard := s, lem := l, suffix := x, chunk := k, canon := w } ∧
    (n.tag ∉ namingTags → l = n.lem ∧ x = n.suffix ∧ w = n.canon) ∧
    (w = n.canon ∨ PhraseReplaced c tags tokens tokens' n.canon w ∧ n.canon ∉ readWords ∧ w ∉ readWords)

theorem not_read_of_blank {a : Str} (h : ' ' ∈ a) : a ∉ readWords := by
  have : ∀ a ∈ readWords, ' ' ∉ a := by decide
  exact fun ha => this a ha h

theorem truthy_of_blank {a : Str} (h : ' ' ∈ a) : truthy (some a) = true := by
  cases a with
  | nil => simp at h
  | cons => rfl

theorem endNode_of_mid {f : Str → Tag → Except PyErr LemmaSuffix} {n n' m m' : Node}
    (h : MidNode c tags tokens tokens' n n') (e : canonicalize f n = .ok m) (e' : canonicalize f n' = .ok m') :
    EndNode c tags tokens tokens' m m' := by
  have chunked : ∀ {k}, ChunkLike c tags tokens tokens' n.chunk k → n.tag = .NOUN → truthy n.chunk = true →
      ∃ a b, n.chunk = some a ∧ k = some b ∧ truthy k = true ∧
        (b = a ∨ PhraseReplaced c tags tokens tokens' a b ∧ a ∉ readWords ∧ b ∉ readWords) := by
    intro k hk _ ht
    rcases hk with rfl | ⟨a, b, h1, h2, h3, h4, h5⟩
    · cases hn : n.chunk with
      | none => rw [hn] at ht; cases ht
      | some a => exact ⟨a, a, rfl, rfl, hn ▸ ht, Or.inl rfl⟩
    · exact ⟨a, b, h1, h2, h2 ▸ truthy_of_blank h5, Or.inr ⟨h3, not_read_of_blank h4, not_read_of_blank h5⟩⟩
  have flat : ∀ {k}, ChunkLike c tags tokens tokens' n.chunk k → truthy n.chunk = false → truthy k = false := by
    intro k hk ht
    rcases hk with rfl | ⟨a, b, h1, h2, h3, h4, h5⟩
    · exact ht
    · rw [h1, truthy_of_blank h4] at ht
      cases ht
  rcases h with ⟨k, rfl, hk⟩ | ⟨hg, o, s, l, x, k, w, rfl, L, hk⟩
  · by_cases hN : n.tag = .NOUN
    · have hP : ¬ n.tag = .PRON := by rw [hN]; decide
      unfold canonicalize at e e'
      simp only [hN, true_and, reduceCtorEq, if_false] at e e'
      cases ht : truthy n.chunk with
      | false =>
        simp only [ht, flat hk ht, Bool.false_eq_true, if_false, Except.ok.injEq] at e e'
        subst e e'
        exact ⟨n.original, n.standard, n.lem, n.suffix, k, n.lem, rfl, fun _ => ⟨rfl, rfl, rfl⟩, Or.inl rfl⟩
      | true =>
        obtain ⟨a, b, c1, rfl, c3, c4⟩ := chunked hk hN ht
        simp only [c1] at ht
        simp only [ht, c1, c3, if_true, Except.ok.injEq] at e e'
        subst e e'
        refine ⟨n.original, n.standard, n.lem, n.suffix, some b, b, rfl, fun hx => ?_, c4⟩
        exact absurd (show Tag.NOUN ∈ namingTags by decide) hx
    · unfold canonicalize at e e'
      simp only [hN, false_and, if_false] at e e'
      cases hg : (if n.tag = .PRON then Dict.get? objectToSubject n.lem else none) with
      | some subj =>
        simp only [hg, Except.ok.injEq] at e e'
        subst e e'
        exact ⟨n.original, n.standard, n.lem, n.suffix, k, subj, rfl, fun _ => ⟨rfl, rfl, rfl⟩, Or.inl rfl⟩
      | none =>
        simp only [hg] at e e'
        by_cases hA : n.tag = .ADJ
        · simp only [hA, if_true, bind, Except.bind] at e e'
          cases hf : f n.standard .VERB with
          | error x => rw [hf] at e; cases e
          | ok ls =>
            simp only [hf, pure, Except.pure, Except.ok.injEq] at e e'
            by_cases hp : ls.2 = some .PAST
            · simp only [hp, if_true] at e e'
              subst e e'
              exact ⟨n.original, n.standard, n.lem, some .PAST, k, _, rfl, fun _ => ⟨rfl, rfl, rfl⟩, Or.inl rfl⟩
            · simp only [hp, if_false] at e e'
              subst e e'
              exact ⟨n.original, n.standard, n.lem, ls.2, k, _, rfl, fun _ => ⟨rfl, rfl, rfl⟩, Or.inl rfl⟩
        · by_cases hV : n.tag = .VERB
          · simp only [hV, reduceCtorEq, if_false, if_true, Except.ok.injEq] at e e'
            subst e e'
            exact ⟨n.original, n.standard, n.lem, n.suffix, k, _, rfl, fun _ => ⟨rfl, rfl, rfl⟩, Or.inl rfl⟩
          · simp only [hA, hV, if_false, Except.ok.injEq] at e e'
            subst e e'
            exact ⟨n.original, n.standard, n.lem, n.suffix, k, _, rfl, fun _ => ⟨rfl, rfl, rfl⟩, Or.inl rfl⟩
  · have hone : PhraseReplaced c tags tokens tokens' n.lem l :=
      ⟨[n.lem], [l], by simp [List.intercalate], by simp [List.intercalate], .cons (Or.inr L.1) .nil⟩
    have hP : n.tag ≠ .PRON ∧ n.tag ≠ .ADJ ∧ n.tag ≠ .VERB := by
      refine ⟨?_, ?_, ?_⟩ <;> (intro hx; rw [hx] at hg; revert hg; decide)
    unfold canonicalize at e e'
    simp only [hP.1, hP.2.1, hP.2.2, if_false] at e e'
    by_cases hN : n.tag = .NOUN
    · simp only [hN, true_and] at e e'
      cases ht : truthy n.chunk with
      | false =>
        simp only [ht, flat hk ht, Bool.false_eq_true, if_false, Except.ok.injEq] at e e'
        subst e e'
        exact ⟨o, s, l, x, k, l, rfl, fun hx => absurd (show Tag.NOUN ∈ namingTags by decide) hx, Or.inr ⟨hone, L.2.1.2, L.2.2.2⟩⟩
      | true =>
        obtain ⟨a, b, c1, rfl, c3, c4⟩ := chunked hk hN ht
        simp only [c1] at ht
        simp only [ht, c1, c3, if_true, Except.ok.injEq] at e e'
        subst e e'
        exact ⟨o, s, l, x, some b, b, rfl, fun hx => absurd (show Tag.NOUN ∈ namingTags by decide) hx, c4⟩
    · simp only [hN, false_and, if_false, Except.ok.injEq] at e e'
      subst e e'
      exact ⟨o, s, l, x, k, l, rfl, fun hx => absurd hg hx, Or.inr ⟨hone, L.2.1.2, L.2.2.2⟩⟩

/-- Corresponding nodes once they are canonical. -/
structure Ends (c : Logic) (tags : List Tag) (tokens tokens' : List Str) (h h' : Heap) : Prop where
  next : h'.next = h.next
  node : ∀ r, EndNode c tags tokens tokens' (h.node r) (h'.node r)

theorem ends_of_mid (hc : LogicOk c) {nodes : List Ref} (hnd : nodes.Nodup) {h h' : Heap}
    (M : Mid c tags tokens tokens' nodes h h') :
    ∃ h₁ h₁', nodes.foldlM c.canonicalizeNode h = .ok h₁ ∧ nodes.foldlM c.canonicalizeNode h' = .ok h₁' ∧
      Ends c tags tokens tokens' h₁ h₁' ∧ (∀ r, (h₁.node r).tag = (h.node r).tag) := by
  obtain ⟨h₁, e1, n1, s1⟩ := foldlM_upd c.canonicalizeNode (canonicalize c.lemmatizer.call) c.canonicalizeNode_eq nodes hnd h
    (fun r _ => hc.canonicalized (h.node r))
  obtain ⟨h₁', e1', n1', s1'⟩ := foldlM_upd c.canonicalizeNode (canonicalize c.lemmatizer.call) c.canonicalizeNode_eq nodes hnd h'
    (fun r _ => hc.canonicalized (h'.node r))
  refine ⟨h₁, h₁', e1, e1', ⟨by rw [n1, n1', M.next], ?_⟩, ?_⟩
  · intro r
    by_cases hr : r ∈ nodes
    · exact endNode_of_mid (M.node r) ((s1 r).1 hr) ((s1' r).1 hr)
    · rw [(s1 r).2 hr, (s1' r).2 hr, M.rest r hr]
      exact ⟨_, _, _, _, _, _, rfl, fun _ => ⟨rfl, rfl, rfl⟩, Or.inl rfl⟩
  · intro r
    by_cases hr : r ∈ nodes
    · rw [(Props.C40_frame _ _ ((s1 r).1 hr)).1]
    · rw [(s1 r).2 hr]

end

/-! ### Finding arguments -/

section
variable {c : Logic} {tags : List Tag} {tokens tokens' : List Str} {h h' : Heap}

theorem EndNode.map {n n' : Node} (E : EndNode c tags tokens tokens' n n') (f : Node → Node)
    (hf : ∀ o s l x k w, f { n with original := o, standard := s, lem := l, suffix := x, chunk := k, canon := w } =
      { f n with original := o, standard := s, lem := l, suffix := x, chunk := k, canon := w })
    (h1 : (f n).tag = n.tag) (h2 : (f n).lem = n.lem) (h3 : (f n).suffix = n.suffix) (h4 : (f n).canon = n.canon) :
    EndNode c tags tokens tokens' (f n) (f n') := by
  obtain ⟨o, s, l, x, k, w, rfl, e1, e2⟩ := E
  refine ⟨o, s, l, x, k, w, hf o s l x k w, ?_, ?_⟩
  · rw [h1, h2, h3, h4]; exact e1
  · rw [h4]; exact e2

theorem Ends.upd (E : Ends c tags tokens tokens' h h') (r : Ref) (f : Node → Node)
    (hf : ∀ n : Node, EndNode c tags tokens tokens' (h.node r) n → EndNode c tags tokens tokens' (f (h.node r)) (f n)) :
    Ends c tags tokens tokens' (h.upd r f) (h'.upd r f) := by
  refine ⟨E.next, fun x => ?_⟩
  simp only [Heap.upd]
  by_cases hx : x = r
  · simp only [hx, if_true]
    exact hf _ (E.node r)
  · simp only [hx, if_false]
    exact E.node x

theorem Ends.applyEv (E : Ends c tags tokens tokens' h h') (e : Ev) :
    Ends c tags tokens tokens' (applyEv h e) (Model.applyEv h' e) := by
  unfold Model.applyEv
  refine E.upd _ _ fun n hn => ?_
  cases e <;> exact hn.map _ (fun _ _ _ _ _ _ => rfl) rfl rfl rfl rfl

theorem Ends.applyEvs (es : List Ev) : ∀ {h h' : Heap}, Ends c tags tokens tokens' h h' →
    Ends c tags tokens tokens' (applyEvs h es) (Model.applyEvs h' es) := by
  induction es with
  | nil => exact fun E => E
  | cons e es ih => exact fun E => ih (E.applyEv e)

theorem Ends.aggreg (t : Tree Dep Ref) (nodes : List Ref) : ∀ {h h' : Heap}, Ends c tags tokens tokens' h h' →
    Ends c tags tokens tokens' (nodes.foldl (aggregStep t) h) (nodes.foldl (aggregStep t) h') := by
  induction nodes with
  | nil => exact fun E => E
  | cons r l ih =>
    intro h h' E
    rw [List.foldl_cons, List.foldl_cons]
    refine ih (E.upd r _ fun n hn => hn.map
      (fun n => { n with andCconjs := t.childrenVia r .AND, orCconjs := t.childrenVia r .OR }) (fun _ _ _ _ _ _ => rfl) rfl rfl rfl rfl)

section
variable (E : Ends c tags tokens tokens' h h')
include E

theorem Ends.tag (r : Ref) : (h'.node r).tag = (h.node r).tag := by obtain ⟨o, s, l, x, k, w, e, -⟩ := E.node r; rw [e]
theorem Ends.cconjs (r : Ref) : (h'.node r).cconjs = (h.node r).cconjs := by
  obtain ⟨o, s, l, x, k, w, e, -⟩ := E.node r; rw [e]; rfl
theorem Ends.aggregs (r : Ref) : h'.aggreg r = h.aggreg r := by
  obtain ⟨o, s, l, x, k, w, e, -⟩ := E.node r; unfold Heap.aggreg; rw [e]
theorem Ends.read {u : Str} (hu : u ∈ readWords) (r : Ref) : (h'.node r).canon = u ↔ (h.node r).canon = u := by
  obtain ⟨o, s, l, x, k, w, e, -, e2⟩ := E.node r
  have : (h'.node r).canon = w := by rw [e]
  rw [this]
  rcases e2 with rfl | ⟨-, h1, h2⟩
  · rfl
  · constructor
    · rintro rfl; exact absurd hu h2
    · intro hx; exact absurd (hx ▸ hu) h1
theorem Ends.reads {us : List Str} (hu : ∀ u ∈ us, u ∈ readWords) (r : Ref) : (h'.node r).canon ∈ us ↔ (h.node r).canon ∈ us := by
  constructor
  · intro hm; rw [(E.read (hu _ hm) r).mp rfl]; exact hm
  · intro hm; rw [(E.read (hu _ hm) r).mpr rfl]; exact hm
theorem Ends.suffix (r : Ref) (ha : (h.node r).tag = .ADJ) : (h'.node r).suffix = (h.node r).suffix := by
  obtain ⟨o, s, l, x, k, w, e, e1, -⟩ := E.node r
  rw [e]
  exact (e1 (by rw [ha]; decide)).2.1

theorem Ends.rel (t : Tree Dep Ref) (v n : Ref) : resolveRelativePron t h' v n = resolveRelativePron t h v n := by
  unfold resolveRelativePron
  simp only [E.tag, E.reads (us := relativePronouns) (by decide)]

theorem Ends.evs (t : Tree Dep Ref) (naked marked : List Ref) (r : Ref) :
    directEvs t h' r = directEvs t h r ∧ longEvs t h' naked marked r = longEvs t h naked marked r := by
  have hS : subjEvs t h' = subjEvs t h := by
    funext v s; unfold subjEvs; simp only [E.cconjs, E.aggregs]
  have hO : objEvs t h' = objEvs t h := by
    funext v s; unfold objEvs; simp only [E.cconjs, E.aggregs]
  have hC : copEvs t h' = copEvs t h := by
    funext s q p; unfold copEvs; simp only [E.aggregs]
  have hI : ipropEvs t h' = ipropEvs t h := by
    funext v p; unfold ipropEvs; simp only [E.aggregs]
  have hA : agentEvs t h' = agentEvs t h := by
    funext d q m; unfold agentEvs; simp only [E.aggregs, E.read (u := c!"by") (by decide)]
  have hSr : subjRef t h' = subjRef t h := by
    funext v n; unfold subjRef
    simp only [E.rel, E.tag, E.reads (us := reflexivePronouns) (by decide)]
  have hOr : objRef t h' = objRef t h := by
    funext v n; unfold objRef
    simp only [E.rel, E.reads (us := reflexivePronouns) (by decide)]
  have hP : parentEvs t h' = parentEvs t h := by
    funext n; unfold parentEvs
    simp only [hS, hO, hC, hI, hSr, hOr, E.rel, E.aggregs]
  have hK : nakedEvs t h' = nakedEvs t h := by
    funext n p; unfold nakedEvs
    simp only [E.tag, E.aggregs]
    by_cases ha : (h.node n).tag = .ADJ
    · simp only [E.suffix n ha]
    · simp only [ha, if_false]
  have hX : cplEvs t h' = cplEvs t h := by
    funext n; unfold cplEvs
    simp only [hK, hA, E.tag, E.aggregs]
  constructor
  · unfold directEvs
    rw [hP, hX]
  · unfold longEvs
    simp only [E.tag, hS, hO, E.reads (us := relativePronouns) (by decide)]

theorem Ends.findArgs {t : Tree Dep Ref} {root : Ref} {hist : List (Dep × Ref × Ref)} (hb : buildTree root hist = .ok t)
    (nodes : List Ref) : ∃ g g', findArgs t nodes h = .ok g ∧ Model.findArgs t nodes h' = .ok g' ∧
      Ends c tags tokens tokens' g g' := by
  refine ⟨_, _, findArgs_eq hb nodes h, findArgs_eq hb nodes h', ?_⟩
  have E₀ := E.aggreg t nodes
  have h1 : directEvs t (nodes.foldl (aggregStep t) h') = directEvs t (nodes.foldl (aggregStep t) h) := by
    funext r; exact (E₀.evs t [] [] r).1
  have h2 : ∀ a b, longEvs t (nodes.foldl (aggregStep t) h') a b = longEvs t (nodes.foldl (aggregStep t) h) a b := by
    intro a b; funext r; exact (E₀.evs t a b r).2
  rw [h1, h2]
  exact E₀.applyEvs _

end
end

/-! ### Tuples -/

/-- Both results are lists of tuples that correspond. -/
def TupSim (P : Argument → Argument → Prop) (m m' : Except PyErr (List STuple)) : Prop :=
  ∃ ts ts', m = .ok ts ∧ m' = .ok ts' ∧ List.Forall₂ (fun x x' => List.Forall₂ P x.args x'.args) ts ts'

namespace TupSim
variable {P : Argument → Argument → Prop}

theorem none : TupSim P (.ok []) (.ok []) := ⟨[], [], rfl, rfl, .nil⟩

theorem one {t t' : STuple} (ht : List.Forall₂ P t.args t'.args) : TupSim P (.ok [t]) (.ok [t']) :=
  ⟨[t], [t'], rfl, rfl, .cons ht .nil⟩

theorem append {m₁ m₂ m₁' m₂' : Except PyErr (List STuple)} (h₁ : TupSim P m₁ m₁') (h₂ : TupSim P m₂ m₂') :
    TupSim P (do let a ← m₁; let b ← m₂; return a ++ b) (do let a ← m₁'; let b ← m₂'; return a ++ b) := by
  obtain ⟨l₁, l₁', rfl, rfl, k₁⟩ := h₁
  obtain ⟨l₂, l₂', rfl, rfl, k₂⟩ := h₂
  exact ⟨_, _, rfl, rfl, List.rel_append k₁ k₂⟩

theorem append3 {m₁ m₂ m₃ m₁' m₂' m₃' : Except PyErr (List STuple)} (h₁ : TupSim P m₁ m₁') (h₂ : TupSim P m₂ m₂')
    (h₃ : TupSim P m₃ m₃') : TupSim P (do let a ← m₁; let b ← m₂; let c ← m₃; return a ++ b ++ c)
      (do let a ← m₁'; let b ← m₂'; let c ← m₃'; return a ++ b ++ c) := by
  obtain ⟨l₁, l₁', rfl, rfl, k₁⟩ := h₁
  obtain ⟨l₂, l₂', rfl, rfl, k₂⟩ := h₂
  obtain ⟨l₃, l₃', rfl, rfl, k₃⟩ := h₃
  exact ⟨_, _, rfl, rfl, List.rel_append (List.rel_append k₁ k₂) k₃⟩

theorem append4 {m₁ m₂ m₃ m₄ m₁' m₂' m₃' m₄' : Except PyErr (List STuple)} (h₁ : TupSim P m₁ m₁')
    (h₂ : TupSim P m₂ m₂') (h₃ : TupSim P m₃ m₃') (h₄ : TupSim P m₄ m₄') :
    TupSim P (do let a ← m₁; let b ← m₂; let c ← m₃; let d ← m₄; return a ++ (b ++ (c ++ d)))
      (do let a ← m₁'; let b ← m₂'; let c ← m₃'; let d ← m₄'; return a ++ (b ++ (c ++ d))) := by
  obtain ⟨l₁, l₁', rfl, rfl, k₁⟩ := h₁
  obtain ⟨l₂, l₂', rfl, rfl, k₂⟩ := h₂
  obtain ⟨l₃, l₃', rfl, rfl, k₃⟩ := h₃
  obtain ⟨l₄, l₄', rfl, rfl, k₄⟩ := h₄
  exact ⟨_, _, rfl, rfl, List.rel_append k₁ (List.rel_append k₂ (List.rel_append k₃ k₄))⟩

theorem cons {m m' : Except PyErr (List STuple)} {t t' : STuple} (ht : List.Forall₂ P t.args t'.args) (h₁ : TupSim P m m') :
    TupSim P (do let a ← m; pure (t :: a)) (do let a ← m'; pure (t' :: a)) := by
  obtain ⟨l₁, l₁', rfl, rfl, k₁⟩ := h₁
  exact ⟨_, _, rfl, rfl, .cons ht k₁⟩

theorem collect {α : Type} {l : List α} {f f' : α → Except PyErr (List STuple)} (hf : ∀ x ∈ l, TupSim P (f x) (f' x)) :
    TupSim P (Model.collect l f) (Model.collect l f') := by
  induction l with
  | nil => exact TupSim.none
  | cons x l ih => exact (hf x (by simp)).append (ih fun y hy => hf y (by simp [hy]))

theorem ite {c : Prop} [Decidable c] {m₁ m₂ m₁' m₂' : Except PyErr (List STuple)} (h₁ : c → TupSim P m₁ m₁')
    (h₂ : TupSim P m₂ m₂') : TupSim P (if c then m₁ else m₂) (if c then m₁' else m₂') := by
  split
  · rename_i h; exact h₁ h
  · exact h₂

end TupSim

theorem argReplaced_refl {c : Logic} {tags : List Tag} {tokens tokens' : List Str} (a : Argument) :
    ArgReplaced c tags tokens tokens' a a := ⟨rfl, rfl, Or.inl rfl⟩

section
variable {c : Logic} {tags : List Tag} {tokens tokens' : List Str} {h h' : Heap} (E : Ends c tags tokens tokens' h h')
include E

theorem Ends.lem (r : Ref) (hg : (h.node r).tag ∉ namingTags) : (h'.node r).lem = (h.node r).lem := by
  obtain ⟨o, s, l, x, k, w, e, e1, -⟩ := E.node r; rw [e]; exact (e1 hg).1
theorem Ends.canon (r : Ref) (hg : (h.node r).tag ∉ namingTags) : (h'.node r).canon = (h.node r).canon := by
  obtain ⟨o, s, l, x, k, w, e, e1, -⟩ := E.node r; rw [e]; exact (e1 hg).2.2
theorem Ends.particles (r : Ref) : (h'.node r).particles = (h.node r).particles := by
  obtain ⟨o, s, l, x, k, w, e, -⟩ := E.node r; rw [e]
theorem Ends.isInfTo (r : Ref) : (h'.node r).isInfTo = (h.node r).isInfTo := by
  obtain ⟨o, s, l, x, k, w, e, -⟩ := E.node r; rw [e]
theorem Ends.isAff (r : Ref) : (h'.node r).isAff = (h.node r).isAff := by
  obtain ⟨o, s, l, x, k, w, e, -⟩ := E.node r; rw [e]
theorem Ends.subjs (r : Ref) : (h'.node r).subjs = (h.node r).subjs := by
  obtain ⟨o, s, l, x, k, w, e, -⟩ := E.node r; rw [e]
theorem Ends.objs (r : Ref) : (h'.node r).objs = (h.node r).objs := by
  obtain ⟨o, s, l, x, k, w, e, -⟩ := E.node r; rw [e]
theorem Ends.iobjs (r : Ref) : (h'.node r).iobjs = (h.node r).iobjs := by
  obtain ⟨o, s, l, x, k, w, e, -⟩ := E.node r; rw [e]
theorem Ends.props (r : Ref) : (h'.node r).props = (h.node r).props := by
  obtain ⟨o, s, l, x, k, w, e, -⟩ := E.node r; rw [e]
theorem Ends.adjs (r : Ref) : (h'.node r).adjs = (h.node r).adjs := by
  obtain ⟨o, s, l, x, k, w, e, -⟩ := E.node r; rw [e]
theorem Ends.svis (r : Ref) : (h'.node r).subjsVerbsIprops = (h.node r).subjsVerbsIprops := by
  obtain ⟨o, s, l, x, k, w, e, -⟩ := E.node r; rw [e]
theorem Ends.copulasProps (r : Ref) : (h'.node r).copulasProps = (h.node r).copulasProps := by
  obtain ⟨o, s, l, x, k, w, e, -⟩ := E.node r; rw [e]
theorem Ends.ppsProps (r : Ref) : (h'.node r).ppsProps = (h.node r).ppsProps := by
  obtain ⟨o, s, l, x, k, w, e, -⟩ := E.node r; rw [e]
theorem Ends.agents (r : Ref) : (h'.node r).agents = (h.node r).agents := by
  obtain ⟨o, s, l, x, k, w, e, -⟩ := E.node r; rw [e]
theorem Ends.active (r : Ref) : (h'.node r).active = (h.node r).active := by
  obtain ⟨o, s, l, x, k, w, e, -⟩ := E.node r; simp only [Node.active]; rw [e]
theorem Ends.plain (r : Ref) : (h'.node r).cannotBeTransitive = (h.node r).cannotBeTransitive := by
  obtain ⟨o, s, l, x, k, w, e, -⟩ := E.node r; simp only [Node.cannotBeTransitive]; rw [e]

theorem Ends.word (r : Ref) (b : Bool) : ArgReplaced c tags tokens tokens' ⟨(h.node r).canon, nounArgCode (h.node r), b⟩
    ⟨(h'.node r).canon, nounArgCode (h'.node r), b⟩ := by
  have hcode : nounArgCode (h'.node r) = nounArgCode (h.node r) := by unfold nounArgCode; rw [E.tag]
  refine ⟨hcode, rfl, ?_⟩
  by_cases hg : (h.node r).tag ∈ namingTags
  · obtain ⟨o, s, l, x, k, w, e, -, e2⟩ := E.node r
    have : (h'.node r).canon = w := by rw [e]
    simp only [this]
    refine e2.imp id fun h => ⟨?_, h.1⟩
    simp only [namingTags, List.mem_cons, List.not_mem_nil, or_false] at hg
    unfold nounArgCode
    rcases hg with hg | hg <;> simp [hg]
  · exact Or.inl (E.canon r hg)

theorem Ends.nArg (r : Ref) : ArgReplaced c tags tokens tokens' (nArg h r) (Model.nArg h' r) := E.word r true

theorem Ends.pArg (r : Ref) : ArgReplaced c tags tokens tokens' (pArg h r) (Model.pArg h' r) := by
  unfold Model.pArg propArgCode
  rw [E.tag]
  by_cases ha : (h.node r).tag = .ADJ
  · simp only [ha, if_true]
    refine ⟨?_, rfl, Or.inl (E.canon r (by rw [ha]; decide))⟩
    simp only [adjArgCode, E.active]
  · simp only [ha, if_false]
    exact E.word r true

theorem Ends.nominals (l : List Ref) : nominals h' l = Model.nominals h l := by
  unfold Model.nominals; simp only [E.tag]
theorem Ends.subjs2 (s o : Ref) : subjs2 h' s o = Model.subjs2 h s o := by
  unfold Model.subjs2; simp only [E.subjs, E.nominals]
theorem Ends.verbObjs (v : Ref) : verbObjs h' v = Model.verbObjs h v := by
  unfold Model.verbObjs; simp only [E.objs, E.tag]
theorem Ends.headVerb (r : Ref) : headVerb h' r = Model.headVerb h r := by
  unfold Model.headVerb; simp only [E.tag, E.isInfTo, E.plain]
theorem Ends.blockedBy (r : Ref) : blockedBy h' r = Model.blockedBy h r := by
  unfold Model.blockedBy; simp only [E.subjs, E.nominals, E.verbObjs]

theorem Ends.verb (r : Ref) (hv : (h.node r).tag = .VERB) : (h'.node r).canon = (h.node r).canon :=
  E.canon r (by rw [hv]; decide)

end

/-- No noun is reported as a verb, a copula or an adjective. -/
structure NounsApart (h : Heap) : Prop where
  cop : ∀ n, ∀ x ∈ (h.node n).copulasProps, (h.node x.1).tag ∉ namingTags
  pps : ∀ n, ∀ x ∈ (h.node n).ppsProps, (h.node x.1).tag ∉ namingTags
  svi : ∀ n, ∀ x ∈ (h.node n).subjsVerbsIprops, (h.node x.2.1).tag ∉ namingTags
  adj : ∀ n, ∀ x ∈ (h.node n).adjs, (h.node x).tag ∉ namingTags

section
variable {c : Logic} {tags : List Tag} {tokens tokens' : List Str} {h h' : Heap} (E : Ends c tags tokens tokens' h h')
include E

local notation "Sim" => TupSim (ArgReplaced c tags tokens tokens')

theorem Ends.clauseTuples {v s o s' : Ref} (hv : (h.node v).tag = .VERB) (ho : (h.node o).tag = .VERB) :
    Sim (clauseTuples h v s o s') (Model.clauseTuples h' v s o s') := by
  unfold Model.clauseTuples
  simp only [nounArg_ok, xnor_affirmed, newT, newI, newC, propArg_ok, bind_ok, pure_bind, bind_assoc]
  simp only [E.verb v hv, E.verb o ho, E.plain, E.objs, E.props, E.nominals, E.isAff]
  refine TupSim.append (TupSim.ite (fun _ => TupSim.append (TupSim.ite (fun _ => TupSim.one ?_) TupSim.none)
    (TupSim.collect fun x _ => TupSim.one ?_)) TupSim.none) (TupSim.collect fun x _ => TupSim.one ?_)
  · exact .cons (E.nArg _) (.cons (argReplaced_refl _) (.cons (E.nArg _) (.cons (argReplaced_refl _) .nil)))
  · exact .cons (E.nArg _) (.cons (argReplaced_refl _) (.cons (E.nArg _) (.cons (argReplaced_refl _) (.cons (E.nArg _) .nil))))
  · exact .cons (E.nArg _) (.cons (argReplaced_refl _) (.cons (E.nArg _) (.cons (argReplaced_refl _) (.cons (E.pArg _) .nil))))

theorem Ends.fromVerbsSubjsObjs {v : Ref} (hv : (h.node v).tag = .VERB) :
    Sim (fromVerbsSubjsObjs h v) (Model.fromVerbsSubjsObjs h' v) := by
  unfold Model.fromVerbsSubjsObjs
  simp only [nounArg_ok, bind_ok, E.subjs, E.nominals, E.subjs2, E.verbObjs]
  refine TupSim.collect fun s _ => TupSim.collect fun o ho => TupSim.collect fun s' _ => E.clauseTuples hv ?_
  unfold Model.verbObjs at ho
  simpa using (List.mem_filter.mp ho).2

theorem Ends.fromSubjsObjs {v : Ref} (hv : (h.node v).tag = .VERB) :
    Sim (fromSubjsObjs h v) (Model.fromSubjsObjs h' v) := by
  unfold Model.fromSubjsObjs
  simp only [nounArg_ok, xnor_affirmed, newT, newI, bind_ok, E.verb v hv, E.objs, E.subjs, E.nominals, E.isAff]
  refine TupSim.append (TupSim.ite (fun _ => TupSim.collect fun x _ => TupSim.one ?_) TupSim.none)
    (TupSim.collect fun x _ => TupSim.collect fun y _ => TupSim.one ?_)
  · exact .cons (E.nArg _) (.cons (argReplaced_refl _) .nil)
  · exact .cons (E.nArg _) (.cons (argReplaced_refl _) (.cons (E.nArg _) .nil))

theorem Ends.fromIobj {v : Ref} (hv : (h.node v).tag = .VERB) : Sim (fromIobj h v) (Model.fromIobj h' v) := by
  unfold Model.fromIobj
  simp only [nounArg_ok, xnor_affirmed, newR, bind_ok, E.verb v hv, E.iobjs, E.subjs, E.nominals, E.isAff]
  refine TupSim.collect fun x _ => TupSim.collect fun y _ => TupSim.one ?_
  exact .cons (E.nArg _) (.cons (argReplaced_refl _) (.cons (E.nArg _) .nil))

variable (pp : Str → Str)

theorem Ends.participle {v : Ref} (hv : (h.node v).tag ∉ namingTags) : ppWithParticles pp h' v = ppWithParticles pp h v := by
  unfold ppWithParticles; simp only [E.particles, E.lem v hv]

theorem Ends.fromObjs {v : Ref} (hv : (h.node v).tag = .VERB) : Sim (fromObjs pp h v) (Model.fromObjs pp h' v) := by
  unfold Model.fromObjs
  simp only [nounArg_ok, E.verb v hv, E.objs, E.subjs, E.nominals, E.isAff, E.participle pp (v := v) (by rw [hv]; decide),
    newC, newL, bind_ok]
  refine TupSim.ite (fun _ => TupSim.collect fun x _ => ?_) TupSim.none
  split
  · simp only [xnor_affirmed, bind_ok]
    exact TupSim.one (.cons (E.nArg _) (.cons (argReplaced_refl _) (.cons (argReplaced_refl _) .nil)))
  · simp only [xnor_affirmed, bind_ok]
    exact TupSim.one (.cons (E.nArg _) (.cons (argReplaced_refl _) (.cons (argReplaced_refl _) .nil)))

theorem Ends.activeForms (n p : Ref) :
    Sim (activeForms h n p (Model.nArg h n)) (Model.activeForms h' n p (Model.nArg h' n)) := by
  unfold Model.activeForms
  rw [E.active]
  cases (h.node p).active with
  | none => exact TupSim.none
  | some w =>
    simp only [nounArg_ok, xnor_affirmed, newT, bind_ok, E.agents, E.nominals, E.isAff]
    exact TupSim.collect fun x _ => TupSim.one (.cons (E.nArg _) (.cons (argReplaced_refl _) (.cons (E.nArg _) .nil)))

variable (A : NounsApart h)
include A

theorem Ends.fromNakedAdjs (n : Ref) : Sim (fromNakedAdjs h n) (Model.fromNakedAdjs h' n) := by
  unfold Model.fromNakedAdjs
  simp only [nounArg_ok, xnor_affirmed, newC, adjArg_ok, bind_ok, E.adjs, E.isAff]
  refine TupSim.collect fun x hx => TupSim.cons (.cons (E.nArg _) (.cons (argReplaced_refl _) (.cons ?_ .nil)))
    (E.activeForms n x)
  unfold Model.aArg adjArgCode
  rw [E.canon x (A.adj n x hx), E.active]
  exact argReplaced_refl _

theorem Ends.fromPpProps (n : Ref) : Sim (fromPpProps h n) (Model.fromPpProps h' n) := by
  unfold Model.fromPpProps
  simp only [nounArg_ok, xnor_affirmed, newC, propArg_ok, bind_ok, join_be]
  simp only [E.ppsProps, E.tag, E.isAff]
  refine TupSim.collect fun x hx => TupSim.one (.cons (E.nArg _) (.cons ?_ (.cons (E.pArg _) .nil)))
  rw [E.canon x.1 (A.pps n x (List.mem_filter.mp hx).1)]
  exact argReplaced_refl _

theorem Ends.fromCopulaProps (n : Ref) : Sim (fromCopulaProps h n) (Model.fromCopulaProps h' n) := by
  unfold Model.fromCopulaProps
  simp only [nounArg_ok, xnor_affirmed, newC, propArg_ok, bind_ok]
  simp only [E.copulasProps, E.tag, E.isAff]
  refine TupSim.collect fun x hx => TupSim.cons (.cons (E.nArg _) (.cons ?_ (.cons (E.pArg _) .nil)))
    (TupSim.ite (fun _ => E.activeForms n x.2) TupSim.none)
  rw [E.canon x.1 (A.cop n x (List.mem_filter.mp hx).1)]
  exact argReplaced_refl _

theorem Ends.fromIprops (n : Ref) : Sim (fromIprops pp h n) (Model.fromIprops pp h' n) := by
  unfold Model.fromIprops
  simp only [nounArg_ok, ipropAff_eq, newC, propArg_ok, bind_ok, join_be]
  simp only [E.svis, E.tag, E.isAff]
  refine TupSim.collect fun x hx => TupSim.one (.cons (E.nArg _) (.cons ?_ (.cons (E.pArg _) .nil)))
  rw [E.participle pp (A.svi n x (List.mem_filter.mp hx).1)]
  exact argReplaced_refl _

/-- The tuples are those of the other sentence with its nouns instead. -/
theorem Ends.extractTuples (nodes : List Ref) : Sim (extractTuples pp h nodes) (Model.extractTuples pp h' nodes) := by
  unfold Model.extractTuples
  simp only [E.headVerb]
  have hb : Model.blockedBy h' = Model.blockedBy h := by funext r; exact E.blockedBy r
  rw [hb]
  have hv : ∀ {n}, Model.headVerb h n = true → (h.node n).tag = .VERB := by
    intro n hn
    unfold Model.headVerb at hn
    simp only [Bool.and_eq_true, decide_eq_true_eq] at hn
    exact hn.1
  refine TupSim.append3 (TupSim.collect fun n _ => TupSim.ite (fun hn => E.fromVerbsSubjsObjs (hv hn)) TupSim.none)
    (TupSim.collect fun n _ => ?_) (TupSim.collect fun n _ => ?_)
  · unfold secondRound
    rw [E.headVerb, E.tag]
    exact TupSim.ite (fun hn => TupSim.append (E.fromSubjsObjs (hv hn)) (E.fromIobj (hv hn)))
      (TupSim.ite (fun _ => TupSim.append4 (E.fromIprops pp A n)
        (E.fromCopulaProps A n) (E.fromPpProps A n) (E.fromNakedAdjs A n)) TupSim.none)
  · unfold thirdRound
    rw [E.tag, E.plain]
    exact TupSim.ite (fun hn => E.fromObjs pp hn.1) TupSim.none

end

/-! ### The whole process -/

theorem NodContent.tagAt {t : Tree Dep Nat} {m : Nat} {arcs : List Arc} (H : IdxTree t m arcs) {lower : Str → Str}
    {tokens : List Str} {tags : List Tag} {bl : List Nat} {key : Nat} {n : Node}
    (hn : NodContent t lower tokens tags bl key n) : TagAt tags t key n.tag := by
  rcases hn.kind with h | ⟨-, -, -, -, up, texts, h, -⟩
  · exact ⟨key, .refl, h.1 ▸ hn.tag⟩
  · exact ⟨n.idx, upChain_flat H h rfl, hn.tag⟩

/-- The steps of the process on a sentence with a parse. -/
theorem process_steps {c : Logic} {tk : List Str} {tags : List Tag} {t : Tree Dep Nat} {nt : Tree Dep Ref} {dict : Dict Nat Ref}
    {ck : Bool} {h q₁ q₃ q₄ q₅ : Heap} {us : List STuple} (a1 : nodify c.lower tk tags (some t) = .ok (h, dict, some nt))
    (a2 : dict.values.foldlM c.normalizeNode h = .ok q₁)
    (a3 : (if ck then chunker (fixAll c.lemmatizer.adjs c.nouns nt q₁ dict.values) nt dict.values
      else .ok (fixAll c.lemmatizer.adjs c.nouns nt q₁ dict.values)) = .ok q₃)
    (a4 : dict.values.foldlM c.canonicalizeNode q₃ = .ok q₄) (a5 : findArgs nt dict.values q₄ = .ok q₅)
    (a6 : extractTuples c.pp q₅ dict.values = .ok us) : c.process (tk, tags, some t, ck) = .ok ((q₅, dict), us) := by
  unfold Logic.process
  simp only [a1, bind, Except.bind, a2, pure, Except.pure]
  cases ck with
  | false =>
    simp only [Bool.false_eq_true, if_false, Except.ok.injEq] at a3 ⊢
    subst a3
    simp only [a4, a5, a6]
  | true =>
    simp only [if_true] at a3 ⊢
    simp only [a3, a4, a5, a6]

theorem process_nouns {c : Logic} (hc : LogicOk c) {t : Tree Dep Nat} {tokens tokens' : List Str} {tags : List Tag} {arcs : List Arc}
    (H : IdxTree t tokens.length arcs) (hl : tags.length = tokens.length) (hrp : ∀ a ∈ arcs, a.2.2 ≠ t.root)
    (hrc : ∃ a ∈ arcs, a.2.1 = t.root)
    (hlab : ∀ {w p p' : Nat} {d d' : Dep}, (d, w) ∈ t.children p → (d', w) ∈ t.children p' → d = d')
    (R : NounsReplaced c tags t tokens tokens') (N : NounsAsNouns tags t) (ck : Bool) :
    ∃ st st' ts ts', c.process (tokens, tags, some t, ck) = .ok (st, ts) ∧
      c.process (tokens', tags, some t, ck) = .ok (st', ts') ∧
      List.Forall₂ (fun x x' => List.Forall₂ (ArgReplaced c tags tokens tokens') x.args x'.args) ts ts' := by
  obtain ⟨s, s', nt, dict, e, e', inv, hb, hnd, hx, hs⟩ := nodify_nouns H hl hrp hrc R c.lower
  obtain ⟨h₁, h₂, h₃, h₄, h₅, ts, g1, s1, s2, sc, s3, s4, ⟨s5, -⟩, s6⟩ := Logic.process_some hc e hb hnd ck
  obtain ⟨k₁, k₁', e1, e1', M₁, T₁⟩ := mid_normalize hc R hnd hx hs
  have M₂ := mid_fix c.nouns nt dict.values (fun _ h => h) M₁
  have t2 := Props.C55_fix_effect c.lemmatizer.adjs c.nouns k₁ nt.root _ nt hb dict.values hnd
  have T3 : ∃ k₃ k₃', (if ck then chunker (fixAll c.lemmatizer.adjs c.nouns nt k₁ dict.values) nt dict.values
        else .ok (fixAll c.lemmatizer.adjs c.nouns nt k₁ dict.values)) = .ok k₃ ∧
      (if ck then chunker (fixAll c.lemmatizer.adjs c.nouns nt k₁' dict.values) nt dict.values
        else .ok (fixAll c.lemmatizer.adjs c.nouns nt k₁' dict.values)) = .ok k₃' ∧
      Mid c tags tokens tokens' dict.values k₃ k₃' ∧
      ∀ r, (k₃.node r).tag = ((fixAll c.lemmatizer.adjs c.nouns nt k₁ dict.values).node r).tag := by
    cases ck with
    | false => exact ⟨_, _, rfl, rfl, M₂, fun _ => rfl⟩
    | true =>
      obtain ⟨k₃, q, -⟩ := Props.C54_chunks (fixAll c.lemmatizer.adjs c.nouns nt k₁ dict.values) nt.root _ nt hb dict.values hnd
      obtain ⟨k₃', q', -⟩ := Props.C54_chunks (fixAll c.lemmatizer.adjs c.nouns nt k₁' dict.values) nt.root _ nt hb dict.values hnd
      obtain ⟨M, T⟩ := mid_chunker nt M₂ q q'
      exact ⟨k₃, k₃', q, q', M, T⟩
  obtain ⟨k₃, k₃', e3, e3', M₃, T₃⟩ := T3
  obtain ⟨k₄, k₄', e4, e4', E, T₄⟩ := ends_of_mid hc hnd M₃
  obtain ⟨g, g', e5, e5', E₅⟩ := E.findArgs hb dict.values
  obtain ⟨us, e6, -⟩ := Props.C57_extraction_exact c.pp g dict.values
  have hg := process_steps e e1 e3 e4 e5 e6
  rw [g1] at hg
  obtain ⟨hst, rfl⟩ := Prod.mk.inj (Except.ok.inj hg)
  obtain ⟨rfl, -⟩ := Prod.mk.inj hst
  have ninv := buildTree_inv hb
  have harc : ∀ {d r r'}, (d, r') ∈ nt.children r ↔ ∃ k k', (k, r) ∈ s.dict ∧ (k', r') ∈ s.dict ∧ (d, k') ∈ t.children k := by
    intro d r r'
    rw [ninv.mem_children, mem_nodeArcs inv.wf]
  have parMem : ∀ {d r r'}, nt.parent r' = some (d, r) → (d, r') ∈ nt.children r := by
    intro d r r' hpar
    rw [ninv.parent] at hpar
    rw [ninv.mem_children]
    exact lastParent_mem hpar
  have nodeLabel : ∀ {d d' r r' x}, (d, x) ∈ nt.children r → (d', x) ∈ nt.children r' → d = d' := by
    intro d d' r r' x a b
    obtain ⟨_, k, -, k1, k2⟩ := harc.mp a
    obtain ⟨_, k', -, k3, k4⟩ := harc.mp b
    have := inv.key_unique k1 k3
    subst this
    exact hlab k2 k4
  obtain ⟨tag, f1, f2⟩ := s2
  have tag1 : ∀ r, (h₁.node r).tag = (s.heap.node r).tag := by
    intro r
    by_cases hr : r ∈ dict.values
    · obtain ⟨_, _, _, -, -, q⟩ := (s1 r).2 hr
      rw [q]
    · rw [(s1 r).1 hr]
  have tag3 : ∀ r, (h₃.node r).tag = tag r := by
    intro r
    have h2 : (h₂.node r).tag = tag r := by rw [f1]
    rw [← h2]
    cases ck with
    | false => rw [s3 rfl]
    | true =>
      by_cases k : r ∈ Dict.values dict ∧ (∃ x, Compound h₂ nt (Dict.values dict) x r) ∧
          ∀ p, ¬ Compound h₂ nt (Dict.values dict) r p
      · obtain ⟨ns, -, e⟩ := (sc rfl r).1 k.1 k.2.1 k.2.2
        rw [e]
      · rw [(sc rfl r).2 (by
          by_contra hk
          push Not at hk
          exact k hk)]
  have tag4 : ∀ r, (h₄.node r).tag = tag r := by
    intro r
    rw [← tag3]
    by_cases hr : r ∈ dict.values
    · rw [(Props.C40_frame _ _ ((s4 r).2 hr)).1]
    · rw [(s4 r).1 hr]
  have tag5 : ∀ r, (h₅.node r).tag = tag r := by
    intro r
    obtain ⟨_, _, _, _, _, _, _, _, _, _, _, _, _, _, e⟩ := s5.same r
    rw [e, ← tag4]
  have keep : ∀ r, ¬ Fixable h₁ nt r → tag r = (s.heap.node r).tag := by
    intro r hr
    rw [(f2 r).2.2 (Or.inr (Or.inl hr)), tag1]
  have parent : ∀ {d r x}, (d, x) ∈ nt.children r → tag r = (s.heap.node r).tag := by
    intro d r x hx
    refine keep r fun hf => ?_
    rw [hf.1] at hx
    cases hx
  have copula : ∀ {d r x}, (d, x) ∈ nt.children r → d ∈ propDeps → (h₅.node r).tag ∉ namingTags := by
    intro d r x hx hd
    rw [tag5, parent hx]
    obtain ⟨k, k', k1, -, k2⟩ := harc.mp hx
    exact N.copula k d k' hd k2 _ ((inv.ent k r k1).tagAt H)
  have group : ∀ {r x}, tag r = .ADJ → Group nt dict.values r x → (h₅.node x).tag ∉ namingTags := by
    intro r x hr hx
    rcases hx with rfl | ⟨-, hx⟩
    · rw [tag5, hr]; decide
    · obtain ⟨d, hd, hx⟩ : ∃ d ∈ [Dep.AND, .OR], (d, x) ∈ nt.children r := by
        rcases hx with hx | hx
        · exact ⟨_, by simp, hx⟩
        · exact ⟨_, by simp, hx⟩
      have hfix : ¬ Fixable h₁ nt x := by
        rintro ⟨-, ⟨p, hp, -⟩ | ⟨p, hp | hp⟩⟩
        all_goals
          have := nodeLabel (parMem hp) hx
          subst this
          revert hd
          decide
      rw [tag5, keep x hfix]
      obtain ⟨k, k', k1, k3, k2⟩ := harc.mp hx
      refine N.conj k d k' hd k2 ?_ _ ((inv.ent k' x k3).tagAt H)
      rw [← hr, parent hx]
      exact (inv.ent k r k1).tagAt H
  have A : NounsApart h₅ := by
    refine ⟨?_, ?_, ?_, ?_⟩
    · rintro n ⟨q, p⟩ hx
      obtain ⟨node, _, _, -, hp, -⟩ := (s5.copulas n q p).mp hx
      exact copula (parMem hp) (by decide)
    · rintro n ⟨q, p⟩ hx
      obtain ⟨_, -, -, -, ht, -⟩ := (s5.pps n q p).mp hx
      rw [tag4] at ht
      simp only [tag5, ht]
      decide
    · rintro n ⟨q, v, p⟩ hx
      obtain ⟨node, _, -, hp, -⟩ := (s5.svis n q v p).mp hx
      exact copula (parMem hp) (by decide)
    · intro n x hx
      rcases (s5.adjs n x).mp hx with ⟨node, -, -, -, ht, hg⟩ | ⟨p, -, -, -, ht, -, hg⟩
      · exact group (tag4 node ▸ ht) hg
      · exact group (tag4 p ▸ ht) hg
  obtain ⟨us, us', w1, w2, F⟩ := E₅.extractTuples c.pp A dict.values
  rw [e6] at w1
  cases w1
  exact ⟨_, _, _, _, g1, process_steps e' e1' e3' e4' e5' w2, F⟩

end Model
