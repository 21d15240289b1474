import Verif.Spec.SameArcs
import Verif.Lemmas.Nodifier
import Mathlib.Data.List.Perm.Basic

/-! Trees built from the same arcs registered in different orders. -/

namespace Model
open Py Spec

theorem flatMap_filter_perm {α κ : Type} [DecidableEq κ] (f : α → κ) : ∀ (ls : List κ) (xs : List α), ls.Nodup →
    (∀ x ∈ xs, f x ∈ ls) → (ls.flatMap fun l => xs.filter fun x => f x = l).Perm xs
  | [], xs, _, h => by
    cases xs with
    | nil => simp
    | cons x xs => exact absurd (h x (by simp)) (by simp)
  | l :: ls, xs, hn, h => by
    obtain ⟨hl, hn'⟩ := List.nodup_cons.mp hn
    rw [List.flatMap_cons]
    have ih := flatMap_filter_perm f ls (xs.filter fun x => !decide (f x = l)) hn' (by
      intro x hx
      obtain ⟨h1, h2⟩ := List.mem_filter.mp hx
      have := h x h1
      simp only [Bool.not_eq_true', decide_eq_false_iff_not] at h2
      simpa [h2] using this)
    have e : (ls.flatMap fun l' => (xs.filter fun x => !decide (f x = l)).filter fun x => f x = l') =
        ls.flatMap fun l' => xs.filter fun x => f x = l' := by
      apply List.flatMap_congr
      intro l' hl'
      rw [List.filter_filter]
      apply List.filter_congr
      intro x _
      by_cases hx : f x = l'
      · have : l' ≠ l := by rintro rfl; exact hl hl'
        simp [hx, this]
      · simp [hx]
    rw [e] at ih
    exact (List.Perm.append_left _ ih).trans (List.filter_append_perm _ _)

section
variable {N : Type} [DecidableEq N] {hist hist' : List (Dep × N × N)} {root : N} {t t' : Tree Dep N}

theorem TreeInv.children_perm (h : TreeInv root hist t) (p : N) :
    (t.children p).Perm ((hist.filter fun a => a.2.1 = p).map fun a => (a.1, a.2.2)) := by
  rw [h.children]
  have : ((labelsOf hist p).flatMap fun l => (labelled hist p l).map fun c => (l, c)) =
      ((labelsOf hist p).flatMap fun l => (hist.filter fun a => a.2.1 = p).filter fun a => a.1 = l).map
        fun a => (a.1, a.2.2) := by
    rw [List.map_flatMap]
    apply List.flatMap_congr
    intro l _
    unfold labelled
    rw [List.map_map, List.filter_filter]
    have e : (hist.filter fun a => decide (a.1 = l ∧ a.2.1 = p)) =
        hist.filter fun a => decide (a.1 = l) && decide (a.2.1 = p) := by
      apply List.filter_congr
      intro a _
      simp
    rw [e]
    apply List.map_congr_left
    intro a ha
    have := (List.mem_filter.mp ha).2
    simp only [Bool.and_eq_true, decide_eq_true_eq] at this
    simp [this.1]
  rw [this]
  apply List.Perm.map
  apply flatMap_filter_perm
  · exact nodup_firstSeen _
  · intro a ha
    simp only [labelsOf, mem_firstSeen]
    exact List.mem_map.mpr ⟨a, ha, rfl⟩

theorem TreeInv.children_nodup (h : TreeInv root hist t) (hs : SingleHead hist) (p : N) :
    ((t.children p).map Prod.snd).Nodup := by
  rw [((h.children_perm p).map Prod.snd).nodup_iff, List.map_map]
  exact List.Nodup.sublist ((List.filter_sublist (l := hist)).map fun a => a.2.2) hs

theorem TreeInv.children_filter (h : TreeInv root hist t) (p : N) (l : Dep) :
    ((t.children p).filter fun c => c.1 = l).map Prod.snd = t.childrenVia p l := by
  rw [h.children, h.childrenVia]
  have hn : (labelsOf hist p).Nodup := nodup_firstSeen _
  have hm : l ∉ labelsOf hist p → labelled hist p l = [] := by
    intro hl
    rw [List.eq_nil_iff_forall_not_mem]
    intro c hc
    apply hl
    simp only [labelsOf, mem_firstSeen]
    exact List.mem_map.mpr ⟨_, List.mem_filter.mpr ⟨mem_labelled.mp hc, by simp⟩, rfl⟩
  revert hn hm
  generalize labelsOf hist p = ls
  intro hn hm
  induction ls with
  | nil => simpa using (hm (by simp)).symm
  | cons k ks ih =>
    obtain ⟨hk, hn'⟩ := List.nodup_cons.mp hn
    rw [List.flatMap_cons, List.filter_append, List.map_append]
    by_cases e : k = l
    · subst e
      have h1 : ((labelled hist p k).map fun c => (k, c)).filter (fun c => decide (c.1 = k)) =
          (labelled hist p k).map fun c => (k, c) := by
        rw [List.filter_eq_self]
        simp
      have h2 : (ks.flatMap fun l => (labelled hist p l).map fun c => (l, c)).filter (fun c => decide (c.1 = k)) = [] := by
        rw [List.filter_eq_nil_iff]
        rintro ⟨a, b⟩ hab
        obtain ⟨l', hl', hb⟩ := List.mem_flatMap.mp hab
        obtain ⟨c, _, hc⟩ := List.mem_map.mp hb
        cases hc
        simp only [decide_eq_true_eq]
        rintro rfl
        exact hk hl'
      rw [h1, h2]
      simp [Function.comp_def]
    · have h1 : ((labelled hist p k).map fun c => (k, c)).filter (fun c => decide (c.1 = l)) = [] := by
        rw [List.filter_eq_nil_iff]
        rintro ⟨a, b⟩ hab
        obtain ⟨c, _, hc⟩ := List.mem_map.mp hab
        cases hc
        simpa using e
      rw [h1, List.map_nil, List.nil_append]
      exact ih hn' (fun hl => hm (by simp [hl, Ne.symm e]))

/-- Two trees that no step of the pipeline tells apart. -/
structure SameTree (t t' : Tree Dep N) : Prop where
  root : t.root = t'.root
  parent : ∀ n, t.parent n = t'.parent n
  len : t.len = t'.len
  hasNode : ∀ n, t.hasNode n = t'.hasNode n
  children : ∀ n, (t.children n).Perm (t'.children n)
  via : ∀ l ∈ rankedDeps, ∀ n, t.childrenVia n l = t'.childrenVia n l
  childVia : ∀ l ∈ rankedDeps, ∀ n, t.childVia n l = t'.childVia n l
  childAny : ∀ l n, ∃ a b, t.childVia n l = .ok a ∧ t'.childVia n l = .ok b ∧ (a = none ↔ b = none)
  hasChildVia : ∀ n l, t.hasChildVia n l = t'.hasChildVia n l
  hasChildViaSet : ∀ n ls, t.hasChildViaSet n ls = t'.hasChildViaSet n ls

theorem SameTree.nil_iff (h : SameTree t t') (n : N) : (t.children n = []) = (t'.children n = []) := by
  have := h.children n
  exact propext ⟨fun e => by rw [e] at this; exact this.nil_eq.symm, fun e => by rw [e] at this; exact this.eq_nil⟩

theorem SameTree.any (h : SameTree t t') (n : N) (f : Dep × N → Bool) : (t.children n).any f = (t'.children n).any f := by
  rw [Bool.eq_iff_iff]
  simp only [List.any_eq_true, (h.children n).mem_iff]

theorem SameTree.hasParentViaSet (h : SameTree t t') (n : N) (ls : List Dep) :
    t.hasParentViaSet n ls = t'.hasParentViaSet n ls := by
  have : t.parents.get? n = t'.parents.get? n := h.parent n
  unfold Tree.hasParentViaSet
  rw [this]

theorem sameTree_of (hb : buildTree root hist = .ok t) (hb' : buildTree root hist' = .ok t') (H : SameArcs hist hist') :
    SameTree t t' := by
  have inv := buildTree_inv hb
  have inv' := buildTree_inv hb'
  have hs' : SingleHead hist' := by
    unfold SingleHead
    exact (List.Perm.nodup_iff (H.perm.map fun a : Dep × N × N => a.2.2)).mp H.single
  have hlab : ∀ n l, (t.childrenVia n l).Perm (t'.childrenVia n l) := by
    intro n l
    rw [inv.childrenVia, inv'.childrenVia]
    exact (H.perm.filter _).map _
  have hq := fun n l ls => tree_queries root hist t hb n l ls
  have hq' := fun n l ls => tree_queries root hist' t' hb' n l ls
  refine ⟨?_, ?_, ?_, ?_, ?_, ?_, ?_, ?_, ?_, ?_⟩
  · rw [inv.root_eq, inv'.root_eq]
  · intro n
    rw [inv.parent, inv'.parent]
    cases e : lastParent hist n with
    | none =>
      symm
      rw [lastParent_eq_none] at e ⊢
      intro a ha
      exact e a (H.perm.mem_iff.mpr ha)
    | some q =>
      obtain ⟨l, p⟩ := q
      exact (lastParent_of_single hs' (H.perm.mem_iff.mp (lastParent_mem e))).symm
  · unfold Tree.len
    rw [inv.parKeys, inv'.parKeys, firstSeen_of_nodup H.single, firstSeen_of_nodup hs', List.length_map,
      List.length_map, H.perm.length_eq]
  · intro n
    rw [Bool.eq_iff_iff, (hq n .ROOT []).2.2.2.2.2, (hq' n .ROOT []).2.2.2.2.2]
    simp only [H.perm.mem_iff]
  · intro n
    exact (inv.children_perm n).trans (((H.perm.filter _).map _).trans (inv'.children_perm n).symm)
  · intro l hl n
    rw [inv.childrenVia, inv'.childrenVia, H.ranked l hl]
  · intro l hl n
    rw [(hq n l []).2.2.2.2.1, (hq' n l []).2.2.2.2.1, inv.childrenVia, inv'.childrenVia, H.ranked l hl]
  · intro l n
    refine ⟨_, _, (hq n l []).2.2.2.2.1, (hq' n l []).2.2.2.2.1, ?_⟩
    rw [List.head?_eq_none_iff, List.head?_eq_none_iff]
    have := hlab n l
    exact ⟨fun e => by rw [e] at this; exact this.nil_eq.symm, fun e => by rw [e] at this; exact this.eq_nil⟩
  · intro n l
    rw [Bool.eq_iff_iff, (hq n l []).2.2.1, (hq' n l []).2.2.1]
    simp only [(hlab n l).mem_iff]
  · intro n ls
    rw [Bool.eq_iff_iff, hasChildViaSet_iff hb, hasChildViaSet_iff hb']
    exact ⟨fun ⟨l, h1, c, h2⟩ => ⟨l, h1, c, (hlab n l).mem_iff.mp h2⟩,
      fun ⟨l, h1, c, h2⟩ => ⟨l, h1, c, (hlab n l).mem_iff.mpr h2⟩⟩

end

/-! ### Nodification -/

section
variable {t t' : Tree Dep Nat} {hist hist' : List Arc} {root : Nat}

theorem nodeArcs_labelled (inv : TreeInv root hist t) (dict : Dict Nat Ref) (r : Ref) (l : Dep) :
    labelled (nodeArcs t dict) r l =
      (dict.filter fun p => p.2 = r).flatMap fun p => (t.childrenVia p.1 l).filterMap dict.get? := by
  unfold nodeArcs
  generalize dict.get? = g
  induction dict with
  | nil => rfl
  | cons p d ih =>
    have happ : ∀ a b : List (Dep × Ref × Ref), labelled (a ++ b) r l = labelled a r l ++ labelled b r l := by
      intro a b; simp [labelled]
    rw [List.flatMap_cons, happ, ih, List.filter_cons]
    have : labelled ((t.children p.1).filterMap fun c => (g c.2).map fun r' => (c.1, p.2, r')) r l =
        if p.2 = r then (t.childrenVia p.1 l).filterMap g else [] := by
      rw [← inv.children_filter]
      generalize t.children p.1 = cs
      induction cs with
      | nil => simp [labelled]
      | cons c cs ih2 =>
        rw [List.filterMap_cons]
        cases hg : g c.2 with
        | none =>
          simp only [Option.map_none]
          rw [ih2]
          by_cases hr : p.2 = r
          · simp only [hr, if_true, List.filter_cons]
            by_cases hc : c.1 = l
            · simp [hc, hg]
            · simp [hc]
          · simp [hr]
        | some q =>
          simp only [Option.map_some]
          rw [show ∀ x (y : List (Dep × Ref × Ref)), x :: y = [x] ++ y from fun _ _ => rfl, happ, ih2]
          by_cases hr : p.2 = r
          · by_cases hc : c.1 = l
            · simp [labelled, hr, hc, hg]
            · simp [labelled, hc]
          · simp [labelled, hr]
    rw [this]
    by_cases hr : p.2 = r
    · simp [hr]
    · simp [hr]

theorem nodeArcs_single (inv : TreeInv root hist t) (hs : SingleHead hist) {dict : Dict Nat Ref} (hw : dict.Wf)
    (hv : dict.values.Nodup) : SingleHead (nodeArcs t dict) := by
  have hinj : ∀ k k' r, dict.get? k = some r → dict.get? k' = some r → k = k' := by
    intro k k' r h1 h2
    have := List.inj_on_of_nodup_map hv (Dict.mem_of_get? h1) (Dict.mem_of_get? h2) rfl
    exact congrArg Prod.fst this
  have e : (nodeArcs t dict).map (fun a => a.2.2) =
      dict.flatMap fun p => ((t.children p.1).map Prod.snd).filterMap dict.get? := by
    unfold nodeArcs
    rw [List.map_flatMap]
    apply List.flatMap_congr
    intro p _
    rw [List.map_filterMap, List.filterMap_map]
    congr 1
    funext c
    simp only [Function.comp, Option.map_map]
    cases dict.get? c.2 <;> rfl
  unfold SingleHead
  rw [e, List.nodup_flatMap]
  refine ⟨fun p _ => (inv.children_nodup hs p.1).filterMap (fun k k' r h1 h2 => hinj k k' r h1 h2), ?_⟩
  have hk : dict.Pairwise fun p q => p.1 ≠ q.1 := List.pairwise_map.mp hw
  refine hk.imp ?_
  intro p q hpq
  rw [Function.onFun, List.disjoint_left]
  intro r h1 h2
  obtain ⟨k, hk1, e1⟩ := List.mem_filterMap.mp h1
  obtain ⟨k', hk2, e2⟩ := List.mem_filterMap.mp h2
  have := hinj k k' r e1 e2
  subst this
  obtain ⟨⟨l, c⟩, hc1, rfl⟩ := List.mem_map.mp hk1
  obtain ⟨⟨l', c'⟩, hc2, hcc⟩ := List.mem_map.mp hk2
  simp only at hcc
  subst hcc
  have a1 := (inv.mem_children _ _ _).mp hc1
  have a2 := (inv.mem_children _ _ _).mp hc2
  have := List.inj_on_of_nodup_map hs a1 a2 rfl
  simp only [Prod.mk.injEq] at this
  exact hpq this.2.1

theorem nodeArcs_same (hb : buildTree root hist = .ok t) (hb' : buildTree root hist' = .ok t') (H : SameArcs hist hist')
    {dict : Dict Nat Ref} (hw : dict.Wf) (hv : dict.values.Nodup) : SameArcs (nodeArcs t dict) (nodeArcs t' dict) := by
  have S := sameTree_of hb hb' H
  refine ⟨?_, nodeArcs_single (buildTree_inv hb) H.single hw hv, ?_⟩
  · unfold nodeArcs
    apply List.Perm.flatMap_left
    intro p _
    exact (S.children p.1).filterMap _
  · intro l hl r
    rw [nodeArcs_labelled (buildTree_inv hb), nodeArcs_labelled (buildTree_inv hb')]
    apply List.flatMap_congr
    intro p _
    rw [S.via l hl]

theorem climb_same (S : SameTree t t') (l : Dep) : ∀ fuel n, t.climb l fuel n = t'.climb l fuel n
  | 0, _ => rfl
  | fuel + 1, n => by
    unfold Tree.climb
    rw [S.parent n]
    cases t'.parent n with
    | none => rfl
    | some q =>
      obtain ⟨a, p⟩ := q
      simp only [climb_same S l fuel p]

theorem flattenStep_same (S : SameTree t t') (lower : Str → Str) (tokens : List Str) (tags : List Tag) (s : Nodif)
    (tok : Str × Nat) : flattenStep lower tokens tags t s tok = flattenStep lower tokens tags t' s tok := by
  unfold flattenStep ancestorsOrRaise Tree.ancestorsVia
  simp only [S.nil_iff, S.parent, S.len, climb_same S]

/-- The black list is only ever asked for membership. -/
structure SameNodif (s s' : Nodif) : Prop where
  heap : s.heap = s'.heap
  dict : s.dict = s'.dict
  bl : ∀ i, i ∈ s.bl ↔ i ∈ s'.bl

/-- Both loops succeed in related states, or both raise the same error. -/
def SameRes (a b : Except PyErr Nodif) : Prop :=
  match a, b with
  | .ok s, .ok s' => SameNodif s s'
  | .error e, .error e' => e = e'
  | _, _ => False

theorem foldlM_sameRes {β : Type} (f f' : Nodif → β → Except PyErr Nodif)
    (hf : ∀ s s' b, SameNodif s s' → SameRes (f s b) (f' s' b)) : ∀ (l : List β) (s s' : Nodif), SameNodif s s' →
      SameRes (l.foldlM f s) (l.foldlM f' s')
  | [], s, s', h => h
  | b :: l, s, s', h => by
    rw [List.foldlM_cons, List.foldlM_cons]
    have := hf s s' b h
    cases e : f s b with
    | error x =>
      cases e' : f' s' b with
      | error y => rw [e, e'] at this; simpa [SameRes, bind, Except.bind] using this
      | ok y => rw [e, e'] at this; exact this.elim
    | ok x =>
      cases e' : f' s' b with
      | error y => rw [e, e'] at this; exact this.elim
      | ok y =>
        rw [e, e'] at this
        exact foldlM_sameRes f f' hf l x y this

theorem particleStep_same (S : SameTree t t') (lower : Str → Str) (tokens : List Str) (tags : List Tag) (s s' : Nodif)
    (tok : Str × Nat) (h : SameNodif s s') :
    SameRes (particleStep lower tokens tags t s tok) (particleStep lower tokens tags t' s' tok) := by
  unfold particleStep
  have hp : (((t.children tok.2).filter fun c => c.1 = .PART).map Prod.snd).Perm
      (((t'.children tok.2).filter fun c => c.1 = .PART).map Prod.snd) := ((S.children tok.2).filter _).map _
  revert hp
  generalize ((t.children tok.2).filter fun c => c.1 = .PART).map Prod.snd = ps
  generalize ((t'.children tok.2).filter fun c => c.1 = .PART).map Prod.snd = ps'
  intro hp
  simp only
  by_cases hn : ps = []
  · subst hn
    have := hp.nil_eq
    subst this
    simpa [SameRes] using h
  · have hn' : ps' ≠ [] := by rintro rfl; exact hn hp.eq_nil
    have hs : ps.insertionSort (· ≤ ·) = ps'.insertionSort (· ≤ ·) :=
      List.Perm.eq_of_pairwise (fun a b _ _ h1 h2 => Nat.le_antisymm h1 h2)
        (List.pairwise_insertionSort _ _) (List.pairwise_insertionSort _ _)
        ((List.perm_insertionSort _ _).trans (hp.trans (List.perm_insertionSort _ _).symm))
    simp only [hn, hn', if_false, hs, bind, Except.bind]
    cases index tags (tok.2 : Int) with
    | error e => simp [SameRes]
    | ok tag =>
      simp only
      cases (ps'.insertionSort (· ≤ ·)).foldlM (addParticle lower tokens tok.2) (Node.new lower tok.2 tok.1 tag) with
      | error e => simp [SameRes]
      | ok n =>
        simp only [SameRes, pure, Except.pure]
        refine ⟨?_, ?_, ?_⟩
        · simp only [Nodif.put, h.heap]
        · simp only [Nodif.put, h.heap, h.dict]
        · intro i
          simp only [List.mem_append, h.bl i, hp.mem_iff]

theorem remainingStep_same (lower : Str → Str) (tags : List Tag) (s s' : Nodif) (tok : Str × Nat) (h : SameNodif s s') :
    SameRes (remainingStep lower tags s tok) (remainingStep lower tags s' tok) := by
  unfold remainingStep
  simp only [h.dict, h.bl]
  by_cases hc : s'.dict.has tok.2 = false ∧ tok.2 ∉ s'.bl
  · simp only [hc, and_self, not_false_eq_true, if_true, bind, Except.bind]
    cases index tags (tok.2 : Int) with
    | error e => simp [SameRes]
    | ok tag =>
      simp only [SameRes, pure, Except.pure]
      exact ⟨by simp only [Nodif.put, h.heap], by simp only [Nodif.put, h.heap, h.dict], by simpa [Nodif.put] using h.bl⟩
  · simp only [hc, if_false]
    exact h

/-- The entries of the working dictionary are distinct objects under distinct keys. -/
structure DictOk (s : Nodif) : Prop where
  wf : s.dict.Wf
  vals : s.dict.values.Nodup
  fresh : ∀ r ∈ s.dict.values, r < s.heap.next

theorem DictOk.put {s : Nodif} (h : DictOk s) (k : Nat) (n : Node) (bl : List Nat) :
    DictOk { s.put k n with bl := bl } := by
  have hv : s.heap.next ∉ s.dict.values := fun hm => Nat.lt_irrefl _ (h.fresh _ hm)
  obtain ⟨h1, h2⟩ := values_set_nodup s.dict k s.heap.next h.vals hv
  refine ⟨?_, h1, ?_⟩
  · exact h.wf.set _ _
  · intro r hr
    simp only [Nodif.put, Heap.alloc] at hr ⊢
    rcases h2 r hr with rfl | hr
    · exact Nat.lt_succ_self _
    · exact Nat.lt_succ_of_lt (h.fresh r hr)

theorem flattenStep_dictOk {lower : Str → Str} {tokens : List Str} {tags : List Tag} {s s' : Nodif} {tok : Str × Nat}
    (h : DictOk s) (e : flattenStep lower tokens tags t s tok = .ok s') : DictOk s' := by
  unfold flattenStep at e
  split at e
  · split at e
    · cases e; exact h
    · split at e
      · simp only [bind, Except.bind] at e
        split at e
        · cases e
        split at e
        · cases e
        split at e
        · cases e
        split at e
        · cases e
        cases e
        exact h.put _ _ _
      · cases e; exact h
  · cases e; exact h

theorem particleStep_dictOk {lower : Str → Str} {tokens : List Str} {tags : List Tag} {s s' : Nodif} {tok : Str × Nat}
    (h : DictOk s) (e : particleStep lower tokens tags t s tok = .ok s') : DictOk s' := by
  unfold particleStep at e
  simp only at e
  split at e
  · cases e; exact h
  · simp only [bind, Except.bind] at e
    split at e
    · cases e
    split at e
    · cases e
    cases e
    exact h.put _ _ _

theorem remainingStep_dictOk {lower : Str → Str} {tags : List Tag} {s s' : Nodif} {tok : Str × Nat}
    (h : DictOk s) (e : remainingStep lower tags s tok = .ok s') : DictOk s' := by
  unfold remainingStep at e
  split at e
  · simp only [bind, Except.bind] at e
    split at e
    · cases e
    cases e
    exact h.put _ _ _
  · cases e; exact h

theorem foldlM_holds {α β : Type} (P : β → Prop) (f : β → α → Except PyErr β)
    (hf : ∀ b a b', P b → f b a = .ok b' → P b') :
    ∀ (l : List α) (b b' : β), P b → l.foldlM f b = .ok b' → P b'
  | [], b, b', h, e => by
    simp only [List.foldlM_nil, pure, Except.pure, Except.ok.injEq] at e
    exact e ▸ h
  | a :: l, b, b', h, e => by
    rw [List.foldlM_cons] at e
    cases hb : f b a with
    | error x => rw [hb] at e; simp [bind, Except.bind] at e
    | ok b₁ =>
      rw [hb] at e
      exact foldlM_holds P f hf l b₁ b' (hf b a b₁ h hb) e

theorem buildTree_error {N : Type} [DecidableEq N] (root : N) (hist : List (Dep × N × N)) (e : PyErr)
    (h : buildTree root hist = .error e) : e = .assertion ∧ ∃ a ∈ hist, a.2.1 = a.2.2 := by
  refine ⟨?_, ?_⟩
  · unfold buildTree at h
    generalize ({ root := root } : Tree Dep N) = t at h
    induction hist generalizing t with
    | nil => cases h
    | cons a hist ih =>
      rw [List.foldlM_cons] at h
      cases hr : t.registerChild a.1 a.2.1 a.2.2 with
      | ok t' => rw [hr] at h; exact ih t' h
      | error x =>
        rw [hr] at h
        cases h
        unfold Tree.registerChild at hr
        split at hr
        · cases hr
        · cases hr; rfl
  · by_contra hc
    push Not at hc
    obtain ⟨t, ht⟩ := buildTree_total root hist hc
    rw [ht] at h
    cases h

/-- Results of nodification that no later step tells apart. -/
def SameNodes (a b : Except PyErr (Heap × Dict Nat Ref × Option (Tree Dep Ref))) : Prop :=
  (∃ h d nt nt', a = .ok (h, d, some nt) ∧ b = .ok (h, d, some nt') ∧ SameTree nt nt') ∨ ∃ e, a = .error e ∧ b = .error e

theorem sameTree_refl {N : Type} [DecidableEq N] {root : N} {hist : List (Dep × N × N)} {t : Tree Dep N}
    (hb : buildTree root hist = .ok t) (hs : SingleHead hist) : SameTree t t :=
  sameTree_of hb hb ⟨List.Perm.refl _, hs, fun _ _ _ => rfl⟩

theorem nodify_same (hb : buildTree root hist = .ok t) (hb' : buildTree root hist' = .ok t') (H : SameArcs hist hist')
    (lower : Str → Str) (tokens : List Str) (tags : List Tag) :
    SameNodes (nodify lower tokens tags (some t)) (nodify lower tokens tags (some t')) := by
  have S := sameTree_of hb hb' H
  unfold nodify
  simp only [S.len, S.root]
  by_cases hl : t'.len = 1
  · simp only [hl, if_true, bind, Except.bind]
    cases index tokens (t'.root : Int) with
    | error e => exact Or.inr ⟨e, rfl, rfl⟩
    | ok tok =>
      cases index tags (t'.root : Int) with
      | error e => exact Or.inr ⟨e, rfl, rfl⟩
      | ok tag =>
        refine Or.inl ⟨_, _, _, _, rfl, rfl, sameTree_refl (hist := []) rfl ?_⟩
        simp [SingleHead]
  · simp only [hl, if_false]
    have hnd : nodepIdxs tokens t = nodepIdxs tokens t' := by
      unfold nodepIdxs
      simp only [S.hasNode]
    rw [hnd]
    set s₀ : Nodif := { heap := Heap.empty, dict := [], bl := nodepIdxs tokens t' } with hs₀
    have ok₀ : DictOk s₀ := ⟨Dict.Wf.nil, by simp [hs₀, Dict.values], by simp [hs₀, Dict.values]⟩
    have hfl : flattenStep lower tokens tags t = flattenStep lower tokens tags t' := by
      funext s tok
      exact flattenStep_same S lower tokens tags s tok
    rw [hfl]
    cases e1 : tokens.zipIdx.foldlM (flattenStep lower tokens tags t') s₀ with
    | error e => exact Or.inr ⟨e, rfl, rfl⟩
    | ok s₁ =>
      have ok₁ : DictOk s₁ := foldlM_holds DictOk _ (fun s a s' h e => flattenStep_dictOk h e) _ _ _ ok₀ e1
      simp only [bind, Except.bind]
      have r2 := foldlM_sameRes (particleStep lower tokens tags t) (particleStep lower tokens tags t')
        (fun s s' b h => particleStep_same S lower tokens tags s s' b h) tokens.zipIdx s₁ s₁
        ⟨rfl, rfl, fun _ => Iff.rfl⟩
      cases e2 : tokens.zipIdx.foldlM (particleStep lower tokens tags t) s₁ with
      | error e =>
        cases e2' : tokens.zipIdx.foldlM (particleStep lower tokens tags t') s₁ with
        | error e' =>
          rw [e2, e2'] at r2
          simp only [SameRes] at r2
          subst r2
          exact Or.inr ⟨e, rfl, rfl⟩
        | ok s₂' => rw [e2, e2'] at r2; exact r2.elim
      | ok s₂ =>
        have ok₂ : DictOk s₂ := foldlM_holds DictOk _ (fun s a s' h e => particleStep_dictOk h e) _ _ _ ok₁ e2
        cases e2' : tokens.zipIdx.foldlM (particleStep lower tokens tags t') s₁ with
        | error e' => rw [e2, e2'] at r2; exact r2.elim
        | ok s₂' =>
          rw [e2, e2'] at r2
          simp only [SameRes] at r2
          have r3 := foldlM_sameRes (remainingStep lower tags) (remainingStep lower tags)
            (fun s s' b h => remainingStep_same lower tags s s' b h) tokens.zipIdx s₂ s₂' r2
          cases e3 : tokens.zipIdx.foldlM (remainingStep lower tags) s₂ with
          | error e =>
            cases e3' : tokens.zipIdx.foldlM (remainingStep lower tags) s₂' with
            | error e' =>
              rw [e3, e3'] at r3
              simp only [SameRes] at r3
              subst r3
              refine Or.inr ⟨e, ?_, ?_⟩ <;> simp only [e3, e3']
            | ok s₃' => rw [e3, e3'] at r3; exact r3.elim
          | ok s₃ =>
            have ok₃ : DictOk s₃ := foldlM_holds DictOk _ (fun s a s' h e => remainingStep_dictOk h e) _ _ _ ok₂ e3
            cases e3' : tokens.zipIdx.foldlM (remainingStep lower tags) s₂' with
            | error e' => rw [e3, e3'] at r3; exact r3.elim
            | ok s₃' =>
              rw [e3, e3'] at r3
              simp only [SameRes] at r3
              simp only [e3, e3', ← r3.dict, ← r3.heap]
              cases s₃.dict.get t'.root with
              | error e => exact Or.inr ⟨e, rfl, rfl⟩
              | ok r =>
                simp only
                have HA := nodeArcs_same hb hb' H ok₃.wf ok₃.vals
                cases e4 : buildTree r (nodeArcs t s₃.dict) with
                | error e =>
                  cases e4' : buildTree r (nodeArcs t' s₃.dict) with
                  | error e' =>
                    have := (buildTree_error _ _ _ e4).1
                    have := (buildTree_error _ _ _ e4').1
                    subst_vars
                    exact Or.inr ⟨_, rfl, rfl⟩
                  | ok nt' =>
                    obtain ⟨-, a, ha, hpc⟩ := buildTree_error _ _ _ e4
                    exact absurd hpc ((buildTree_inv e4').ne a (HA.perm.mem_iff.mp ha))
                | ok nt =>
                  cases e4' : buildTree r (nodeArcs t' s₃.dict) with
                  | error e' =>
                    obtain ⟨-, a, ha, hpc⟩ := buildTree_error _ _ _ e4'
                    exact absurd hpc ((buildTree_inv e4).ne a (HA.perm.mem_iff.mpr ha))
                  | ok nt' =>
                    have SN := sameTree_of e4 e4' HA
                    refine Or.inl ⟨_, _, nt, nt', rfl, ?_, SN⟩
                    simp only [SN.hasParentViaSet, pure, Except.pure]

end
end Model
