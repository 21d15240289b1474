import Verif.Model.Tree
import Verif.Spec.Tree
import Mathlib.Data.List.Perm.Subperm
import Mathlib.Data.List.Induction

/-! Characterisation of trees by their registration history, and termination of the recursive walks. -/

set_option linter.unusedSectionVars false

namespace Model
open Py Spec

variable {L N : Type} [DecidableEq L] [DecidableEq N]

/-- Nested lookup. -/
def look2 {κ₁ κ₂ ι : Type} [DecidableEq κ₁] [DecidableEq κ₂] (d : Dict κ₁ (Dict κ₂ (List ι))) (a : κ₁) (b : κ₂) :
    List ι :=
  match d.get? a with
  | some e => (e.get? b).getD []
  | none => []

theorem look2_append {κ₁ κ₂ ι : Type} [DecidableEq κ₁] [DecidableEq κ₂] (d : Dict κ₁ (Dict κ₂ (List ι)))
    (k₁ : κ₁) (k₂ : κ₂) (x : ι) (a : κ₁) (b : κ₂) :
    look2 (appendInDictDictList d k₁ k₂ x) a b = look2 d a b ++ if k₁ = a ∧ k₂ = b then [x] else [] := by
  unfold appendInDictDictList look2
  cases hd : d.get? k₁ with
  | none =>
    simp only [Dict.get?_set]
    by_cases h1 : k₁ = a
    · subst h1
      by_cases h2 : k₂ = b <;> simp [hd, Dict.get?, h2]
    · simp [h1]
  | some e =>
    simp only
    cases he : e.get? k₂ with
    | none =>
      simp only [Dict.get?_set]
      by_cases h1 : k₁ = a
      · subst h1
        by_cases h2 : k₂ = b
        · subst h2; simp [hd, he]
        · simp [hd, Dict.get?_set, h2]
      · simp [h1]
    | some l =>
      simp only [Dict.get?_set]
      by_cases h1 : k₁ = a
      · subst h1
        by_cases h2 : k₂ = b
        · subst h2; simp [hd, he]
        · simp [hd, Dict.get?_set, h2]
      · simp [h1]

theorem Tree.childrenVia_eq (t : Tree L N) (n : N) (l : L) : t.childrenVia n l = look2 t.children' n l := by
  unfold Tree.childrenVia look2
  cases t.children'.get? n with
  | none => rfl
  | some e => simp only; cases e.get? l <;> rfl

/-- Keys of the inner dictionary. -/
def innerKeys {κ₁ κ₂ ι : Type} [DecidableEq κ₁] (d : Dict κ₁ (Dict κ₂ (List ι))) (a : κ₁) : List κ₂ :=
  match d.get? a with
  | some e => e.keys
  | none => []

theorem innerKeys_append {κ₁ κ₂ ι : Type} [DecidableEq κ₁] [DecidableEq κ₂] (d : Dict κ₁ (Dict κ₂ (List ι)))
    (k₁ : κ₁) (k₂ : κ₂) (x : ι) (a : κ₁) :
    innerKeys (appendInDictDictList d k₁ k₂ x) a =
      if k₁ = a then (if k₂ ∈ innerKeys d a then innerKeys d a else innerKeys d a ++ [k₂]) else innerKeys d a := by
  unfold appendInDictDictList innerKeys
  cases hd : d.get? k₁ with
  | none =>
    simp only [Dict.get?_set]
    by_cases h1 : k₁ = a
    · subst h1; simp [hd, Dict.keys]
    · simp [h1]
  | some e =>
    simp only
    cases he : e.get? k₂ with
    | none =>
      simp only [Dict.get?_set]
      by_cases h1 : k₁ = a
      · subst h1
        simp [hd, Dict.keys_set]
      · simp [h1]
    | some l =>
      simp only [Dict.get?_set]
      by_cases h1 : k₁ = a
      · subst h1
        simp [hd, Dict.keys_set]
      · simp [h1]

/-- What is known of a tree built from a history. -/
structure TreeInv (root : N) (hist : List (L × N × N)) (t : Tree L N) : Prop where
  root_eq : t.root = root
  ne : ∀ a ∈ hist, a.2.1 ≠ a.2.2
  par : ∀ c, t.parents.get? c = lastParent hist c
  parKeys : t.parents.keys = firstSeen (hist.map fun a => a.2.2)
  chl : ∀ p l, look2 t.children' p l = labelled hist p l
  chlKeys : ∀ p, innerKeys t.children' p = labelsOf hist p
  wfPar : t.parents.Wf
  wfIn : ∀ p e, t.children'.get? p = some e → e.Wf

theorem firstSeen_snoc {α} [DecidableEq α] (l : List α) (x : α) :
    firstSeen (l ++ [x]) = if x ∈ firstSeen l then firstSeen l else firstSeen l ++ [x] := by
  simp only [firstSeen, List.foldl_append, List.foldl_cons, List.foldl_nil]
  rfl

theorem mem_firstSeen {α} [DecidableEq α] (l : List α) (x : α) : x ∈ firstSeen l ↔ x ∈ l := by
  induction l using List.reverseRecOn with
  | nil => simp [firstSeen]
  | append_singleton l a ih =>
    rw [firstSeen_snoc]
    by_cases h : a ∈ firstSeen l
    · simp only [h, if_true, ih, List.mem_append, List.mem_singleton]
      constructor
      · exact Or.inl
      · rintro (h' | rfl)
        · exact h'
        · exact ih.mp h
    · simp [h, ih]

theorem nodup_firstSeen {α} [DecidableEq α] (l : List α) : (firstSeen l).Nodup := by
  induction l using List.reverseRecOn with
  | nil => simp [firstSeen]
  | append_singleton l a ih =>
    rw [firstSeen_snoc]
    split
    · exact ih
    · rename_i h
      rw [List.nodup_append]
      refine ⟨ih, by simp, ?_⟩
      intro x hx y hy
      rw [List.mem_singleton.mp hy]
      exact fun e => h (e ▸ hx)

theorem firstSeen_of_nodup {α} [DecidableEq α] {l : List α} (h : l.Nodup) : firstSeen l = l := by
  induction l using List.reverseRecOn with
  | nil => simp [firstSeen]
  | append_singleton l a ih =>
    rw [List.nodup_append] at h
    rw [firstSeen_snoc, ih h.1]
    have : a ∉ l := fun ha => h.2.2 a ha a (by simp) rfl
    simp [this]

theorem TreeInv.nil (root : N) : TreeInv (L := L) root [] { root := root } where
  root_eq := rfl
  ne := by simp
  par := by simp [lastParent]
  parKeys := by simp [firstSeen]
  chl := by simp [look2, labelled]
  chlKeys := by simp [innerKeys, labelsOf, firstSeen]
  wfPar := Dict.Wf.nil
  wfIn := by simp

theorem TreeInv.register {root : N} {hist : List (L × N × N)} {t t' : Tree L N} {l : L} {p c : N}
    (h : TreeInv root hist t) (hr : t.registerChild l p c = .ok t') : TreeInv root (hist ++ [(l, p, c)]) t' := by
  unfold Tree.registerChild at hr
  split at hr
  · rename_i hpc
    cases hr
    refine ⟨h.root_eq, ?_, ?_, ?_, ?_, ?_, h.wfPar.set _ _, ?_⟩
    · intro a ha
      rcases List.mem_append.mp ha with ha | ha
      · exact h.ne a ha
      · rw [List.mem_singleton.mp ha]; exact hpc
    · intro x
      simp only [Dict.get?_set, lastParent, List.reverse_append, List.reverse_cons, List.reverse_nil, List.nil_append,
        List.cons_append, List.find?_cons]
      by_cases hx : c = x
      · simp [hx]
      · have := h.par x
        simp only [lastParent] at this
        simp [hx, this]
    · simp only [Dict.keys_set, List.map_append, List.map_cons, List.map_nil, firstSeen_snoc, h.parKeys]
    · intro a b
      rw [look2_append, h.chl]
      simp only [labelled, List.filter_append, List.map_append]
      by_cases h1 : l = b ∧ p = a
      · simp [h1]
      · have : ¬ (p = a ∧ l = b) := fun e => h1 ⟨e.2, e.1⟩
        simp [h1, this]
    · intro a
      rw [innerKeys_append, h.chlKeys]
      simp only [labelsOf, List.filter_append, List.map_append]
      by_cases h1 : p = a
      · simp only [h1, if_true, decide_true, List.filter_cons, List.filter_nil, List.map_cons, List.map_nil,
          firstSeen_snoc]
        rfl
      · simp [h1]
    · intro a e he
      simp only [appendInDictDictList] at he
      cases hd : t.children'.get? p with
      | none =>
        rw [hd] at he
        simp only [Dict.get?_set] at he
        split at he
        · cases he; simp [Dict.Wf, Dict.keys]
        · exact h.wfIn a e he
      | some e0 =>
        rw [hd] at he
        simp only at he
        cases hl : e0.get? l with
        | none =>
          rw [hl] at he
          simp only [Dict.get?_set] at he
          split at he
          · cases he; exact (h.wfIn p e0 hd).set _ _
          · exact h.wfIn a e he
        | some cs =>
          rw [hl] at he
          simp only [Dict.get?_set] at he
          split at he
          · cases he; exact (h.wfIn p e0 hd).set _ _
          · exact h.wfIn a e he
  · cases hr

theorem buildTree_append (root : N) (h₁ h₂ : List (L × N × N)) :
    buildTree root (h₁ ++ h₂) = (buildTree root h₁).bind fun t =>
      h₂.foldlM (fun t a => t.registerChild a.1 a.2.1 a.2.2) t := by
  simp only [buildTree, List.foldlM_append]
  rfl

theorem buildTree_inv {root : N} {hist : List (L × N × N)} {t : Tree L N} (h : buildTree root hist = .ok t) :
    TreeInv root hist t := by
  induction hist using List.reverseRecOn generalizing t with
  | nil => cases h; exact TreeInv.nil root
  | append_singleton hist a ih =>
    rw [buildTree_append] at h
    cases hb : buildTree root hist with
    | error e => rw [hb] at h; cases h
    | ok t0 =>
      rw [hb] at h
      simp only [Except.bind, List.foldlM_cons, List.foldlM_nil, bind, pure, Except.pure] at h
      cases hr : t0.registerChild a.1 a.2.1 a.2.2 with
      | error e => rw [hr] at h; cases h
      | ok t1 =>
        rw [hr] at h
        cases h
        exact (ih hb).register hr

theorem buildTree_total (root : N) (hist : List (L × N × N)) (hne : ∀ a ∈ hist, a.2.1 ≠ a.2.2) :
    ∃ t, buildTree root hist = .ok t := by
  induction hist using List.reverseRecOn with
  | nil => exact ⟨_, rfl⟩
  | append_singleton hist a ih =>
    obtain ⟨t, ht⟩ := ih (fun b hb => hne b (by simp [hb]))
    rw [buildTree_append, ht]
    have := hne a (by simp)
    exact ⟨_, by simp [Except.bind, Tree.registerChild, this, bind, pure, Except.pure]; rfl⟩

section
variable {root : N} {hist : List (L × N × N)} {t : Tree L N}

theorem TreeInv.childrenVia (h : TreeInv root hist t) (p : N) (l : L) : t.childrenVia p l = labelled hist p l := by
  rw [Tree.childrenVia_eq, h.chl]

theorem TreeInv.children (h : TreeInv root hist t) (p : N) :
    t.children p = (labelsOf hist p).flatMap fun l => (labelled hist p l).map fun c => (l, c) := by
  rw [← h.chlKeys]
  unfold Tree.children innerKeys
  cases hp : t.children'.get? p with
  | none => simp
  | some e =>
    simp only [Dict.keys, List.flatMap_map]
    apply List.flatMap_congr
    intro q hq
    obtain ⟨a, cs⟩ := q
    have : e.get? a = some cs := Dict.get?_of_mem (h.wfIn p e hp) hq
    have h2 := h.chl p a
    simp only [look2, hp, this, Option.getD_some] at h2
    simp [h2]

theorem mem_labelled {hist : List (L × N × N)} {p c : N} {l : L} : c ∈ labelled hist p l ↔ (l, p, c) ∈ hist := by
  simp only [labelled, List.mem_map, List.mem_filter, decide_eq_true_eq]
  constructor
  · rintro ⟨⟨a, b, d⟩, ⟨hm, h1, h2⟩, h3⟩
    simp only at h1 h2 h3
    subst h1; subst h2; subst h3
    exact hm
  · intro h
    exact ⟨_, ⟨h, rfl, rfl⟩, rfl⟩

theorem TreeInv.mem_children (h : TreeInv root hist t) (p c : N) (l : L) :
    (l, c) ∈ t.children p ↔ (l, p, c) ∈ hist := by
  rw [h.children]
  simp only [List.mem_flatMap, List.mem_map, Prod.mk.injEq, labelsOf, mem_firstSeen]
  constructor
  · rintro ⟨a, _, c', hc, rfl, rfl⟩
    exact mem_labelled.mp hc
  · intro hm
    refine ⟨l, ?_, c, mem_labelled.mpr hm, rfl, rfl⟩
    exact ⟨(l, p, c), List.mem_filter.mpr ⟨hm, by simp⟩, rfl⟩

theorem TreeInv.parent (h : TreeInv root hist t) (c : N) : t.parent c = lastParent hist c := h.par c

theorem lastParent_mem {c p : N} {l : L} (h : lastParent hist c = some (l, p)) : (l, p, c) ∈ hist := by
  simp only [lastParent, Option.map_eq_some_iff] at h
  obtain ⟨⟨a, b, d⟩, hf, he⟩ := h
  have h1 := List.mem_of_find?_eq_some hf
  have h2 := List.find?_some hf
  simp only [decide_eq_true_eq, Prod.mk.injEq] at h2 he
  rw [← he.1, ← he.2, ← h2]
  exact List.mem_reverse.mp h1

theorem lastParent_eq_none {c : N} : lastParent hist c = none ↔ ∀ a ∈ hist, a.2.2 ≠ c := by
  simp [lastParent]

theorem lastParent_of_single (hs : SingleHead hist) {c p : N} {l : L} (h : (l, p, c) ∈ hist) :
    lastParent hist c = some (l, p) := by
  cases hp : lastParent hist c with
  | none => exact absurd rfl (lastParent_eq_none.mp hp _ h)
  | some q =>
    obtain ⟨l', p'⟩ := q
    have hm := lastParent_mem hp
    have := List.inj_on_of_nodup_map hs h hm rfl
    cases this
    rfl

end

theorem register_inner_ne_nil {t t' : Tree L N} {l : L} {p c : N} (hr : t.registerChild l p c = .ok t')
    (h : ∀ n, (t.children'.get? n).isSome → innerKeys t.children' n ≠ []) :
    ∀ n, (t'.children'.get? n).isSome → innerKeys t'.children' n ≠ [] := by
  unfold Tree.registerChild at hr
  split at hr
  · cases hr
    intro n hn
    simp only at hn ⊢
    rw [innerKeys_append]
    by_cases hp : p = n
    · simp only [hp, if_true]
      split
      · rename_i hm
        exact List.ne_nil_of_mem hm
      · simp
    · simp only [hp, if_false]
      apply h n
      unfold appendInDictDictList at hn
      cases hd : t.children'.get? p with
      | none => rw [hd] at hn; simpa [Dict.get?_set, hp] using hn
      | some e =>
        rw [hd] at hn
        simp only at hn
        cases hl : e.get? l with
        | none => rw [hl] at hn; simpa [Dict.get?_set, hp] using hn
        | some cs => rw [hl] at hn; simpa [Dict.get?_set, hp] using hn
  · cases hr

/-- The inner dictionary of a registered parent is never empty. -/
theorem tree_inner_ne_nil {root : N} {hist : List (L × N × N)} {t : Tree L N} (h : buildTree root hist = .ok t) :
    ∀ n, (t.children'.get? n).isSome → innerKeys t.children' n ≠ [] := by
  induction hist using List.reverseRecOn generalizing t with
  | nil => cases h; simp
  | append_singleton hist a ih =>
    rw [buildTree_append] at h
    cases hb : buildTree root hist with
    | error e => rw [hb] at h; cases h
    | ok t0 =>
      rw [hb] at h
      simp only [Except.bind, List.foldlM_cons, List.foldlM_nil, bind, pure, Except.pure] at h
      cases hr : t0.registerChild a.1 a.2.1 a.2.2 with
      | error e => rw [hr] at h; cases h
      | ok t1 =>
        rw [hr] at h
        cases h
        exact register_inner_ne_nil hr (ih hb)

/-! ### Walks -/

/-- A chain that stays inside `keys` without cycles is no longer than `keys`. -/
theorem climb_isSome (t : Tree L N) (label : L)
    (hac : Acyclic fun a b => ∃ l, t.parent a = some (l, b)) :
    ∀ (fuel : Nat) (n : N) (visited : List N), visited.Nodup → (∀ v ∈ visited, v ∈ t.parents.keys) →
      (∀ v ∈ visited, Relation.TransGen (fun a b => ∃ l, t.parent a = some (l, b)) v n) →
      t.parents.keys.length < fuel + visited.length → (t.climb label fuel n).isSome
  | 0, n, visited, hnd, hk, hr, hlen => by
    have := (List.subperm_of_subset hnd hk).length_le
    omega
  | fuel + 1, n, visited, hnd, hk, hr, hlen => by
    unfold Tree.climb
    cases hp : t.parent n with
    | none => simp
    | some q =>
      obtain ⟨l, p⟩ := q
      simp only
      split
      · rw [Option.isSome_map]
        have hn : n ∉ visited := fun h => hac n (hr n h)
        apply climb_isSome t label hac fuel p (n :: visited)
        · exact List.nodup_cons.mpr ⟨hn, hnd⟩
        · intro v hv
          rcases List.mem_cons.mp hv with rfl | hv
          · rw [← Dict.get?_isSome_iff]
            have : t.parents.get? v = some (l, p) := hp
            simp [this]
          · exact hk v hv
        · intro v hv
          rcases List.mem_cons.mp hv with rfl | hv
          · exact Relation.TransGen.single ⟨l, hp⟩
          · exact (hr v hv).tail ⟨l, hp⟩
        · simp only [List.length_cons]; omega
      · simp

theorem climb_upChain (t : Tree L N) (label : L) :
    ∀ (fuel : Nat) (n : N) (path : List N), t.climb label fuel n = some path → UpChain t.parent label n path
  | 0, _, _, h => by simp [Tree.climb] at h
  | fuel + 1, n, path, h => by
    unfold Tree.climb at h
    cases hp : t.parent n with
    | none =>
      rw [hp] at h
      cases h
      exact UpChain.stop (by simp [hp])
    | some q =>
      obtain ⟨l, p⟩ := q
      rw [hp] at h
      simp only at h
      split at h
      · rename_i hl
        subst hl
        rw [Option.map_eq_some_iff] at h
        obtain ⟨ps, hps, rfl⟩ := h
        exact UpChain.step hp (climb_upChain t l fuel p ps hps)
      · rename_i hl
        cases h
        refine UpChain.stop ?_
        intro p' hp'
        rw [hp] at hp'
        cases hp'
        exact hl rfl

theorem upChain_unique {parent : N → Option (L × N)} {label : L} {n : N} {p q : List N}
    (hp : UpChain parent label n p) (hq : UpChain parent label n q) : p = q := by
  induction hp generalizing q with
  | stop h =>
    cases hq with
    | stop _ => rfl
    | step h' _ => exact absurd h' (h _)
  | step h _ ih =>
    cases hq with
    | stop h' => exact absurd h (h' _)
    | step h' hq' =>
      rw [h] at h'
      cases h'
      rw [ih hq']

theorem climb_none_of_cycle (t : Tree L N) (label : L) :
    ∀ (fuel : Nat) (n : N), Relation.TransGen (fun a b => t.parent a = some (label, b)) n n →
      t.climb label fuel n = none
  | 0, _, _ => rfl
  | fuel + 1, n, h => by
    obtain ⟨p, hp, hrest⟩ : ∃ p, t.parent n = some (label, p) ∧
        Relation.ReflTransGen (fun a b => t.parent a = some (label, b)) p n := by
      exact Relation.TransGen.head'_iff.mp h
    have hcycle : Relation.TransGen (fun a b => t.parent a = some (label, b)) p p :=
      Relation.TransGen.tail' hrest hp
    unfold Tree.climb
    rw [hp]
    simp only [if_true]
    rw [climb_none_of_cycle t label fuel p hcycle]
    rfl

theorem climb_none_of_reach (t : Tree L N) (label : L) {m : N}
    (hc : Relation.TransGen (fun a b => t.parent a = some (label, b)) m m) :
    ∀ (fuel : Nat) (n : N), Relation.ReflTransGen (fun a b => t.parent a = some (label, b)) n m →
      t.climb label fuel n = none
  | 0, _, _ => rfl
  | fuel + 1, n, h => by
    rcases Relation.ReflTransGen.cases_head h with rfl | ⟨p, hp, hrest⟩
    · exact climb_none_of_cycle t label _ _ hc
    · unfold Tree.climb
      rw [hp]
      simp only [if_true]
      rw [climb_none_of_reach t label hc fuel p hrest]
      rfl

theorem mem_children'_keys_of_via {t : Tree L N} {n c : N} {l : L} (h : c ∈ t.childrenVia n l) :
    n ∈ t.children'.keys := by
  rw [← Dict.get?_isSome_iff]
  unfold Tree.childrenVia at h
  cases hn : t.children'.get? n with
  | none => rw [hn] at h; simp at h
  | some e => rfl

theorem foldlM_option_isSome {γ δ : Type} (f : γ → δ → Option γ) (l : List δ) (h : ∀ acc, ∀ d ∈ l, (f acc d).isSome) :
    ∀ acc, (l.foldlM f acc).isSome := by
  induction l with
  | nil => intro acc; simp
  | cons d l ih =>
    intro acc
    have := h acc d (by simp)
    obtain ⟨acc', ha⟩ := Option.isSome_iff_exists.mp this
    simp only [List.foldlM_cons, ha, bind, Option.bind]
    exact ih (fun acc d hd => h acc d (by simp [hd])) acc'

theorem descend_isSome (t : Tree L N) (label : L) (hac : Acyclic fun a b => b ∈ t.childrenVia a label) :
    ∀ (fuel : Nat) (n : N) (visited : List N), visited.Nodup → (∀ v ∈ visited, v ∈ t.children'.keys) →
      (∀ v ∈ visited, Relation.TransGen (fun a b => b ∈ t.childrenVia a label) v n) →
      t.children'.keys.length < fuel + visited.length → (t.descend label fuel n).isSome
  | 0, n, visited, hnd, hk, hr, hlen => by
    have := (List.subperm_of_subset hnd hk).length_le
    omega
  | fuel + 1, n, visited, hnd, hk, hr, hlen => by
    unfold Tree.descend
    apply foldlM_option_isSome
    intro acc c hc
    rw [Option.isSome_map]
    have hn : n ∉ visited := fun h => hac n (hr n h)
    apply descend_isSome t label hac fuel c (n :: visited)
    · exact List.nodup_cons.mpr ⟨hn, hnd⟩
    · intro v hv
      rcases List.mem_cons.mp hv with rfl | hv
      · exact mem_children'_keys_of_via hc
      · exact hk v hv
    · intro v hv
      rcases List.mem_cons.mp hv with rfl | hv
      · exact Relation.TransGen.single hc
      · exact (hr v hv).tail hc
    · simp only [List.length_cons]; omega

/-- The successful fold is a `flatMap`. -/
theorem foldlM_descend {γ : Type} (g : γ → Option (List γ)) (l : List γ) :
    ∀ (acc out : List γ), l.foldlM (fun acc c => (g c).map fun r => acc ++ c :: r) acc = some out →
      (∀ c ∈ l, (g c).isSome) ∧ out = acc ++ l.flatMap fun c => c :: (g c).getD [] := by
  induction l with
  | nil => intro acc out h; cases h; simp
  | cons c l ih =>
    intro acc out h
    simp only [List.foldlM_cons, bind, Option.bind] at h
    cases hg : g c with
    | none => rw [hg] at h; simp at h
    | some r =>
      rw [hg] at h
      simp only [Option.map_some] at h
      obtain ⟨h1, h2⟩ := ih _ _ h
      refine ⟨?_, ?_⟩
      · intro d hd
        rcases List.mem_cons.mp hd with rfl | hd
        · simp [hg]
        · exact h1 d hd
      · rw [h2]; simp [hg]

theorem mem_descend (t : Tree L N) (label : L) :
    ∀ (fuel : Nat) (n : N) (out : List N), t.descend label fuel n = some out → ∀ x,
      x ∈ out ↔ Relation.TransGen (fun a b => b ∈ t.childrenVia a label) n x
  | 0, _, _, h => by simp [Tree.descend] at h
  | fuel + 1, n, out, h => by
    intro x
    unfold Tree.descend at h
    obtain ⟨h1, h2⟩ := foldlM_descend (t.descend label fuel) _ _ _ h
    simp only [List.nil_append] at h2
    rw [h2, List.mem_flatMap]
    constructor
    · rintro ⟨c, hc, hx⟩
      obtain ⟨r, hr⟩ := Option.isSome_iff_exists.mp (h1 c hc)
      rw [hr] at hx
      rcases List.mem_cons.mp hx with rfl | hx
      · exact Relation.TransGen.single hc
      · exact Relation.TransGen.head hc ((mem_descend t label fuel c r hr x).mp hx)
    · intro hx
      obtain ⟨c, hc, hx⟩ := Relation.TransGen.head'_iff.mp hx
      rcases Relation.reflTransGen_iff_eq_or_transGen.mp hx with rfl | hx
      · exact ⟨x, hc, by simp⟩
      · obtain ⟨r, hr⟩ := Option.isSome_iff_exists.mp (h1 c hc)
        refine ⟨c, hc, ?_⟩
        rw [hr]
        exact List.mem_cons_of_mem _ ((mem_descend t label fuel c r hr x).mpr hx)

/-- The yes/no queries of a built tree. -/
theorem tree_queries (root : N) (hist : List (L × N × N)) (t : Tree L N) (h : buildTree root hist = .ok t)
    (n : N) (l : L) (ls : List L) :
    (t.hasParentVia n l = true ↔ ∃ p, t.parent n = some (l, p)) ∧
    (t.hasParentViaSet n ls = true ↔ ∃ l' ∈ ls, ∃ p, t.parent n = some (l', p)) ∧
    (t.hasChildVia n l = true ↔ ∃ c, c ∈ t.childrenVia n l) ∧
    (t.hasChildViaSet n ls = true ↔ ∃ l' ∈ ls, ∃ c, c ∈ t.childrenVia n l') ∧
    (t.childVia n l = .ok (t.childrenVia n l).head?) ∧
    (t.hasNode n = true ↔ ∃ a ∈ hist, a.2.1 = n ∨ a.2.2 = n) := by
  have inv := buildTree_inv h
  have hk : ∀ l', l' ∈ innerKeys t.children' n ↔ ∃ c, c ∈ t.childrenVia n l' := by
    intro l'
    rw [inv.chlKeys, inv.childrenVia]
    simp only [labelsOf, mem_firstSeen, mem_labelled, List.mem_map, List.mem_filter, decide_eq_true_eq]
    constructor
    · rintro ⟨⟨a, b, c⟩, ⟨hm, h1⟩, h2⟩
      simp only at h1 h2
      subst h1; subst h2
      exact ⟨c, hm⟩
    · rintro ⟨c, hc⟩
      exact ⟨_, ⟨hc, rfl⟩, rfl⟩
  refine ⟨?_, ?_, ?_, ?_, ?_, ?_⟩
  · unfold Tree.hasParentVia Tree.parent
    cases t.parents.get? n with
    | none => simp
    | some q =>
      obtain ⟨a, b⟩ := q
      simp
  · unfold Tree.hasParentViaSet Tree.parent
    cases t.parents.get? n with
    | none => simp
    | some q =>
      obtain ⟨a, b⟩ := q
      simp
  · rw [← hk]
    unfold Tree.hasChildVia innerKeys
    cases t.children'.get? n with
    | none => simp
    | some e => simp [Dict.has_iff]
  · simp only [← hk]
    unfold Tree.hasChildViaSet innerKeys
    cases t.children'.get? n with
    | none => simp
    | some e => simp [and_comm]
  · have hk' := hk l
    unfold Tree.childVia
    unfold Tree.childrenVia at hk' ⊢
    unfold innerKeys at hk'
    cases hn : t.children'.get? n with
    | none => simp
    | some e =>
      rw [hn] at hk'
      simp only at hk' ⊢
      cases hl : e.get? l with
      | none => simp
      | some cs =>
        rw [hl] at hk'
        simp only at hk'
        have : l ∈ e.keys := by rw [← Dict.get?_isSome_iff, hl]; rfl
        cases cs with
        | nil => simp [this] at hk'
        | cons c cs => simp
  · unfold Tree.hasNode
    rw [Bool.or_eq_true, Dict.has_iff, Dict.has_iff, inv.parKeys, mem_firstSeen]
    have hc : n ∈ t.children'.keys ↔ ∃ a ∈ hist, a.2.1 = n := by
      rw [← Dict.get?_isSome_iff]
      constructor
      · intro hs
        by_contra hcon
        push Not at hcon
        have hnone : labelsOf hist n = [] := by
          have : (hist.filter fun a => a.2.1 = n) = [] := by
            rw [List.filter_eq_nil_iff]
            intro a ha
            simp [hcon a ha]
          simp [labelsOf, this, firstSeen]
        -- the inner dictionary of a present key is never empty
        exact (tree_inner_ne_nil h n hs) (by rw [inv.chlKeys, hnone])
      · rintro ⟨⟨a, b, c⟩, hm, hb⟩
        simp only at hb
        subst hb
        have : c ∈ t.childrenVia b a := by rw [inv.childrenVia, mem_labelled]; exact hm
        exact (Dict.get?_isSome_iff _ _).mpr (mem_children'_keys_of_via this)
    rw [hc]
    simp only [List.mem_map]
    constructor
    · rintro (⟨a, ha, h1⟩ | ⟨a, ha, h1⟩)
      · exact ⟨a, ha, Or.inl h1⟩
      · exact ⟨a, ha, Or.inr h1⟩
    · rintro ⟨a, ha, h1 | h1⟩
      · exact Or.inl ⟨a, ha, h1⟩
      · exact Or.inr ⟨a, ha, h1⟩

theorem hasChildViaSet_iff {root : N} {hist : List (L × N × N)} {t : Tree L N} (h : buildTree root hist = .ok t)
    (n : N) (ls : List L) : t.hasChildViaSet n ls = true ↔ ∃ l' ∈ ls, ∃ c, c ∈ t.childrenVia n l' := by
  cases ls with
  | nil =>
    simp only [List.not_mem_nil, false_and, exists_false, iff_false]
    unfold Tree.hasChildViaSet
    split <;> simp
  | cons l ls => exact (tree_queries root hist t h n l (l :: ls)).2.2.2.1

end Model
