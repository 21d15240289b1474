import Verif.Lemmas.SameTree
import Verif.Lemmas.Chunking
import Verif.Spec.FunctionWords

/-! Trees that differ in the quiet labels of function words. -/

namespace Model
open Py Spec

section
variable {N : Type} [DecidableEq N]

/-- Equal, or the same head under two quiet labels. -/
def AkinHead (a b : Option (Dep × N)) : Prop :=
  a = b ∨ ∃ l l' p, a = some (l, p) ∧ b = some (l', p) ∧ l ∈ quietDeps ∧ l' ∈ quietDeps

/-- Lists of arcs that no step tells apart, polarity aside. -/
structure AkinArcs (hist hist' : List (Dep × N × N)) : Prop where
  ends : (hist.map Prod.snd).Perm (hist'.map Prod.snd)
  via : ∀ l, l ∉ quietDeps → ∀ p, labelled hist p l = labelled hist' p l
  par : ∀ n, AkinHead (lastParent hist n) (lastParent hist' n)

theorem lastParent_append (a b : List (Dep × N × N)) (n : N) :
    lastParent (a ++ b) n = (lastParent b n).or (lastParent a n) := by
  unfold lastParent
  rw [List.reverse_append, List.find?_append]
  cases List.find? (fun a => decide (a.2.2 = n)) b.reverse <;> simp

theorem AkinHead.or {a b a' b' : Option (Dep × N)} (h : AkinHead a a') (h' : AkinHead b b') :
    AkinHead (a.or b) (a'.or b') := by
  rcases h with rfl | ⟨l, l', p, rfl, rfl, h1, h2⟩
  · cases a with
    | none => simpa using h'
    | some x => exact .inl rfl
  · exact .inr ⟨l, l', p, rfl, rfl, h1, h2⟩

theorem akinArcs_of {hist hist' : List (Dep × N × N)} (H : List.Forall₂ Akin hist hist') : AkinArcs hist hist' := by
  refine ⟨?_, ?_, ?_⟩
  · have : hist.map Prod.snd = hist'.map Prod.snd := by
      induction H with
      | nil => rfl
      | cons h _ ih => rw [List.map_cons, List.map_cons, ih, h.1]
    rw [this]
  · intro l hl p
    induction H with
    | nil => rfl
    | @cons a a' as as' h _ ih =>
      unfold labelled at ih ⊢
      obtain ⟨h1, h2⟩ := h
      have hc : (a.1 = l ∧ a.2.1 = p) ↔ (a'.1 = l ∧ a'.2.1 = p) := by
        rw [h1]
        rcases h2 with h2 | ⟨h2, h3⟩
        · rw [h2]
        · constructor <;> rintro ⟨rfl, -⟩ <;> contradiction
      simp only [List.filter_cons, hc]
      split
      · rw [List.map_cons, List.map_cons, ih, h1]
      · exact ih
  · intro n
    induction H with
    | nil => exact .inl rfl
    | @cons a a' as as' h _ ih =>
      rw [show ∀ (x : Dep × N × N) y, x :: y = [x] ++ y from fun _ _ => rfl, lastParent_append,
        show a' :: as' = [a'] ++ as' from rfl, lastParent_append]
      refine ih.or ?_
      obtain ⟨l, p, c⟩ := a
      obtain ⟨l', p', c'⟩ := a'
      obtain ⟨h1, h2⟩ := h
      cases h1
      simp only at h2
      by_cases hc : c = n
      · rcases h2 with rfl | ⟨h2, h3⟩
        · exact .inl rfl
        · exact .inr ⟨l, l', p, by simp [lastParent, hc], by simp [lastParent, hc], h2, h3⟩
      · exact .inl (by simp [lastParent, hc])

/-- Two trees that no step tells apart, polarity aside. -/
structure AkinTree (t t' : Tree Dep N) : Prop where
  root : t.root = t'.root
  par : ∀ n, AkinHead (t.parent n) (t'.parent n)
  len : t.len = t'.len
  hasNode : ∀ n, t.hasNode n = t'.hasNode n
  ends : ∀ n, ((t.children n).map Prod.snd).Perm ((t'.children n).map Prod.snd)
  via : ∀ l, l ∉ quietDeps → ∀ n, t.childrenVia n l = t'.childrenVia n l
  labels : ∀ l, l ∉ quietDeps → ∀ n, ((t.children n).filter fun c => c.1 = l).map Prod.snd =
    ((t'.children n).filter fun c => c.1 = l).map Prod.snd
  hasChildVia : ∀ l, l ∉ quietDeps → ∀ n, t.hasChildVia n l = t'.hasChildVia n l
  markers : ∀ n, t.hasChildViaSet n markerDeps = t'.hasChildViaSet n markerDeps

theorem firstSeen_length {l l' : List N} (h : l.Perm l') : (firstSeen l).length = (firstSeen l').length := by
  apply List.Perm.length_eq
  rw [List.perm_ext_iff_of_nodup (nodup_firstSeen _) (nodup_firstSeen _)]
  intro a
  rw [mem_firstSeen, mem_firstSeen, h.mem_iff]

variable {hist hist' : List (Dep × N × N)} {root : N} {t t' : Tree Dep N}

theorem AkinTree.nil_iff (h : AkinTree t t') (n : N) : (t.children n = []) = (t'.children n = []) := by
  have := (h.ends n).length_eq
  simp only [List.length_map] at this
  rw [← List.length_eq_zero_iff, ← List.length_eq_zero_iff, this]

theorem akinTree_of (hb : buildTree root hist = .ok t) (hb' : buildTree root hist' = .ok t') (H : AkinArcs hist hist') :
    AkinTree t t' := by
  have inv := buildTree_inv hb
  have inv' := buildTree_inv hb'
  have hvia : ∀ l, l ∉ quietDeps → ∀ n, t.childrenVia n l = t'.childrenVia n l := by
    intro l hl n
    rw [inv.childrenVia, inv'.childrenVia, H.via l hl]
  have hq := fun n l ls => tree_queries root hist t hb n l ls
  have hq' := fun n l ls => tree_queries root hist' t' hb' n l ls
  refine ⟨?_, ?_, ?_, ?_, ?_, hvia, ?_, ?_, ?_⟩
  · rw [inv.root_eq, inv'.root_eq]
  · intro n
    rw [inv.parent, inv'.parent]
    exact H.par n
  · unfold Tree.len
    rw [inv.parKeys, inv'.parKeys]
    have e : ∀ l : List (Dep × N × N), l.map (fun a => a.2.2) = (l.map Prod.snd).map Prod.snd := by simp
    rw [e, e, firstSeen_length (H.ends.map _)]
  · intro n
    rw [Bool.eq_iff_iff, (hq n .ROOT []).2.2.2.2.2, (hq' n .ROOT []).2.2.2.2.2]
    have e : ∀ l : List (Dep × N × N), (∃ a ∈ l, a.2.1 = n ∨ a.2.2 = n) ↔ ∃ b ∈ l.map Prod.snd, b.1 = n ∨ b.2 = n := by
      intro l
      simp only [List.mem_map]
      exact ⟨fun ⟨a, h1, h2⟩ => ⟨a.2, ⟨a, h1, rfl⟩, h2⟩, fun ⟨_, ⟨a, h1, e⟩, h2⟩ => ⟨a, h1, by rw [e]; exact h2⟩⟩
    rw [e, e]
    simp only [H.ends.mem_iff]
  · intro n
    have e : ∀ l : List (Dep × N × N), ((l.filter fun a => a.2.1 = n).map fun a => (a.1, a.2.2)).map Prod.snd =
        ((l.map Prod.snd).filter fun b => b.1 = n).map Prod.snd := by
      intro l
      rw [List.filter_map, List.map_map, List.map_map]
      rfl
    have h1 := (inv.children_perm n).map Prod.snd
    have h2 := (inv'.children_perm n).map Prod.snd
    rw [e] at h1 h2
    exact h1.trans (((H.ends.filter _).map _).trans h2.symm)
  · intro l hl n
    rw [inv.children_filter, inv'.children_filter, hvia l hl]
  · intro l hl n
    rw [Bool.eq_iff_iff, (hq n l []).2.2.1, (hq' n l []).2.2.1, hvia l hl]
  · intro n
    rw [Bool.eq_iff_iff, hasChildViaSet_iff hb, hasChildViaSet_iff hb']
    have : ∀ l ∈ markerDeps, l ∉ quietDeps := by decide
    constructor <;> rintro ⟨l, h1, h2⟩ <;> refine ⟨l, h1, ?_⟩
    · rwa [← hvia l (this l h1)]
    · rwa [hvia l (this l h1)]

end

/-! ### Nodification -/

section
variable {t t' : Tree Dep Nat} {hist hist' : List Arc} {root : Nat}

theorem lastParent_flatMap {α N : Type} [DecidableEq N] {f f' : α → List (Dep × N × N)} {n : N} : ∀ {l : List α},
    (∀ x ∈ l, AkinHead (lastParent (f x) n) (lastParent (f' x) n)) →
    AkinHead (lastParent (l.flatMap f) n) (lastParent (l.flatMap f') n)
  | [], _ => .inl rfl
  | x :: l, h => by
    rw [List.flatMap_cons, List.flatMap_cons, lastParent_append, lastParent_append]
    exact (lastParent_flatMap fun y hy => h y (by simp [hy])).or (h x (by simp))

theorem nodeArcs_akin (hb : buildTree root hist = .ok t) (hb' : buildTree root hist' = .ok t') (H : AkinArcs hist hist')
    (o : OneLabel hist) (o' : OneLabel hist')
    {dict : Dict Nat Ref} (hw : dict.Wf) (hv : dict.values.Nodup) : AkinArcs (nodeArcs t dict) (nodeArcs t' dict) := by
  have S := akinTree_of hb hb' H
  have inv := buildTree_inv hb
  have inv' := buildTree_inv hb'
  have hinj : ∀ k k' r, dict.get? k = some r → dict.get? k' = some r → k = k' := by
    intro k k' r h1 h2
    have := List.inj_on_of_nodup_map hv (Dict.mem_of_get? h1) (Dict.mem_of_get? h2) rfl
    exact congrArg Prod.fst this
  refine ⟨?_, ?_, ?_⟩
  · have e : ∀ t : Tree Dep Nat, (nodeArcs t dict).map Prod.snd =
        dict.flatMap fun p => ((t.children p.1).map Prod.snd).filterMap fun k => (dict.get? k).map fun r => (p.2, r) := by
      intro t
      unfold nodeArcs
      rw [List.map_flatMap]
      apply List.flatMap_congr
      intro p _
      rw [List.map_filterMap, List.filterMap_map]
      congr 1
      funext c
      simp only [Function.comp, Option.map_map]
      cases dict.get? c.2 <;> rfl
    rw [e, e]
    apply List.Perm.flatMap_left
    intro p _
    exact (S.ends p.1).filterMap _
  · intro l hl r
    rw [nodeArcs_labelled inv, nodeArcs_labelled inv']
    apply List.flatMap_congr
    intro p _
    rw [S.via l hl]
  · intro r
    unfold nodeArcs
    apply lastParent_flatMap
    rintro ⟨k, q⟩ -
    have hm : ∀ (t : Tree Dep Nat) l p, (l, p, r) ∈ ((t.children k).filterMap fun c =>
        (dict.get? c.2).map fun r' => (c.1, q, r')) ↔ p = q ∧ ∃ k', dict.get? k' = some r ∧ (l, k') ∈ t.children k := by
      intro t l p
      simp only [List.mem_filterMap, Option.map_eq_some_iff, Prod.mk.injEq, Prod.exists]
      constructor
      · rintro ⟨l', k', h1, r', h2, rfl, rfl, rfl⟩
        exact ⟨rfl, k', h2, h1⟩
      · rintro ⟨rfl, k', h1, h2⟩
        exact ⟨l, k', h2, r, h1, rfl, rfl, rfl⟩
    have hiff : ∀ k', (∃ l, (l, k') ∈ t.children k) ↔ ∃ l, (l, k') ∈ t'.children k := by
      intro k'
      have := (S.ends k).mem_iff (a := k')
      simpa using this
    set B := (t.children k).filterMap fun c => (dict.get? c.2).map fun r' => (c.1, q, r')
    set B' := (t'.children k).filterMap fun c => (dict.get? c.2).map fun r' => (c.1, q, r')
    cases e : lastParent B r with
    | none =>
      cases e' : lastParent B' r with
      | none => exact .inl rfl
      | some x =>
        obtain ⟨l, p⟩ := x
        obtain ⟨rfl, k', h1, h2⟩ := (hm t' l p).mp (lastParent_mem e')
        obtain ⟨l', h3⟩ := (hiff k').mpr ⟨l, h2⟩
        exact absurd rfl (lastParent_eq_none.mp e _ ((hm t l' p).mpr ⟨rfl, k', h1, h3⟩))
    | some x =>
      obtain ⟨l, p⟩ := x
      obtain ⟨rfl, k', h1, h2⟩ := (hm t l p).mp (lastParent_mem e)
      cases e' : lastParent B' r with
      | none =>
        obtain ⟨l', h3⟩ := (hiff k').mp ⟨l, h2⟩
        exact absurd rfl (lastParent_eq_none.mp e' _ ((hm t' l' p).mpr ⟨rfl, k', h1, h3⟩))
      | some x =>
        obtain ⟨l', p'⟩ := x
        obtain ⟨rfl, k'', h3, h4⟩ := (hm t' l' p').mp (lastParent_mem e')
        have := hinj _ _ _ h1 h3
        subst this
        have a1 := (inv.mem_children _ _ _).mp h2
        have a2 := (inv'.mem_children _ _ _).mp h4
        have move : ∀ d, d ∉ quietDeps → ((d, k, k') ∈ hist ↔ (d, k, k') ∈ hist') := by
          intro d hd
          have := H.via d hd k
          rw [← mem_labelled, this, mem_labelled]
        by_cases hl : l ∈ quietDeps
        · by_cases hl' : l' ∈ quietDeps
          · exact .inr ⟨l, l', p', rfl, rfl, hl, hl'⟩
          · have := o _ _ _ _ a1 ((move l' hl').mpr a2)
            exact absurd hl (this ▸ hl')
        · have := o' _ _ _ _ a2 ((move l hl).mp a1)
          subst this
          exact .inl rfl

theorem quiet_ne {l l' : Dep} (h : l ∈ quietDeps) (h' : l' ∉ quietDeps) : l ≠ l' := fun e => h' (e ▸ h)

theorem climb_akin (S : AkinTree t t') {l : Dep} (hl : l ∉ quietDeps) : ∀ fuel n, t.climb l fuel n = t'.climb l fuel n
  | 0, _ => rfl
  | fuel + 1, n => by
    unfold Tree.climb
    rcases S.par n with e | ⟨a, b, p, e, e', ha, hb⟩
    · rw [e]
      cases t'.parent n with
      | none => rfl
      | some q =>
        obtain ⟨a, p⟩ := q
        simp only [climb_akin S hl fuel p]
    · rw [e, e']
      simp only [quiet_ne ha hl, quiet_ne hb hl, if_false]

theorem flattenStep_akin (S : AkinTree t t') (lower : Str → Str) (tokens : List Str) (tags : List Tag) (s : Nodif)
    (tok : Str × Nat) : flattenStep lower tokens tags t s tok = flattenStep lower tokens tags t' s tok := by
  unfold flattenStep ancestorsOrRaise Tree.ancestorsVia
  simp only [S.nil_iff, S.len, climb_akin S (show Dep.FLAT ∉ quietDeps by decide)]
  rcases S.par tok.2 with e | ⟨a, b, p, e, e', ha, hb⟩
  · rw [e]
  · rw [e, e']
    simp only [quiet_ne ha (show Dep.FLAT ∉ quietDeps by decide), quiet_ne hb (show Dep.FLAT ∉ quietDeps by decide), if_false]

theorem particleStep_akin (S : AkinTree t t') (lower : Str → Str) (tokens : List Str) (tags : List Tag) (s : Nodif)
    (tok : Str × Nat) : particleStep lower tokens tags t s tok = particleStep lower tokens tags t' s tok := by
  unfold particleStep
  rw [S.labels .PART (by decide)]

theorem hasParentViaSet_akin {N : Type} [DecidableEq N] {t t' : Tree Dep N} (S : AkinTree t t') (n : N) :
    t.hasParentViaSet n functionalDeps = t'.hasParentViaSet n functionalDeps := by
  have hq : ∀ l ∈ quietDeps, l ∈ functionalDeps := by decide
  have h1 : t.parents.get? n = t.parent n := rfl
  have h2 : t'.parents.get? n = t'.parent n := rfl
  unfold Tree.hasParentViaSet
  rw [h1, h2]
  rcases S.par n with e | ⟨a, b, p, e, e', ha, hb⟩
  · rw [e]
  · rw [e, e']
    simp [hq a ha, hq b hb]

/-- Results of nodification that differ in quiet labels only. -/
def AkinNodes (a b : Except PyErr (Heap × Dict Nat Ref × Option (Tree Dep Ref))) : Prop :=
  (∃ h d nt nt' r H H', a = .ok (h, d, some nt) ∧ b = .ok (h, d, some nt') ∧ AkinTree nt nt' ∧ buildTree r H = .ok nt ∧
    buildTree r H' = .ok nt') ∨ ∃ e, a = .error e ∧ b = .error e

theorem nodify_akin (hb : buildTree root hist = .ok t) (hb' : buildTree root hist' = .ok t') (H : AkinArcs hist hist')
    (o : OneLabel hist) (o' : OneLabel hist') (lower : Str → Str) (tokens : List Str) (tags : List Tag) :
    AkinNodes (nodify lower tokens tags (some t)) (nodify lower tokens tags (some t')) := by
  have S := akinTree_of hb hb' H
  unfold nodify
  simp only [S.len, S.root]
  by_cases hl : t'.len = 1
  · simp only [hl, if_true, bind, Except.bind]
    cases index tokens (t'.root : Int) with
    | error e => exact Or.inr ⟨e, rfl, rfl⟩
    | ok tok =>
      cases index tags (t'.root : Int) with
      | error e => exact Or.inr ⟨e, rfl, rfl⟩
      | ok tag =>
        exact Or.inl ⟨_, _, _, _, _, [], [], rfl, rfl, akinTree_of (hist := []) (hist' := []) rfl rfl (akinArcs_of .nil),
          rfl, rfl⟩
  · simp only [hl, if_false]
    have hnd : nodepIdxs tokens t = nodepIdxs tokens t' := by
      unfold nodepIdxs
      simp only [S.hasNode]
    have hfl : flattenStep lower tokens tags t = flattenStep lower tokens tags t' := by
      funext s tok
      exact flattenStep_akin S lower tokens tags s tok
    have hpt : particleStep lower tokens tags t = particleStep lower tokens tags t' := by
      funext s tok
      exact particleStep_akin S lower tokens tags s tok
    rw [hnd, hfl, hpt]
    set s₀ : Nodif := { heap := Heap.empty, dict := [], bl := nodepIdxs tokens t' } with hs₀
    have ok₀ : DictOk s₀ := ⟨Dict.Wf.nil, by simp [hs₀, Dict.values], by simp [hs₀, Dict.values]⟩
    cases e1 : tokens.zipIdx.foldlM (flattenStep lower tokens tags t') s₀ with
    | error e => exact Or.inr ⟨e, rfl, rfl⟩
    | ok s₁ =>
      have ok₁ : DictOk s₁ := foldlM_holds DictOk _ (fun s a s' h e => flattenStep_dictOk h e) _ _ _ ok₀ e1
      simp only [bind, Except.bind]
      cases e2 : tokens.zipIdx.foldlM (particleStep lower tokens tags t') s₁ with
      | error e => exact Or.inr ⟨e, rfl, rfl⟩
      | ok s₂ =>
        have ok₂ : DictOk s₂ := foldlM_holds DictOk _ (fun s a s' h e => particleStep_dictOk h e) _ _ _ ok₁ e2
        simp only
        cases e3 : tokens.zipIdx.foldlM (remainingStep lower tags) s₂ with
        | error e => exact Or.inr ⟨e, rfl, rfl⟩
        | ok s₃ =>
          have ok₃ : DictOk s₃ := foldlM_holds DictOk _ (fun s a s' h e => remainingStep_dictOk h e) _ _ _ ok₂ e3
          simp only
          cases s₃.dict.get t'.root with
          | error e => exact Or.inr ⟨e, rfl, rfl⟩
          | ok r =>
            simp only
            have HA := nodeArcs_akin hb hb' H o o' ok₃.wf ok₃.vals
            have hmem : ∀ {A A' : List (Dep × Ref × Ref)}, (A.map Prod.snd).Perm (A'.map Prod.snd) → ∀ a ∈ A,
                a.2.1 = a.2.2 → ∃ b ∈ A', b.2.1 = b.2.2 := by
              intro A A' hp a ha h1
              have := hp.mem_iff.mp (List.mem_map_of_mem (f := Prod.snd) ha)
              obtain ⟨b, h2, h3⟩ := List.mem_map.mp this
              exact ⟨b, h2, by rw [h3]; exact h1⟩
            cases e4 : buildTree r (nodeArcs t s₃.dict) with
            | error e =>
              cases e4' : buildTree r (nodeArcs t' s₃.dict) with
              | error e' =>
                have := (buildTree_error _ _ _ e4).1
                have := (buildTree_error _ _ _ e4').1
                subst_vars
                exact Or.inr ⟨_, rfl, rfl⟩
              | ok nt' =>
                obtain ⟨-, a, ha, hpc⟩ := buildTree_error _ _ _ e4
                obtain ⟨b, h1, h2⟩ := hmem HA.ends a ha hpc
                exact absurd h2 ((buildTree_inv e4').ne b h1)
            | ok nt =>
              cases e4' : buildTree r (nodeArcs t' s₃.dict) with
              | error e' =>
                obtain ⟨-, a, ha, hpc⟩ := buildTree_error _ _ _ e4'
                obtain ⟨b, h1, h2⟩ := hmem HA.ends.symm a ha hpc
                exact absurd h2 ((buildTree_inv e4).ne b h1)
              | ok nt' =>
                have SN := akinTree_of e4 e4' HA
                refine Or.inl ⟨_, _, nt, nt', r, _, _, rfl, ?_, SN, e4, e4'⟩
                simp only [hasParentViaSet_akin SN, pure, Except.pure]

end

/-! ### Fixing tags, chunking and finding arguments -/

section
variable {t t' : Tree Dep Ref} (S : AkinTree t t')
include S

theorem fixAll_akin (adjs nouns : List Str) (h : Heap) (nodes : List Ref) :
    fixAll adjs nouns t h nodes = fixAll adjs nouns t' h nodes := by
  have : fixNode adjs nouns t = fixNode adjs nouns t' := by
    funext h r
    unfold fixNode fixTag
    simp only [S.nil_iff]
    rcases S.par r with e | ⟨a, b, p, e, e', ha, hb⟩
    · rw [e]
    · have hq : ∀ l ∈ quietDeps, l ≠ .CPL ∧ l ∉ propDeps := by decide
      rw [e, e']
      simp only [hq a ha, hq b hb, false_and, or_self, if_false]
  unfold fixAll
  rw [this]

theorem chunker_akin (h : Heap) (nodes : List Ref) : chunker h t nodes = chunker h t' nodes := by
  have : compoundParent h t = compoundParent h t' := by
    funext r
    unfold compoundParent
    simp only [S.markers]
    rcases S.par r with e | ⟨a, b, p, e, e', ha, hb⟩
    · rw [e]
    · rw [e, e']
      simp only [quiet_ne ha (show Dep.CPL ∉ quietDeps by decide), quiet_ne hb (show Dep.CPL ∉ quietDeps by decide),
        false_and, if_false]
  have : compoundStep h t = compoundStep h t' := by
    funext acc r
    unfold compoundStep
    rw [this]
  unfold chunker compounds
  rw [this]

variable (h : Heap)

theorem subjEvs_akin : subjEvs t h = subjEvs t' h := by
  funext v s; unfold subjEvs; simp only [S.hasChildVia .SUBJ (by decide)]
theorem objEvs_akin : objEvs t h = objEvs t' h := by
  funext v s; unfold objEvs; simp only [S.nil_iff]
theorem copEvs_akin : copEvs t h = copEvs t' h := by
  funext v s p; unfold copEvs; simp only [S.markers]
theorem ipropEvs_akin : ipropEvs t h = ipropEvs t' h := by
  funext v s; unfold ipropEvs; simp only [S.via .OBJ (by decide), S.via .SUBJ (by decide)]
theorem agentEvs_akin : agentEvs t h = agentEvs t' h := by
  funext v s p
  unfold agentEvs
  rcases S.par v with e | ⟨a, b, p, e, e', ha, hb⟩
  · rw [e]
  · have hq : ∀ l ∈ quietDeps, l ≠ .PROP ∧ l ≠ .CPL := by decide
    rw [e, e']
    simp only [hq a ha, hq b hb, or_self, if_false]
theorem resolve_akin : resolveRelativePron t h = resolveRelativePron t' h := by
  funext v p
  unfold resolveRelativePron
  simp only [S.markers]
  rcases S.par v with e | ⟨a, b, p, e, e', ha, hb⟩
  · rw [e]
  · rw [e, e']
    simp only [quiet_ne ha (show Dep.CPL ∉ quietDeps by decide), quiet_ne hb (show Dep.CPL ∉ quietDeps by decide),
        false_and, and_false, if_false]
theorem subjRef_akin : subjRef t h = subjRef t' h := by
  funext v p
  unfold subjRef
  simp only [resolve_akin S, S.via .SUBJ (by decide)]
  rcases S.par v with e | ⟨a, b, p, e, e', ha, hb⟩
  · rw [e]
  · rw [e, e']
    simp only [quiet_ne ha (show Dep.OBJ ∉ quietDeps by decide), quiet_ne hb (show Dep.OBJ ∉ quietDeps by decide),
        false_and, if_false]
theorem objRef_akin : objRef t h = objRef t' h := by
  funext v p; unfold objRef; simp only [resolve_akin S, S.via .SUBJ (by decide)]
theorem nakedEvs_akin : nakedEvs t h = nakedEvs t' h := by
  funext v p; unfold nakedEvs; simp only [S.via .PROP (by decide)]

theorem parentEvs_akin : parentEvs t h = parentEvs t' h := by
  funext r
  unfold parentEvs
  simp only [subjEvs_akin S, objEvs_akin S, copEvs_akin S, ipropEvs_akin S, resolve_akin S, subjRef_akin S, objRef_akin S,
    S.via .SUBJ (by decide)]
  rcases S.par r with e | ⟨a, b, p, e, e', ha, hb⟩
  · rw [e]
  · rw [e, e']
    simp only [quietDeps, List.mem_cons, List.not_mem_nil, or_false] at ha hb
    rcases ha with rfl | rfl | rfl | rfl | rfl <;> rcases hb with rfl | rfl | rfl | rfl | rfl <;> rfl

theorem cplEvs_akin : cplEvs t h = cplEvs t' h := by
  funext r
  unfold cplEvs
  simp only [nakedEvs_akin S, agentEvs_akin S, S.via .MARK (by decide), S.via .CMARK (by decide)]
  rcases S.par r with e | ⟨a, b, p, e, e', ha, hb⟩
  · rw [e]
  · rw [e, e']
    simp only [quietDeps, List.mem_cons, List.not_mem_nil, or_false] at ha hb
    rcases ha with rfl | rfl | rfl | rfl | rfl <;> rcases hb with rfl | rfl | rfl | rfl | rfl <;> rfl

omit h in
theorem isNaked_akin : isNaked t = isNaked t' := by
  funext r
  unfold isNaked
  simp only [S.via .MARK (by decide), S.via .CMARK (by decide), S.via .IMARK (by decide)]
  rcases S.par r with e | ⟨a, b, p, e, e', ha, hb⟩
  · rw [e]
  · rw [e, e']
    simp only [quietDeps, List.mem_cons, List.not_mem_nil, or_false] at ha hb
    rcases ha with rfl | rfl | rfl | rfl | rfl <;> rcases hb with rfl | rfl | rfl | rfl | rfl <;> rfl

omit h in
theorem isMarked_akin : isMarked t = isMarked t' := by
  funext r
  unfold isMarked
  simp only [S.via .MARK (by decide)]
  rcases S.par r with e | ⟨a, b, p, e, e', ha, hb⟩
  · rw [e]
  · rw [e, e']
    simp only [quietDeps, List.mem_cons, List.not_mem_nil, or_false] at ha hb
    rcases ha with rfl | rfl | rfl | rfl | rfl <;> rcases hb with rfl | rfl | rfl | rfl | rfl <;> rfl

theorem longEvs_akin (a b : List Ref) : longEvs t h a b = longEvs t' h a b := by
  funext r
  unfold longEvs
  simp only [subjEvs_akin S, objEvs_akin S, S.hasChildVia .SUBJ (by decide), S.hasChildVia .OBJ (by decide),
    S.via .SUBJ (by decide)]
  rcases S.par r with e | ⟨a, b, p, e, e', ha, hb⟩
  · rw [e]
  · rw [e, e']

omit h in
theorem aggreg_akin : aggregStep t = aggregStep t' := by
  funext h r
  unfold aggregStep
  rw [S.via .AND (by decide), S.via .OR (by decide)]

end

/-! ### Heaps up to polarity -/

/-- The same objects up to polarity. -/
structure Pol (h h' : Heap) : Prop where
  next : h'.next = h.next
  node : ∀ r, ∃ b, h'.node r = { h.node r with isAff := b }

theorem Pol.refl (h : Heap) : Pol h h := ⟨rfl, fun r => ⟨(h.node r).isAff, rfl⟩⟩

theorem Pol.symm {h h' : Heap} (P : Pol h h') : Pol h' h := by
  refine ⟨P.next.symm, fun r => ?_⟩
  obtain ⟨b, e⟩ := P.node r
  exact ⟨(h.node r).isAff, by rw [e]⟩

theorem Pol.trans {h h' h'' : Heap} (P : Pol h h') (Q : Pol h' h'') : Pol h h'' := by
  refine ⟨Q.next.trans P.next, fun r => ?_⟩
  obtain ⟨b, e⟩ := P.node r
  obtain ⟨b', e'⟩ := Q.node r
  exact ⟨b', by rw [e', e]⟩

def Ev.isNeg : Ev → Bool
  | .neg _ => true
  | _ => false

theorem Pol.applyEv {h h' : Heap} (P : Pol h h') (e : Ev) (he : e.isNeg = false) : Pol (applyEv h e) (Model.applyEv h' e) := by
  refine ⟨P.next, fun r => ?_⟩
  obtain ⟨b, eq⟩ := P.node r
  refine ⟨b, ?_⟩
  simp only [Model.applyEv, Heap.upd]
  by_cases hr : r = e.target
  · subst hr
    rw [if_pos rfl, if_pos rfl, eq]
    cases e <;> first | rfl | cases he
  · rw [if_neg hr, if_neg hr, eq]

theorem Pol.neg {h h' : Heap} (P : Pol h h') (e : Ev) (he : e.isNeg = true) : Pol (Model.applyEv h e) h' := by
  refine Pol.trans (h' := h) ⟨rfl, fun r => ?_⟩ P
  simp only [Model.applyEv, Heap.upd]
  by_cases hr : r = e.target
  · subst hr
    rw [if_pos rfl]
    cases e <;> first | exact ⟨(h.node _).isAff, rfl⟩ | cases he
  · rw [if_neg hr]
    exact ⟨_, rfl⟩

theorem Pol.filter (es : List Ev) : ∀ {h h' : Heap}, Pol h h' →
    Pol (applyEvs h es) (applyEvs h' (es.filter fun e => !e.isNeg)) := by
  induction es with
  | nil => exact fun P => P
  | cons e es ih =>
    intro h h' P
    cases he : e.isNeg with
    | true =>
      rw [List.filter_cons, he]
      exact ih (P.neg e he)
    | false =>
      rw [List.filter_cons, he]
      exact ih (P.applyEv e he)

theorem findArgs_akin {t t' : Tree Dep Ref} (S : AkinTree t t') {root root' : Ref} {hist hist' : List (Dep × Ref × Ref)}
    (hb : buildTree root hist = .ok t) (hb' : buildTree root' hist' = .ok t') (nodes : List Ref) (h : Heap) :
    ∃ g g', findArgs t nodes h = .ok g ∧ findArgs t' nodes h = .ok g' ∧ Pol g g' := by
  refine ⟨_, _, findArgs_eq hb nodes h, findArgs_eq hb' nodes h, ?_⟩
  rw [aggreg_akin S, isNaked_akin S, isMarked_akin S]
  generalize nodes.foldl (aggregStep t') h = h₀
  rw [longEvs_akin S]
  have e : ∀ a, ((nodes.flatMap (directEvs t h₀)) ++ a).filter (fun e => !e.isNeg) =
      ((nodes.flatMap (directEvs t' h₀)) ++ a).filter fun e => !e.isNeg := by
    intro a
    rw [List.filter_append, List.filter_append, List.filter_flatMap, List.filter_flatMap]
    congr 1
    apply List.flatMap_congr
    intro r _
    have hn : ∀ t : Tree Dep Ref, (negEvs t r).filter (fun e => !e.isNeg) = [] := by
      intro t
      unfold negEvs
      split <;> simp [Ev.isNeg]
    simp only [directEvs, List.filter_append, hn, parentEvs_akin S, cplEvs_akin S]
  refine (Pol.filter _ (Pol.refl h₀)).trans ?_
  rw [e]
  exact (Pol.filter _ (Pol.refl h₀)).symm

/-! ### Tuples up to polarity -/

/-- Both results are lists of tuples that say the same up to polarity. -/
def PolSim (m m' : Except PyErr (List STuple)) : Prop := ∃ ts ts', m = .ok ts ∧ m' = .ok ts' ∧ List.Forall₂ SameSaying ts ts'

theorem PolSim.none : PolSim (.ok []) (.ok []) := ⟨[], [], rfl, rfl, .nil⟩

theorem PolSim.one {t t' : STuple} (ht : SameSaying t t') : PolSim (.ok [t]) (.ok [t']) :=
  ⟨[t], [t'], rfl, rfl, .cons ht .nil⟩

theorem PolSim.append {m₁ m₂ m₁' m₂' : Except PyErr (List STuple)} (h₁ : PolSim m₁ m₁') (h₂ : PolSim m₂ m₂') :
    PolSim (do let a ← m₁; let b ← m₂; return a ++ b) (do let a ← m₁'; let b ← m₂'; return a ++ b) := by
  obtain ⟨l₁, l₁', rfl, rfl, k₁⟩ := h₁
  obtain ⟨l₂, l₂', rfl, rfl, k₂⟩ := h₂
  exact ⟨_, _, rfl, rfl, List.rel_append k₁ k₂⟩

theorem PolSim.append3 {m₁ m₂ m₃ m₁' m₂' m₃' : Except PyErr (List STuple)} (h₁ : PolSim m₁ m₁') (h₂ : PolSim m₂ m₂')
    (h₃ : PolSim m₃ m₃') : PolSim (do let a ← m₁; let b ← m₂; let c ← m₃; return a ++ b ++ c)
      (do let a ← m₁'; let b ← m₂'; let c ← m₃'; return a ++ b ++ c) := by
  obtain ⟨l₁, l₁', rfl, rfl, k₁⟩ := h₁
  obtain ⟨l₂, l₂', rfl, rfl, k₂⟩ := h₂
  obtain ⟨l₃, l₃', rfl, rfl, k₃⟩ := h₃
  exact ⟨_, _, rfl, rfl, List.rel_append (List.rel_append k₁ k₂) k₃⟩

theorem PolSim.append4 {m₁ m₂ m₃ m₄ m₁' m₂' m₃' m₄' : Except PyErr (List STuple)} (h₁ : PolSim m₁ m₁')
    (h₂ : PolSim m₂ m₂') (h₃ : PolSim m₃ m₃') (h₄ : PolSim m₄ m₄') :
    PolSim (do let a ← m₁; let b ← m₂; let c ← m₃; let d ← m₄; return a ++ (b ++ (c ++ d)))
      (do let a ← m₁'; let b ← m₂'; let c ← m₃'; let d ← m₄'; return a ++ (b ++ (c ++ d))) := by
  obtain ⟨l₁, l₁', rfl, rfl, k₁⟩ := h₁
  obtain ⟨l₂, l₂', rfl, rfl, k₂⟩ := h₂
  obtain ⟨l₃, l₃', rfl, rfl, k₃⟩ := h₃
  obtain ⟨l₄, l₄', rfl, rfl, k₄⟩ := h₄
  exact ⟨_, _, rfl, rfl, List.rel_append k₁ (List.rel_append k₂ (List.rel_append k₃ k₄))⟩

theorem PolSim.cons {m m' : Except PyErr (List STuple)} {t t' : STuple} (ht : SameSaying t t') (h₁ : PolSim m m') :
    PolSim (do let a ← m; pure (t :: a)) (do let a ← m'; pure (t' :: a)) := by
  obtain ⟨l₁, l₁', rfl, rfl, k₁⟩ := h₁
  exact ⟨_, _, rfl, rfl, .cons ht k₁⟩

theorem PolSim.collect {α : Type} {l : List α} {f f' : α → Except PyErr (List STuple)} (hf : ∀ x, PolSim (f x) (f' x)) :
    PolSim (collect l f) (Model.collect l f') := by
  induction l with
  | nil => exact PolSim.none
  | cons x l ih => exact (hf x).append ih

theorem PolSim.ite {c : Prop} [Decidable c] {m₁ m₂ m₁' m₂' : Except PyErr (List STuple)} (h₁ : PolSim m₁ m₁')
    (h₂ : PolSim m₂ m₂') : PolSim (if c then m₁ else m₂) (if c then m₁' else m₂') := by
  split
  · exact h₁
  · exact h₂

theorem saying2 {a b a' b' : Argument} (h1 : a'.word = a.word ∧ a'.code = a.code) (h2 : b'.word = b.word ∧ b'.code = b.code) :
    SameSaying ⟨[a, b]⟩ ⟨[a', b']⟩ := .cons h1 (.cons h2 .nil)

section
variable {h h' : Heap} (P : Pol h h')
include P

theorem Pol.tag (r : Ref) : (h'.node r).tag = (h.node r).tag := by obtain ⟨b, e⟩ := P.node r; rw [e]
theorem Pol.lem (r : Ref) : (h'.node r).lem = (h.node r).lem := by obtain ⟨b, e⟩ := P.node r; rw [e]
theorem Pol.canon (r : Ref) : (h'.node r).canon = (h.node r).canon := by obtain ⟨b, e⟩ := P.node r; rw [e]
theorem Pol.particles (r : Ref) : (h'.node r).particles = (h.node r).particles := by obtain ⟨b, e⟩ := P.node r; rw [e]
theorem Pol.isInfTo (r : Ref) : (h'.node r).isInfTo = (h.node r).isInfTo := by obtain ⟨b, e⟩ := P.node r; rw [e]
theorem Pol.subjs (r : Ref) : (h'.node r).subjs = (h.node r).subjs := by obtain ⟨b, e⟩ := P.node r; rw [e]
theorem Pol.objs (r : Ref) : (h'.node r).objs = (h.node r).objs := by obtain ⟨b, e⟩ := P.node r; rw [e]
theorem Pol.iobjs (r : Ref) : (h'.node r).iobjs = (h.node r).iobjs := by obtain ⟨b, e⟩ := P.node r; rw [e]
theorem Pol.props (r : Ref) : (h'.node r).props = (h.node r).props := by obtain ⟨b, e⟩ := P.node r; rw [e]
theorem Pol.adjs (r : Ref) : (h'.node r).adjs = (h.node r).adjs := by obtain ⟨b, e⟩ := P.node r; rw [e]
theorem Pol.svis (r : Ref) : (h'.node r).subjsVerbsIprops = (h.node r).subjsVerbsIprops := by
  obtain ⟨b, e⟩ := P.node r; rw [e]
theorem Pol.copulasProps (r : Ref) : (h'.node r).copulasProps = (h.node r).copulasProps := by
  obtain ⟨b, e⟩ := P.node r; rw [e]
theorem Pol.ppsProps (r : Ref) : (h'.node r).ppsProps = (h.node r).ppsProps := by obtain ⟨b, e⟩ := P.node r; rw [e]
theorem Pol.agents (r : Ref) : (h'.node r).agents = (h.node r).agents := by obtain ⟨b, e⟩ := P.node r; rw [e]
theorem Pol.active (r : Ref) : (h'.node r).active = (h.node r).active := by
  obtain ⟨b, e⟩ := P.node r; simp only [Node.active]; rw [e]
theorem Pol.plain (r : Ref) : (h'.node r).cannotBeTransitive = (h.node r).cannotBeTransitive := by
  obtain ⟨b, e⟩ := P.node r; simp only [Node.cannotBeTransitive]; rw [e]

theorem Pol.nArg (r : Ref) : nArg h' r = Model.nArg h r := by
  unfold Model.nArg nounArgCode; rw [P.canon, P.tag]
theorem Pol.aArg (r : Ref) : aArg h' r = Model.aArg h r := by
  unfold Model.aArg adjArgCode; rw [P.canon, P.active]
theorem Pol.pArg (r : Ref) : pArg h' r = Model.pArg h r := by
  unfold Model.pArg propArgCode nounArgCode adjArgCode; rw [P.canon, P.active, P.tag]
theorem Pol.nominals (l : List Ref) : nominals h' l = Model.nominals h l := by
  unfold Model.nominals; simp only [P.tag]
theorem Pol.subjs2 (s o : Ref) : subjs2 h' s o = Model.subjs2 h s o := by
  unfold Model.subjs2; simp only [P.subjs, P.nominals]
theorem Pol.verbObjs (v : Ref) : verbObjs h' v = Model.verbObjs h v := by
  unfold Model.verbObjs; simp only [P.objs, P.tag]
theorem Pol.headVerb (r : Ref) : headVerb h' r = Model.headVerb h r := by
  unfold Model.headVerb; simp only [P.tag, P.isInfTo, P.plain]
theorem Pol.blockedBy (r : Ref) : blockedBy h' r = Model.blockedBy h r := by
  unfold Model.blockedBy; simp only [P.subjs, P.nominals, P.verbObjs]

omit P in
theorem saying_refl (a : Argument) : a.word = a.word ∧ a.code = a.code := ⟨rfl, rfl⟩

omit P in
/-- Tuples whose second arguments differ in polarity at most. -/
theorem saying_of {a : Argument} {w k : Str} {b b' : Bool} {l : List Argument} :
    SameSaying ⟨a :: ⟨w, k, b⟩ :: l⟩ ⟨a :: ⟨w, k, b'⟩ :: l⟩ :=
  .cons ⟨rfl, rfl⟩ (.cons ⟨rfl, rfl⟩ (List.forall₂_same.mpr fun _ _ => ⟨rfl, rfl⟩))

theorem Pol.clauseTuples (v s o s' : Ref) : PolSim (clauseTuples h v s o s') (Model.clauseTuples h' v s o s') := by
  unfold Model.clauseTuples
  simp only [nounArg_ok, xnor_affirmed, newT, newI, newC, propArg_ok, bind_ok, pure_bind, bind_assoc]
  simp only [P.canon, P.plain, P.objs, P.props, P.nominals, P.nArg, P.pArg]
  exact PolSim.append (PolSim.ite (PolSim.append (PolSim.ite (PolSim.one saying_of) PolSim.none)
    (PolSim.collect fun x => PolSim.one saying_of)) PolSim.none) (PolSim.collect fun x => PolSim.one saying_of)

theorem Pol.fromVerbsSubjsObjs (v : Ref) : PolSim (fromVerbsSubjsObjs h v) (Model.fromVerbsSubjsObjs h' v) := by
  unfold Model.fromVerbsSubjsObjs
  simp only [nounArg_ok, bind_ok, P.subjs, P.nominals, P.subjs2, P.verbObjs]
  exact PolSim.collect fun s => PolSim.collect fun o => PolSim.collect fun s' => P.clauseTuples v s o s'

theorem Pol.fromSubjsObjs (v : Ref) : PolSim (fromSubjsObjs h v) (Model.fromSubjsObjs h' v) := by
  unfold Model.fromSubjsObjs
  simp only [nounArg_ok, xnor_affirmed, newT, newI, bind_ok, P.canon, P.objs, P.subjs, P.nominals, P.nArg]
  exact PolSim.append (PolSim.ite (PolSim.collect fun x => PolSim.one saying_of) PolSim.none)
    (PolSim.collect fun x => PolSim.collect fun y => PolSim.one saying_of)

theorem Pol.fromIobj (v : Ref) : PolSim (fromIobj h v) (Model.fromIobj h' v) := by
  unfold Model.fromIobj
  simp only [nounArg_ok, xnor_affirmed, newR, bind_ok, P.canon, P.iobjs, P.subjs, P.nominals, P.nArg]
  exact PolSim.collect fun x => PolSim.collect fun y => PolSim.one saying_of

variable (pp : Str → Str)

theorem Pol.participle (v : Ref) : ppWithParticles pp h' v = ppWithParticles pp h v := by
  unfold ppWithParticles; simp only [P.particles, P.lem]

theorem Pol.fromObjs (v : Ref) : PolSim (fromObjs pp h v) (Model.fromObjs pp h' v) := by
  unfold Model.fromObjs
  simp only [nounArg_ok, P.canon, P.objs, P.subjs, P.nominals, P.participle, P.nArg, newC, newL, bind_ok]
  refine PolSim.ite (PolSim.collect fun x => ?_) PolSim.none
  split
  · simp only [xnor_affirmed, bind_ok]
    exact PolSim.one saying_of
  · simp only [xnor_affirmed, bind_ok]
    exact PolSim.one saying_of

theorem Pol.activeForms (n p : Ref) (a : Argument) : PolSim (activeForms h n p a) (Model.activeForms h' n p a) := by
  unfold Model.activeForms
  rw [P.active]
  cases (h.node p).active with
  | none => exact PolSim.none
  | some w =>
    simp only [nounArg_ok, xnor_affirmed, newT, bind_ok, P.agents, P.nominals, P.nArg]
    exact PolSim.collect fun x => PolSim.one saying_of

theorem Pol.fromNakedAdjs (n : Ref) : PolSim (fromNakedAdjs h n) (Model.fromNakedAdjs h' n) := by
  unfold Model.fromNakedAdjs
  simp only [nounArg_ok, xnor_affirmed, newC, adjArg_ok, bind_ok, P.adjs, P.nArg, P.aArg]
  exact PolSim.collect fun x => PolSim.cons saying_of (P.activeForms n x _)

theorem Pol.fromPpProps (n : Ref) : PolSim (fromPpProps h n) (Model.fromPpProps h' n) := by
  unfold Model.fromPpProps
  simp only [nounArg_ok, xnor_affirmed, newC, propArg_ok, bind_ok, join_be]
  simp only [P.canon, P.ppsProps, P.tag, P.nArg, P.pArg]
  exact PolSim.collect fun x => PolSim.one saying_of

theorem Pol.fromCopulaProps (n : Ref) : PolSim (fromCopulaProps h n) (Model.fromCopulaProps h' n) := by
  unfold Model.fromCopulaProps
  simp only [nounArg_ok, xnor_affirmed, newC, propArg_ok, bind_ok]
  simp only [P.canon, P.copulasProps, P.tag, P.nArg, P.pArg]
  exact PolSim.collect fun x => PolSim.cons saying_of (PolSim.ite (P.activeForms n x.2 _) PolSim.none)

theorem Pol.fromIprops (n : Ref) : PolSim (fromIprops pp h n) (Model.fromIprops pp h' n) := by
  unfold Model.fromIprops
  simp only [nounArg_ok, ipropAff_eq, newC, propArg_ok, bind_ok, join_be]
  simp only [P.svis, P.tag, P.participle, P.nArg, P.pArg]
  exact PolSim.collect fun x => PolSim.one saying_of

/-- The same tuples are extracted, up to polarity. -/
theorem Pol.extractTuples (nodes : List Ref) : PolSim (extractTuples pp h nodes) (Model.extractTuples pp h' nodes) := by
  unfold Model.extractTuples
  simp only [P.headVerb]
  have hb : Model.blockedBy h' = Model.blockedBy h := by funext r; exact P.blockedBy r
  rw [hb]
  refine PolSim.append3 (PolSim.collect fun n => PolSim.ite (P.fromVerbsSubjsObjs n) PolSim.none)
    (PolSim.collect fun n => ?_) (PolSim.collect fun n => ?_)
  · unfold secondRound
    rw [P.headVerb, P.tag]
    exact PolSim.ite (PolSim.append (P.fromSubjsObjs n) (P.fromIobj n)) (PolSim.ite (PolSim.append4 (P.fromIprops pp n)
      (P.fromCopulaProps n) (P.fromPpProps n) (P.fromNakedAdjs n)) PolSim.none)
  · unfold thirdRound
    rw [P.tag, P.plain]
    exact PolSim.ite (P.fromObjs pp n) PolSim.none

end

/-! ### The whole process -/

theorem process_akin {t t' : Tree Dep Nat} {hist hist' : List Arc} {root : Nat} (hb : buildTree root hist = .ok t)
    (hb' : buildTree root hist' = .ok t') (H : AkinArcs hist hist') (o : OneLabel hist) (o' : OneLabel hist') (c : Logic)
    (tokens : List Str) (tags : List Tag) (chunk : Bool) :
    UpToPolarity (c.process (tokens, tags, some t, chunk)) (c.process (tokens, tags, some t', chunk)) := by
  unfold Logic.process
  simp only [bind, Except.bind]
  rcases nodify_akin hb hb' H o o' c.lower tokens tags with ⟨h, d, nt, nt', r, A, A', e, e', S, b, b'⟩ | ⟨e, h1, h2⟩
  · simp only [e, e', fixAll_akin S, chunker_akin S]
    cases d.values.foldlM c.normalizeNode h with
    | error e => rfl
    | ok h₁ =>
      cases chunk with
      | false =>
        simp only [Bool.false_eq_true, if_false]
        cases d.values.foldlM c.canonicalizeNode (fixAll c.lemmatizer.adjs c.nouns nt' h₁ d.values) with
        | error e => rfl
        | ok h₄ =>
          obtain ⟨g, g', e1, e2, P⟩ := findArgs_akin S b b' d.values h₄
          obtain ⟨ts, ts', e3, e4, R⟩ := P.extractTuples c.pp d.values
          simp only [e1, e2, e3, e4]
          exact ⟨rfl, P.next, P.node, R⟩
      | true =>
        simp only [if_true]
        cases chunker (fixAll c.lemmatizer.adjs c.nouns nt' h₁ d.values) nt' d.values with
        | error e => rfl
        | ok h₃ =>
          simp only
          cases d.values.foldlM c.canonicalizeNode h₃ with
          | error e => rfl
          | ok h₄ =>
            obtain ⟨g, g', e1, e2, P⟩ := findArgs_akin S b b' d.values h₄
            obtain ⟨ts, ts', e3, e4, R⟩ := P.extractTuples c.pp d.values
            simp only [e1, e2, e3, e4]
            exact ⟨rfl, P.next, P.node, R⟩
  · simp only [h1, h2]
    rfl

/-! ### Sentences without negations -/

/-- The arcs between nodes have the labels of arcs between tokens. -/
theorem nodify_labels {lower : Str → Str} {tokens : List Str} {tags : List Tag} {t : Tree Dep Nat} {h : Heap}
    {d : Dict Nat Ref} {nt : Tree Dep Ref} (e : nodify lower tokens tags (some t) = .ok (h, d, some nt)) :
    ∃ root hist, buildTree root hist = .ok nt ∧ ∀ a ∈ hist, ∃ p c, (a.1, c) ∈ t.children p := by
  unfold nodify at e
  simp only at e
  split at e
  · simp only [bind, Except.bind] at e
    split at e
    · cases e
    · split at e
      · cases e
      · cases e
        exact ⟨_, [], rfl, by simp⟩
  · simp only [bind, Except.bind] at e
    split at e
    · cases e
    split at e
    · cases e
    split at e
    · cases e
    split at e
    · cases e
    split at e
    · cases e
    rename_i s₃ _ r _ nt' hb
    cases e
    refine ⟨_, _, hb, ?_⟩
    intro a ha
    unfold nodeArcs at ha
    obtain ⟨p, -, hp⟩ := List.mem_flatMap.mp ha
    obtain ⟨c, hc, e⟩ := List.mem_filterMap.mp hp
    rw [Option.map_eq_some_iff] at e
    obtain ⟨r', -, rfl⟩ := e
    exact ⟨p.1, c.2, hc⟩

/-- All nodes are affirmative. -/
def AllAff (h : Heap) : Prop := ∀ r, (h.node r).isAff = true

theorem AllAff.upd {h : Heap} (H : AllAff h) (r : Ref) (f : Node → Node) (hf : (f (h.node r)).isAff = true) :
    AllAff (h.upd r f) := by
  intro x
  simp only [Heap.upd]
  split
  · exact hf
  · exact H x

theorem AllAff.applyEvs (es : List Ev) : ∀ {h : Heap}, AllAff h → (∀ e ∈ es, e.isNeg = false) → AllAff (applyEvs h es) := by
  induction es with
  | nil => exact fun H _ => H
  | cons e es ih =>
    intro h H he
    refine ih (H.upd _ _ ?_) fun x hx => he x (by simp [hx])
    have h1 := he e (by simp)
    have h2 := H e.target
    cases e <;> first | exact h2 | cases h1

theorem evs_isNeg {t : Tree Dep Ref} (h₀ : Heap) (r : Ref) (a b : List Ref) :
    (∀ e ∈ parentEvs t h₀ r, e.isNeg = false) ∧ (∀ e ∈ cplEvs t h₀ r, e.isNeg = false) ∧
      ∀ e ∈ longEvs t h₀ a b r, e.isNeg = false := by
  have hs : ∀ v s, ∀ e ∈ subjEvs t h₀ v s, e.isNeg = false := by
    intro v s e he
    obtain ⟨x, -, hx⟩ := List.mem_flatMap.mp he
    obtain ⟨y, -, rfl⟩ := List.mem_map.mp hx
    rfl
  have ho : ∀ v s, ∀ e ∈ objEvs t h₀ v s, e.isNeg = false := by
    intro v s e he
    obtain ⟨x, -, hx⟩ := List.mem_flatMap.mp he
    obtain ⟨y, -, rfl⟩ := List.mem_map.mp hx
    rfl
  have hm : ∀ {α : Type} (l : List α) (f : α → Ev), (∀ x, (f x).isNeg = false) → ∀ e ∈ l.map f, e.isNeg = false := by
    intro α l f hf e he
    obtain ⟨x, -, rfl⟩ := List.mem_map.mp he
    exact hf x
  have hc : ∀ s c p, ∀ e ∈ copEvs t h₀ s c p, e.isNeg = false := fun s c p => hm _ _ fun _ => rfl
  have ha : ∀ d c m, ∀ e ∈ agentEvs t h₀ d c m, e.isNeg = false := by
    intro d c m e he
    unfold agentEvs at he
    split at he
    · split at he
      · split at he
        · exact hm _ _ (fun _ => rfl) e he
        · cases he
      · cases he
    · cases he
  have hn : ∀ v p, ∀ e ∈ nakedEvs t h₀ v p, e.isNeg = false := by
    intro v p e he
    unfold nakedEvs at he
    split at he
    · rcases List.mem_append.mp he with he | he
      · exact hm _ _ (fun _ => rfl) e he
      · split at he
        · split at he
          · split at he
            · exact hm _ _ (fun _ => rfl) e he
            · cases he
          · cases he
        · cases he
    · cases he
  have hi : ∀ v p, ∀ e ∈ ipropEvs t h₀ v p, e.isNeg = false := by
    intro v p e he
    unfold ipropEvs at he
    rcases List.mem_append.mp he with he | he
    · exact hm _ _ (fun _ => rfl) e he
    · split at he
      · cases he
      · exact hm _ _ (fun _ => rfl) e he
  refine ⟨?_, ?_, ?_⟩
  · intro e he
    unfold parentEvs at he
    split at he
    · exact hs _ _ e he
    · exact ho _ _ e he
    · exact hm _ _ (fun _ => rfl) e he
    · exact hm _ _ (fun _ => rfl) e he
    · rcases List.mem_append.mp he with he | he
      · exact hm _ _ (fun _ => rfl) e he
      · split at he
        · cases he
        · exact hc _ _ _ e he
    · exact hi _ _ e he
    · cases he
  · intro e he
    unfold cplEvs at he
    split at he
    · rcases List.mem_append.mp he with he | he
      · split at he
        · exact hn _ _ e he
        · exact ha _ _ _ e he
      · split at he
        · exact hm _ _ (fun _ => rfl) e he
        · cases he
    · cases he
  · intro e he
    unfold longEvs at he
    split at he
    · cases he
    · split at he
      · split at he
        · exact hs _ _ e he
        · cases he
      · split at he
        · split at he
          · split at he
            · exact ho _ _ e he
            · cases he
          · cases he
        · cases he

/-- Without negations no node is negated. -/
theorem process_allAff {c : Logic} {tokens : List Str} {tags : List Tag} {t : Tree Dep Nat} {chunk : Bool} {h : Heap}
    {d : Dict Nat Ref} {ts : List STuple} (hn : ∀ p k, (Dep.NEG, k) ∉ t.children p)
    (e : c.process (tokens, tags, some t, chunk) = .ok ((h, d), ts)) :
    AllAff h ∧ extractTuples c.pp h d.values = .ok ts := by
  unfold Logic.process at e
  simp only [bind, Except.bind] at e
  split at e
  · cases e
  rename_i x e1
  obtain ⟨h₀, dict, nt⟩ := x
  have a0 : AllAff h₀ := nodify_keeps (fun n => n.isAff = true) rfl (fun _ _ _ => rfl) (fun _ _ h => h) (fun _ h => h) e1
  cases nt with
  | none =>
    simp only at e
    split at e
    · split at e
      · cases e
      · rename_i ts' e2
        cases e
        exact ⟨a0, e2⟩
    · cases e
  | some nt =>
    obtain ⟨root, hist, hb, hlab⟩ := nodify_labels e1
    simp only at e
    split at e
    · cases e
    rename_i h₁ e2
    have a1 : AllAff h₁ := foldlM_keeps AllAff c.normalizeNode (by
      intro h r h' H e
      unfold Logic.normalizeNode at e
      simp only [bind, Except.bind] at e
      split at e
      · cases e
      split at e
      · cases e
      cases e
      exact H.upd _ _ (H r)) _ _ _ a0 e2
    have a2 : AllAff (fixAll c.lemmatizer.adjs c.nouns nt h₁ dict.values) := by
      unfold fixAll
      generalize dict.values = l
      clear e2 e
      induction l generalizing h₁ with
      | nil => exact a1
      | cons r l ih => exact ih _ (a1.upd _ _ (a1 r))
    have last : ∀ h₃, AllAff h₃ → ∀ h₄, dict.values.foldlM c.canonicalizeNode h₃ = .ok h₄ → ∀ h₅,
        findArgs nt dict.values h₄ = .ok h₅ → AllAff h₅ := by
      intro h₃ a3 h₄ e4 h₅ e5
      have a4 : AllAff h₄ := foldlM_keeps AllAff c.canonicalizeNode (by
        intro h r h' H e
        unfold Logic.canonicalizeNode at e
        simp only [bind, Except.bind] at e
        split at e
        · cases e
        rename_i n hn
        cases e
        refine H.upd _ _ ?_
        rw [(Props.C40_frame _ _ hn).1]
        exact H r) _ _ _ a3 e4
      rw [findArgs_eq hb] at e5
      cases e5
      refine AllAff.applyEvs _ ?_ ?_
      · clear e4
        generalize dict.values = l
        induction l generalizing h₄ with
        | nil => exact a4
        | cons r l ih => exact ih _ (a4.upd _ _ (a4 r))
      · intro ev hev
        rcases List.mem_append.mp hev with hev | hev
        · obtain ⟨r, -, hr⟩ := List.mem_flatMap.mp hev
          unfold directEvs at hr
          rcases List.mem_append.mp hr with hr | hr
          · rcases List.mem_append.mp hr with hr | hr
            · exact (evs_isNeg _ r [] []).1 ev hr
            · unfold negEvs at hr
              split at hr
              · rename_i hx
                exfalso
                rw [List.any_eq_true] at hx
                obtain ⟨⟨l, k⟩, h1, h2⟩ := hx
                simp only [decide_eq_true_eq] at h2
                subst h2
                obtain ⟨p, k', h3⟩ := hlab _ (((buildTree_inv hb).mem_children _ _ _).mp h1)
                exact hn p k' h3
              · cases hr
          · exact (evs_isNeg _ r [] []).2.1 ev hr
        · obtain ⟨r, -, hr⟩ := List.mem_flatMap.mp hev
          exact (evs_isNeg _ r _ _).2.2 ev hr
    cases chunk with
    | false =>
      simp only [Bool.false_eq_true, if_false] at e
      split at e
      · cases e
      rename_i h₄ e4
      split at e
      · cases e
      rename_i h₅ e5
      split at e
      · cases e
      rename_i ts' e6
      cases e
      exact ⟨last _ a2 _ e4 _ e5, e6⟩
    | true =>
      simp only [if_true] at e
      split at e
      · cases e
      rename_i h₃ e3
      have a3 : AllAff h₃ := by
        unfold chunker at e3
        refine foldlM_keeps AllAff _ (by
          intro h r h' H e
          simp only [bind, Except.bind] at e
          split at e
          · cases e
          cases e
          exact H.upd _ _ (H r)) _ _ _ a2 e3
      split at e
      · cases e
      rename_i h₄ e4
      split at e
      · cases e
      rename_i h₅ e5
      split at e
      · cases e
      rename_i ts' e6
      cases e
      exact ⟨last _ a3 _ e4 _ e5, e6⟩

end Model
