import Verif.Model.Chunker
import Verif.Lemmas.Tree
import Verif.Lemmas.Mutables
import Verif.Spec.Nodes

/-! Lemmas on noun chunks and tag fixing. -/

namespace Model
open Py Spec

theorem get?_appendToDictList {κ ι} [DecidableEq κ] (d : Dict κ (List ι)) (k k' : κ) (x : ι) :
    (Dict.get? (appendToDictList d k x) k').getD [] = (d.get? k').getD [] ++ if k = k' then [x] else [] := by
  unfold appendToDictList
  cases h : d.get? k with
  | none =>
    simp only [Dict.get?_set]
    by_cases e : k = k'
    · subst e; simp [h]
    · simp [e]
  | some l =>
    simp only [Dict.get?_set]
    by_cases e : k = k'
    · subst e; simp [h]
    · simp [e]

theorem mem_keys_appendToDictList {κ ι} [DecidableEq κ] (d : Dict κ (List ι)) (k k' : κ) (x : ι) :
    k' ∈ Dict.keys (appendToDictList d k x) ↔ k' = k ∨ k' ∈ d.keys := by
  unfold appendToDictList
  split <;> exact Dict.mem_keys_set _ _ _ _

section
variable {h : Heap} {t : Tree Dep Ref} {nodes : List Ref}

theorem compounds_fold (l : List Ref) (cn : Dict Ref (List Ref)) (hp : List Ref) :
    (∀ p, ((l.foldl (compoundStep h t) (cn, hp)).1.get? p).getD [] =
        (cn.get? p).getD [] ++ l.filter fun c => compoundParent h t c = some p) ∧
    (∀ p, p ∈ (l.foldl (compoundStep h t) (cn, hp)).1.keys ↔ p ∈ cn.keys ∨ ∃ c ∈ l, compoundParent h t c = some p) ∧
    (l.foldl (compoundStep h t) (cn, hp)).2 = hp ++ l.filter fun c => (compoundParent h t c).isSome := by
  induction l generalizing cn hp with
  | nil => simp
  | cons c l ih =>
    simp only [List.foldl_cons, compoundStep]
    cases hc : compoundParent h t c with
    | none =>
      obtain ⟨h1, h2, h3⟩ := ih cn hp
      refine ⟨?_, ?_, ?_⟩
      · intro p; rw [h1]; simp [hc]
      · intro p; rw [h2]; simp [hc]
      · rw [h3]; simp [hc]
    | some q =>
      obtain ⟨h1, h2, h3⟩ := ih (appendToDictList cn q c) (hp ++ [c])
      refine ⟨?_, ?_, ?_⟩
      · intro p
        rw [h1, get?_appendToDictList]
        by_cases e : q = p
        · simp [hc, e]
        · simp [hc, e]
      · intro p
        rw [h2, mem_keys_appendToDictList]
        simp only [List.mem_cons, exists_eq_or_imp, hc, Option.some.injEq]
        constructor
        · rintro ((rfl | h) | h)
          · exact Or.inr (Or.inl rfl)
          · exact Or.inl h
          · exact Or.inr (Or.inr h)
        · rintro (h | rfl | h)
          · exact Or.inl (Or.inr h)
          · exact Or.inl (Or.inl rfl)
          · exact Or.inr h
      · rw [h3]; simp [hc]

theorem compounds_spec :
    (∀ p, ((compounds h t nodes).1.get? p).getD [] =
      (nodes.filter fun r => (h.node r).tag ∈ nounTags).filter fun c => compoundParent h t c = some p) ∧
    (∀ p, p ∈ (compounds h t nodes).1.keys ↔
      ∃ c ∈ nodes.filter fun r => (h.node r).tag ∈ nounTags, compoundParent h t c = some p) ∧
    (compounds h t nodes).2 =
      (nodes.filter fun r => (h.node r).tag ∈ nounTags).filter fun c => (compoundParent h t c).isSome := by
  obtain ⟨h1, h2, h3⟩ := compounds_fold (h := h) (t := t) (nodes.filter fun r => (h.node r).tag ∈ nounTags) [] []
  refine ⟨?_, ?_, ?_⟩
  · intro p; unfold compounds; rw [h1]; simp [Dict.get?]
  · intro p; unfold compounds; rw [h2]; simp [Dict.keys]
  · unfold compounds; rw [h3]; simp

theorem chunkRec_mem (cn : Dict Ref (List Ref)) :
    ∀ (fuel : Nat) (n : Ref) (out : List Ref), chunkRec cn fuel n = some out → ∀ x,
      x ∈ out ↔ Relation.TransGen (fun a b => b ∈ (cn.get? a).getD []) n x
  | 0, _, _, h => by simp [chunkRec] at h
  | fuel + 1, n, out, h => by
    intro x
    unfold chunkRec at h
    obtain ⟨h1, h2⟩ := foldlM_descend (chunkRec cn fuel) _ _ _ h
    simp only [List.nil_append] at h2
    rw [h2, List.mem_flatMap]
    constructor
    · rintro ⟨c, hc, hx⟩
      obtain ⟨r, hr⟩ := Option.isSome_iff_exists.mp (h1 c hc)
      rw [hr] at hx
      rcases List.mem_cons.mp hx with rfl | hx
      · exact Relation.TransGen.single hc
      · exact Relation.TransGen.head hc ((chunkRec_mem cn fuel c r hr x).mp hx)
    · intro hx
      obtain ⟨c, hc, hx⟩ := Relation.TransGen.head'_iff.mp hx
      rcases Relation.reflTransGen_iff_eq_or_transGen.mp hx with rfl | hx
      · exact ⟨x, hc, by simp⟩
      · obtain ⟨r, hr⟩ := Option.isSome_iff_exists.mp (h1 c hc)
        refine ⟨c, hc, ?_⟩
        rw [hr]
        exact List.mem_cons_of_mem _ ((chunkRec_mem cn fuel c r hr x).mpr hx)

/-- The walk ends when children have a lower rank. -/
theorem chunkRec_isSome (cn : Dict Ref (List Ref)) (rank : Ref → Nat)
    (hr : ∀ p c, c ∈ (cn.get? p).getD [] → rank c < rank p) :
    ∀ (fuel : Nat) (n : Ref), (cn.keys.filter fun k => rank k ≤ rank n).length < fuel → (chunkRec cn fuel n).isSome
  | 0, _, h => by omega
  | fuel + 1, n, h => by
    unfold chunkRec
    apply foldlM_option_isSome
    intro acc c hc
    rw [Option.isSome_map]
    apply chunkRec_isSome cn rank hr fuel c
    have hlt := hr n c hc
    have hn : n ∈ cn.keys := by
      rw [← Dict.get?_isSome_iff]
      cases hg : cn.get? n with
      | none => rw [hg] at hc; simp at hc
      | some l => rfl
    have : (cn.keys.filter fun k => rank k ≤ rank c).length < (cn.keys.filter fun k => rank k ≤ rank n).length := by
      have hsub : (cn.keys.filter fun k => rank k ≤ rank c) =
          ((cn.keys.filter fun k => rank k ≤ rank n).filter fun k => decide (rank k ≤ rank c)) := by
        rw [List.filter_filter]
        apply List.filter_congr
        intro k _
        by_cases e : rank k ≤ rank c
        · have : rank k ≤ rank n := by omega
          simp [e, this]
        · simp [e]
      rw [hsub]
      apply List.length_filter_lt_length_iff_exists.mpr
      refine ⟨n, List.mem_filter.mpr ⟨hn, by simp⟩, ?_⟩
      simpa using hlt
    omega

theorem chunkRec_nodup (cn : Dict Ref (List Ref)) (rank : Ref → Nat)
    (hr : ∀ p c, c ∈ (cn.get? p).getD [] → rank c < rank p)
    (hnd : ∀ p, ((cn.get? p).getD []).Nodup)
    (hu : ∀ p q c, c ∈ (cn.get? p).getD [] → c ∈ (cn.get? q).getD [] → p = q) :
    ∀ (fuel : Nat) (n : Ref) (out : List Ref), chunkRec cn fuel n = some out → out.Nodup
  | 0, _, _, h => by simp [chunkRec] at h
  | fuel + 1, n, out, h => by
    unfold chunkRec at h
    obtain ⟨h1, h2⟩ := foldlM_descend (chunkRec cn fuel) _ _ _ h
    simp only [List.nil_append] at h2
    have hrank : ∀ a b, Relation.TransGen (fun a b => b ∈ (cn.get? a).getD []) a b → rank b < rank a := by
      intro a b hab
      induction hab with
      | single h => exact hr _ _ h
      | tail _ h ih => exact Nat.lt_trans (hr _ _ h) ih
    have hmem : ∀ c ∈ (cn.get? n).getD [], ∀ x, x ∈ c :: (chunkRec cn fuel c).getD [] ↔
        Relation.ReflTransGen (fun a b => b ∈ (cn.get? a).getD []) c x := by
      intro c hc x
      obtain ⟨r, hr'⟩ := Option.isSome_iff_exists.mp (h1 c hc)
      rw [hr', List.mem_cons, Relation.reflTransGen_iff_eq_or_transGen]
      simp only [Option.getD_some]
      rw [chunkRec_mem cn fuel c r hr']
    rw [h2, List.nodup_flatMap]
    refine ⟨?_, ?_⟩
    · intro c hc
      obtain ⟨r, hr'⟩ := Option.isSome_iff_exists.mp (h1 c hc)
      rw [hr']
      refine List.nodup_cons.mpr ⟨?_, chunkRec_nodup cn rank hr hnd hu fuel c r hr'⟩
      intro hm
      exact absurd (hrank _ _ ((chunkRec_mem cn fuel c r hr' c).mp hm)) (Nat.lt_irrefl _)
    · have hpw := hnd n
      rw [List.nodup_iff_pairwise_ne] at hpw
      refine List.Pairwise.imp_of_mem ?_ hpw
      intro c d hc hd hne x hx hy
      rw [hmem c hc] at hx
      rw [hmem d hd] at hy
      -- both above x, hence comparable
      have key : ∀ c d, c ∈ (cn.get? n).getD [] → d ∈ (cn.get? n).getD [] → c ≠ d →
          ¬ Relation.ReflTransGen (fun a b => b ∈ (cn.get? a).getD []) c d := by
        intro c d hc hd hne hcd
        rcases Relation.reflTransGen_iff_eq_or_transGen.mp hcd with e | e
        · exact hne e.symm
        · obtain ⟨m, h3, h4⟩ := Relation.TransGen.tail'_iff.mp e
          have := hu _ _ _ h4 hd
          subst this
          rcases Relation.reflTransGen_iff_eq_or_transGen.mp h3 with e | e
          · subst e; exact absurd (hr _ _ hc) (Nat.lt_irrefl _)
          · exact absurd (Nat.lt_trans (hrank _ _ e) (hr _ _ hc)) (Nat.lt_irrefl _)
      have U : Relator.RightUnique (Function.swap fun a b => b ∈ (cn.get? a).getD []) := by
        intro a b c h1 h2
        exact hu _ _ _ h1 h2
      rcases Relation.ReflTransGen.total_of_right_unique U (Relation.reflTransGen_swap.mpr hx)
        (Relation.reflTransGen_swap.mpr hy) with e | e
      · exact key d c hd hc (Ne.symm hne) (Relation.reflTransGen_swap.mp e)
      · exact key c d hc hd hne (Relation.reflTransGen_swap.mp e)

/-- Sorted by rank, a strict maximum comes last. -/
theorem getLast?_insertionSort {α} (rank : α → Nat) (l : List α) (r : α) (hr : r ∈ l)
    (h : ∀ x ∈ l, x ≠ r → rank x < rank r) :
    (l.insertionSort fun a b => rank a ≤ rank b).getLast? = some r := by
  set m := l.insertionSort fun a b => rank a ≤ rank b with hm
  have hpw : m.Pairwise fun a b => rank a ≤ rank b := by
    haveI : Std.Total (fun a b : α => rank a ≤ rank b) := ⟨fun a b => Nat.le_total _ _⟩
    haveI : IsTrans α (fun a b : α => rank a ≤ rank b) := ⟨fun a b c => Nat.le_trans⟩
    exact List.pairwise_insertionSort _ _
  have hmem : ∀ x, x ∈ m ↔ x ∈ l := fun x => List.mem_insertionSort _
  have hne : m ≠ [] := List.ne_nil_of_mem ((hmem r).mpr hr)
  rw [List.getLast?_eq_some_getLast hne]
  congr 1
  by_contra e
  have hlast := h _ ((hmem _).mp (List.getLast_mem hne)) e
  have hsplit := List.dropLast_append_getLast hne
  have hrm := (hmem r).mpr hr
  rw [← hsplit] at hpw hrm
  rcases List.mem_append.mp hrm with h1 | h1
  · have := (List.pairwise_append.mp hpw).2.2 r h1 (m.getLast hne) (by simp)
    omega
  · simp only [List.mem_singleton] at h1
    exact e h1.symm

theorem compoundParent_iff (hist : List (Dep × Ref × Ref)) (root : Ref) (hb : buildTree root hist = .ok t) (c p : Ref) :
    (c ∈ nodes.filter fun r => (h.node r).tag ∈ nounTags) ∧ compoundParent h t c = some p ↔ Compound h t nodes c p := by
  have inv := buildTree_inv hb
  have hmark : t.hasChildViaSet c markerDeps = false ↔
      ∀ l x, (l, x) ∈ t.children c → l ≠ .MARK ∧ l ≠ .CMARK ∧ l ≠ .IMARK := by
    have hq : t.hasChildViaSet c markerDeps = true ↔ ∃ l' ∈ markerDeps, ∃ x, x ∈ t.childrenVia c l' :=
      hasChildViaSet_iff hb c markerDeps
    rw [← Bool.not_eq_true, hq]
    simp only [inv.childrenVia, mem_labelled, inv.mem_children]
    constructor
    · intro hn l x hx
      refine ⟨?_, ?_, ?_⟩ <;> (rintro rfl; exact hn ⟨_, by simp [markerDeps], x, hx⟩)
    · rintro hn ⟨l, hl, x, hx⟩
      have := hn l x hx
      simp only [markerDeps, List.mem_cons, List.not_mem_nil, or_false] at hl
      rcases hl with rfl | rfl | rfl
      · exact this.1 rfl
      · exact this.2.1 rfl
      · exact this.2.2 rfl
  simp only [List.mem_filter, decide_eq_true_eq]
  constructor
  · rintro ⟨⟨h1, h2⟩, h3⟩
    unfold compoundParent at h3
    split at h3
    · cases h3
    · rename_i dep q hp
      split at h3
      · rename_i hc
        cases h3
        obtain ⟨rfl, h4, h5, h6⟩ := hc
        exact ⟨h1, h2, h6, hp, hmark.mp h4, h5⟩
      · cases h3
  · rintro ⟨h1, h2, h3, h4, h5, h6⟩
    refine ⟨⟨h1, h2⟩, ?_⟩
    unfold compoundParent
    rw [h4]
    simp only
    rw [if_pos ⟨trivial, hmark.mpr h5, h6, h3⟩]

/-- Nodes agree but for the chunk. -/
def SameButChunk (a b : Node) : Prop := ∃ x, b = { a with chunk := x }

theorem chunkOf_spec (hist : List (Dep × Ref × Ref)) (root : Ref) (hb : buildTree root hist = .ok t) (hnd : nodes.Nodup)
    (h' : Heap) (hsame : ∀ r, SameButChunk (h.node r) (h'.node r)) (r : Ref) :
    ∃ ns s, chunkOf h' (compounds h t nodes).1 r = .ok s ∧ ChunkNouns h t nodes r ns ∧
      s = join c!" " (ns.map fun n => (h.node n).lem) := by
  obtain ⟨h1, h2, h3⟩ := compounds_spec (h := h) (t := t) (nodes := nodes)
  set cn := (compounds h t nodes).1 with hcn
  have hchild : ∀ p c, c ∈ (cn.get? p).getD [] ↔ Compound h t nodes c p := by
    intro p c
    rw [h1, List.mem_filter, decide_eq_true_eq]
    exact compoundParent_iff hist root hb c p
  have hrank : ∀ p c, c ∈ (cn.get? p).getD [] → (h.node c).idx < (h.node p).idx :=
    fun p c hc => ((hchild p c).mp hc).before
  have hsome := chunkRec_isSome cn (fun x => (h.node x).idx) hrank (cn.keys.length + 1) r
    (Nat.lt_succ_of_le (List.length_filter_le _ _))
  obtain ⟨l, hl⟩ := Option.isSome_iff_exists.mp hsome
  have hmem := chunkRec_mem cn _ r l hl
  have hnod := chunkRec_nodup cn (fun x => (h.node x).idx) hrank
    (fun p => by rw [h1]; exact (hnd.filter _).filter _)
    (fun p q c hp hq => by
      have e1 := ((hchild p c).mp hp).arc
      have e2 := ((hchild q c).mp hq).arc
      rw [e1] at e2; cases e2; rfl) _ r l hl
  have hgen : ∀ n, n ∈ l ↔ Relation.TransGen (Compound h t nodes) n r := by
    intro n
    rw [hmem, ← Relation.transGen_swap]
    have : (Function.swap fun a b => b ∈ (cn.get? a).getD []) = Compound h t nodes := by
      funext a b
      exact propext (hchild b a)
    rw [this]
  have hlow : ∀ n, Relation.TransGen (Compound h t nodes) n r → (h.node n).idx < (h.node r).idx := by
    intro n hn
    clear hgen hmem hl hsome
    induction hn with
    | single hx => exact hx.before
    | tail _ hx ih => exact Nat.lt_trans ih hx.before
  have hrl : r ∉ l := fun hm => absurd (hlow r ((hgen r).mp hm)) (Nat.lt_irrefl _)
  have hidx : ∀ x, (h'.node x).idx = (h.node x).idx := by
    intro x; obtain ⟨y, hy⟩ := hsame x; rw [hy]
  have hlem : ∀ x, (h'.node x).lem = (h.node x).lem := by
    intro x; obtain ⟨y, hy⟩ := hsame x; rw [hy]
  refine ⟨(r :: l).insertionSort fun a b => (h.node a).idx ≤ (h.node b).idx, _, ?_, ⟨?_, ?_, ?_, ?_⟩, rfl⟩
  · simp only [chunkOf, hl, hidx, hlem]
  · intro n
    rw [List.mem_insertionSort, List.mem_cons, hgen]
  · exact (List.perm_insertionSort _ _).nodup_iff.mpr (List.nodup_cons.mpr ⟨hrl, hnod⟩)
  · haveI : Std.Total (fun a b : Ref => (h.node a).idx ≤ (h.node b).idx) := ⟨fun a b => Nat.le_total _ _⟩
    haveI : IsTrans Ref (fun a b : Ref => (h.node a).idx ≤ (h.node b).idx) := ⟨fun a b c => Nat.le_trans⟩
    exact List.pairwise_insertionSort _ _
  · apply getLast?_insertionSort (fun x => (h.node x).idx) (r :: l) r (by simp)
    intro x hx hne
    rcases List.mem_cons.mp hx with rfl | hx
    · exact absurd rfl hne
    · exact hlow x ((hgen x).mp hx)

/-- The loop that sets the chunks. -/
theorem chunk_loop (cn : Dict Ref (List Ref)) (f : Ref → Str)
    (hf : ∀ h', (∀ r, SameButChunk (h.node r) (h'.node r)) → ∀ r, chunkOf h' cn r = .ok (f r)) (l : List Ref) :
    ∀ h₀, (∀ r, SameButChunk (h.node r) (h₀.node r)) →
      ∃ h', l.foldlM (fun h r => do
        let s ← chunkOf h cn r
        return h.upd r fun n => { n with chunk := some s }) h₀ = Except.ok h' ∧
        h'.next = h₀.next ∧
        ∀ r, h'.node r = if r ∈ l then { h.node r with chunk := some (f r) } else h₀.node r := by
  induction l with
  | nil => intro h₀ _; exact ⟨h₀, rfl, rfl, by simp⟩
  | cons x l ih =>
    intro h₀ hs
    have hupd : ∀ r, (h₀.upd x fun n => { n with chunk := some (f x) }).node r =
        if r = x then { h.node r with chunk := some (f x) } else h₀.node r := by
      intro r
      simp only [Heap.upd]
      by_cases e : r = x
      · subst e
        obtain ⟨y, hy⟩ := hs r
        simp [hy]
      · simp [e]
    obtain ⟨h', e1, e2, e3⟩ := ih (h₀.upd x fun n => { n with chunk := some (f x) }) (by
      intro r
      rw [hupd]
      by_cases e : r = x
      · rw [if_pos e]; exact ⟨_, rfl⟩
      · rw [if_neg e]; exact hs r)
    refine ⟨h', ?_, e2, ?_⟩
    · rw [List.foldlM_cons, hf h₀ hs x]
      exact e1
    · intro r
      rw [e3, hupd]
      by_cases e : r = x
      · subst e; simp
      · simp [e]

theorem heap_ext {a b : Heap} (h1 : a.next = b.next) (h2 : ∀ r, a.node r = b.node r) : a = b := by
  cases a; cases b
  simp only at h1 h2
  subst h1
  have := funext h2
  subst this
  rfl

theorem fixTag_congr (adjs nouns : List Str) (hist : List (Dep × Ref × Ref)) (root : Ref) (hb : buildTree root hist = .ok t)
    (h' : Heap) (r : Ref) (hr : h'.node r = h.node r)
    (hsame : ∀ x, t.children x ≠ [] → (h'.node x).tag = (h.node x).tag) :
    fixTag adjs nouns h' t r = fixTag adjs nouns h t r := by
  unfold fixTag
  simp only [hr]
  split
  · cases hp : t.parent r with
    | none => rfl
    | some q =>
      obtain ⟨d, p⟩ := q
      have inv := buildTree_inv hb
      have : t.children p ≠ [] := by
        rw [inv.parent] at hp
        exact List.ne_nil_of_mem ((inv.mem_children _ _ _).mpr (lastParent_mem hp))
      simp only [hsame p this]
  · rfl

theorem fixTag_of_children (adjs nouns : List Str) (r : Ref) (hc : t.children r ≠ []) :
    fixTag adjs nouns h t r = (h.node r).tag := by
  unfold fixTag
  simp only
  rw [if_neg hc]

theorem fixAll_spec (adjs nouns : List Str) (hist : List (Dep × Ref × Ref)) (root : Ref)
    (hb : buildTree root hist = .ok t) (nodes : List Ref) (hnd : nodes.Nodup) (h : Heap) :
    (fixAll adjs nouns t h nodes).next = h.next ∧
    ∀ r, (fixAll adjs nouns t h nodes).node r =
      if r ∈ nodes then { h.node r with tag := fixTag adjs nouns h t r } else h.node r := by
  induction nodes generalizing h with
  | nil => exact ⟨rfl, by simp [fixAll]⟩
  | cons x l ih =>
    obtain ⟨hx, hl⟩ := List.nodup_cons.mp hnd
    obtain ⟨h1, h2⟩ := ih hl (fixNode adjs nouns t h x)
    have hn : ∀ r, (fixNode adjs nouns t h x).node r =
        if r = x then { h.node r with tag := fixTag adjs nouns h t r } else h.node r := by
      intro r
      simp only [fixNode, Heap.upd]
      by_cases e : r = x
      · subst e; simp
      · simp [e]
    refine ⟨h1, ?_⟩
    intro r
    have : fixAll adjs nouns t h (x :: l) = fixAll adjs nouns t (fixNode adjs nouns t h x) l := rfl
    rw [this, h2]
    by_cases e : r = x
    · subst e
      simp [hx, hn]
    · have hr : (fixNode adjs nouns t h x).node r = h.node r := by rw [hn, if_neg e]
      by_cases hm : r ∈ l
      · rw [if_pos hm, if_pos (List.mem_cons_of_mem _ hm), hr]
        rw [fixTag_congr adjs nouns hist root hb _ r hr]
        intro y hy
        rw [hn]
        by_cases ey : y = x
        · rw [if_pos ey]
          exact fixTag_of_children adjs nouns y hy
        · rw [if_neg ey]
      · rw [if_neg hm, if_neg (by simp [e, hm]), hr]

end
end Model
