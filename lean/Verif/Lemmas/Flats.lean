import Verif.Lemmas.Nodifier
import Verif.Lemmas.Ngrams
import Verif.Spec.Flats

/-! Lemmas on flat expressions. -/

namespace Model
open Py Spec

theorem IdxTree.arc {t : Tree Dep Nat} {arcs : List Arc} {n : Nat} (H : IdxTree t n arcs) {i p : Nat} {d : Dep} (h : t.parent i = some (d, p)) :
    (d, i) ∈ t.children p := by
  rw [H.inv.parent] at h
  exact (H.inv.mem_children p i d).mpr (lastParent_mem h)

theorem upChain_flat {t : Tree Dep Nat} {n : Nat} {arcs : List Arc} (H : IdxTree t n arcs) {i : Nat} {l : List Nat}
    (h : UpChain t.parent .FLAT i l) : ∀ {up : List Nat} {k : Nat}, l = up ++ [k] →
      Relation.ReflTransGen (fun a b => (Dep.FLAT, b) ∈ t.children a) k i := by
  induction h with
  | stop h => intro up k e; simp at e
  | @step i p ps hp h ih =>
    intro up k e
    have ha : (Dep.FLAT, i) ∈ t.children p := H.arc hp
    cases up with
    | nil =>
      simp only [List.nil_append, List.cons.injEq] at e
      rw [← e.1]
      exact .single ha
    | cons x up =>
      simp only [List.cons_append, List.cons.injEq] at e
      exact (ih e.2).tail ha

section
variable {t : Tree Dep Nat} {arcs : List Arc} {lower : Str → Str} {tokens : List Str} {tags : List Tag}

/-- Entries of the working dictionary after a new node was put. -/
theorem NodInv.mem_put {s : Nodif} (h : NodInv t arcs lower tokens tags s) {key k : Nat} {n : Node} {r : Ref}
    (hm : (k, r) ∈ (s.put key n).dict) :
    (k = key ∧ (s.put key n).heap.node r = n) ∨ ((k, r) ∈ s.dict ∧ (s.put key n).heap.node r = s.heap.node r) := by
  simp only [Nodif.put, Heap.alloc] at hm ⊢
  rw [Dict.mem_set h.wf] at hm
  rcases hm with ⟨rfl, rfl⟩ | ⟨-, hm⟩
  · exact Or.inl ⟨rfl, by simp⟩
  · have hr : r ≠ s.heap.next := Nat.ne_of_lt (h.fresh k r hm)
    exact Or.inr ⟨hm, by simp [hr]⟩

/-- The tokens of a chain that ends in a childless token are black listed. -/
theorem flattenStep_bl (H : IdxTree t tokens.length arcs) {s s' : Nodif} {tok : Str × Nat}
    (e : flattenStep lower tokens tags t s tok = .ok s') (hc : t.children tok.2 = []) {path : List Nat} (hne : path ≠ [])
    (hp : UpChain t.parent .FLAT tok.2 path) : tok.2 ∈ s'.bl ∧ ∀ j ∈ path, j ∈ s'.bl := by
  obtain ⟨q, hq⟩ := upChain_step hp hne
  obtain ⟨path', h1, h2, -⟩ := H.ancestors tok.2
  have hpp := upChain_unique hp h2
  unfold flattenStep at e
  rw [if_pos hc, hq] at e
  simp only [if_true, h1, bind, Except.bind] at e
  split at e
  · cases e
  split at e
  · cases e
  split at e
  · cases e
  cases e
  refine ⟨by simp, fun j hj => ?_⟩
  have hj' : j ∈ path' := by simpa [hpp] using hj
  simp [hj']

theorem particleStep_bl {s s' : Nodif} {b : Str × Nat} (e : particleStep lower tokens tags t s b = .ok s') {i : Nat}
    (hi : (.PART, i) ∈ t.children b.2) : i ∈ s'.bl := by
  have hp : i ∈ ((t.children b.2).filter fun c => c.1 = .PART).map Prod.snd :=
    List.mem_map.mpr ⟨_, List.mem_filter.mpr ⟨hi, by simp⟩, rfl⟩
  unfold particleStep at e
  simp only [bind, Except.bind] at e
  split at e
  · rename_i hn; rw [hn] at hp; cases hp
  split at e
  · cases e
  split at e
  · cases e
  cases e
  exact List.mem_append_right _ hp

/-- Only verbs and adjectives with particles and tokens that are not black listed get a node of their own after the flat
expressions. -/
theorem nodify_runs (H : IdxTree t tokens.length arcs) (hl : tags.length = tokens.length)
    (hrp : ∀ a ∈ arcs, a.2.2 ≠ t.root) (hrc : ∃ a ∈ arcs, a.2.1 = t.root) :
    ∃ s nt dict, (nodify lower tokens tags (some t) = .ok (s.heap, dict, some nt) ∧
      NodInv t arcs lower tokens tags s ∧ (∀ i < tokens.length, i ∈ s.bl ∨ i ∈ s.dict.keys) ∧
      (∀ i < tokens.length, t.hasNode i = false → i ∈ s.bl) ∧
      (t.root, nt.root) ∈ s.dict ∧ buildTree nt.root (nodeArcs t s.dict) = .ok nt ∧
      dict.Wf ∧
      ∀ i r, (i, r) ∈ dict ↔ (∃ k, (k, r) ∈ s.dict) ∧ (s.heap.node r).idx = i ∧
        nt.hasParentViaSet r functionalDeps = false) ∧
      (∀ p x, (.PART, x) ∈ t.children p → x ∈ s.bl) ∧
      ∀ z path, t.children z = [] → z < tokens.length → path ≠ [] → UpChain t.parent .FLAT z path → ∀ k, k = z ∨ k ∈ path →
        (∀ x, (.PART, x) ∉ t.children k) → ∀ r, (k, r) ∈ s.dict → (s.heap.node r).idx ≠ k := by
  obtain ⟨s, nt, dict, h0, ⟨s₁, s₂, e1, e2, e3⟩, -⟩ := nodify_full (lower := lower) H hl hrp hrc
  refine ⟨s, nt, dict, h0, ?_⟩
  set s₀ : Nodif := { heap := Heap.empty, dict := [], bl := nodepIdxs tokens t } with hs₀
  have inv₀ : NodInv t arcs lower tokens tags s₀ := by
    refine ⟨Dict.Wf.nil, by simp [hs₀, Dict.values], by simp [hs₀], by simp [hs₀], ?_⟩
    intro i hi
    left
    rw [← H.hasNode]
    simp only [hs₀, nodepIdxs, List.mem_filter, Bool.not_eq_true'] at hi
    rw [hi.2]
    simp
  have hz : ∀ i < tokens.length, ∃ b ∈ tokens.zipIdx, b.2 = i := by
    intro i hi
    refine ⟨(tokens[i], i), ?_, rfl⟩
    rw [List.mem_zipIdx_iff_getElem?]
    exact List.getElem?_eq_getElem hi
  obtain ⟨s₁', e1', ⟨inv₁, hno₁⟩, hbl₁, -⟩ := foldlM_inv_each (flattenStep lower tokens tags t)
    (fun s => NodInv t arcs lower tokens tags s ∧ ∀ k r, (k, r) ∈ s.dict → (s.heap.node r).idx ≠ k)
    (fun b s => t.children b.2 = [] → ∀ path, path ≠ [] → UpChain t.parent .FLAT b.2 path → b.2 ∈ s.bl ∧ ∀ j ∈ path, j ∈ s.bl)
    tokens.zipIdx (by
      intro s b hb h
      obtain ⟨s', e, h3⟩ := flattenStep_inv H hl s b hb h
      refine ⟨s', e, h3, fun hc path hne hp => flattenStep_bl H e hc hne hp, fun b' hq hc path hne hp => ?_⟩
      obtain ⟨q1, q2⟩ := hq hc path hne hp
      exact ⟨bl_mono_flatten e _ q1, fun j hj => bl_mono_flatten e _ (q2 j hj)⟩)
    s₀ ⟨inv₀, by simp [hs₀]⟩
  rw [e1] at e1'
  cases e1'
  have hpartInv : ∀ s : Nodif, ∀ b ∈ tokens.zipIdx, ((NodInv t arcs lower tokens tags s ∧ KeyHasChild t s) ∧
        (∀ i ∈ s₁.bl, i ∈ s.bl) ∧ ∀ k r, (k, r) ∈ s.dict → (s.heap.node r).idx = k → ∃ x, (Dep.PART, x) ∈ t.children k) →
      ∃ s', particleStep lower tokens tags t s b = .ok s' ∧ ((NodInv t arcs lower tokens tags s' ∧ KeyHasChild t s') ∧
        (∀ i ∈ s₁.bl, i ∈ s'.bl) ∧ ∀ k r, (k, r) ∈ s'.dict → (s'.heap.node r).idx = k → ∃ x, (Dep.PART, x) ∈ t.children k) := by
    rintro s b hb ⟨h1, h2, h3⟩
    obtain ⟨s', e, h4, -⟩ := particleStep_inv H hl s b hb h1
    refine ⟨s', e, h4, fun i hi => bl_mono_particle e i (h2 i hi), ?_⟩
    intro k r hm hk
    unfold particleStep at e
    simp only [bind, Except.bind] at e
    split at e
    · cases e; exact h3 k r hm hk
    rename_i hparts
    split at e
    · cases e
    split at e
    · cases e
    cases e
    rcases h1.1.mem_put hm with ⟨rfl, -⟩ | ⟨q1, q2⟩
    · obtain ⟨x, hx⟩ := List.exists_mem_of_ne_nil _ hparts
      simp only [List.mem_map, List.mem_filter, decide_eq_true_eq, Prod.exists] at hx
      obtain ⟨d, y, ⟨hy, rfl⟩, rfl⟩ := hx
      exact ⟨_, hy⟩
    · exact h3 k r q1 (by rw [← q2]; exact hk)
  obtain ⟨s₂', e2', ⟨⟨inv₂, -⟩, hb₂, hno₂⟩, hp₂, -⟩ := foldlM_inv_each (particleStep lower tokens tags t)
      (fun s => (NodInv t arcs lower tokens tags s ∧ KeyHasChild t s) ∧
        (∀ i ∈ s₁.bl, i ∈ s.bl) ∧ ∀ k r, (k, r) ∈ s.dict → (s.heap.node r).idx = k → ∃ x, (Dep.PART, x) ∈ t.children k)
      (fun b s => ((∃ i, (Dep.PART, i) ∈ t.children b.2) → b.2 ∈ s.dict.keys) ∧ ∀ i, (Dep.PART, i) ∈ t.children b.2 → i ∈ s.bl)
      tokens.zipIdx
      (by
        intro s b hb h
        obtain ⟨s', e, h3⟩ := hpartInv s b hb h
        obtain ⟨s'', e', -, h4, h5⟩ := particleStep_inv H hl s b hb h.1
        rw [e] at e'
        cases e'
        exact ⟨s', e, h3, ⟨h4, fun i hi => particleStep_bl e hi⟩, fun b' hq =>
          ⟨h5 b' hq.1, fun i hi => bl_mono_particle e i (hq.2 i hi)⟩⟩)
      s₁ ⟨⟨inv₁, fun k r hkr e => absurd e (hno₁ k r hkr)⟩, fun _ h => h, fun k r hkr e => absurd e (hno₁ k r hkr)⟩
  rw [e2] at e2'
  cases e2'
  obtain ⟨s₃', e3', ⟨⟨-, hbl₃, -⟩, hno₃⟩⟩ := foldlM_inv (remainingStep lower tags)
      (fun s => (NodInv t arcs lower tokens tags s ∧ s.bl = s₂.bl ∧
        ∀ i < tokens.length, (∃ c, (Dep.PART, c) ∈ t.children i) → i ∈ s.dict.keys) ∧
        ∀ k r, (k, r) ∈ s.dict → (s.heap.node r).idx = k → (∃ x, (Dep.PART, x) ∈ t.children k) ∨ k ∉ s₁.bl) tokens.zipIdx
      (by
        rintro s b hb ⟨h1, h2⟩
        obtain ⟨s', e, h3, -⟩ := remainingStep_inv hl s₂.bl s b hb h1
        refine ⟨s', e, h3, ?_⟩
        intro k r hm hk
        unfold remainingStep at e
        simp only [bind, Except.bind] at e
        split at e
        swap
        · cases e; exact h2 k r hm hk
        rename_i hcond
        split at e
        · cases e
        cases e
        rcases h1.1.mem_put hm with ⟨rfl, -⟩ | ⟨q1, q2⟩
        · refine Or.inr fun hk => hcond.2 ?_
          rw [h1.2.1]
          exact hb₂ _ hk
        · exact h2 k r q1 (by rw [← q2]; exact hk))
      s₂ ⟨⟨inv₂, rfl, by
        intro i hi hc
        obtain ⟨b, hb, rfl⟩ := hz i hi
        exact (hp₂ b hb).1 hc⟩, fun k r hm hk => Or.inl (hno₂ k r hm hk)⟩
  rw [e3] at e3'
  cases e3'
  refine ⟨fun p x hx => ?_, ?_⟩
  · obtain ⟨b, hb, rfl⟩ := hz p (H.lt _ ((H.inv.mem_children _ _ _).mp hx)).1
    rw [hbl₃]
    exact (hp₂ b hb).2 x hx
  intro z path hc hlt hne hp k hk hnp r hr hidx
  obtain ⟨b, hb, rfl⟩ := hz z hlt
  obtain ⟨q1, q2⟩ := hbl₁ b hb hc path hne hp
  rcases hno₃ k r hr hidx with ⟨x, hx⟩ | h
  · exact hnp x hx
  · rcases hk with rfl | hk
    · exact h q1
    · exact h (q2 k hk)

theorem flatRun_parent (H : IdxTree t tokens.length arcs)
    (hlab : ∀ {w p p' : Nat} {d d' : Dep}, (d, w) ∈ t.children p → (d', w) ∈ t.children p' → d = d') {i n : Nat}
    (R : FlatRun t i n) {k : Nat} (h1 : i ≤ k) (h2 : k < i + n) : t.parent (k + 1) = some (.FLAT, k) := by
  have ha : (Dep.FLAT, k + 1) ∈ t.children k := (R.next k h1 h2 _).mpr rfl
  rw [H.inv.parent]
  cases hq : lastParent arcs (k + 1) with
  | none => exact absurd rfl (lastParent_eq_none.mp hq _ ((H.inv.mem_children _ _ _).mp ha))
  | some q =>
    obtain ⟨d, p⟩ := q
    have hb : (d, k + 1) ∈ t.children p := (H.inv.mem_children _ _ _).mpr (lastParent_mem hq)
    have := R.one (k + 1) (by omega) (by omega) d p hb
    have : p = k := by omega
    subst this
    rw [hlab hb ha]

theorem flatRun_chain (H : IdxTree t tokens.length arcs)
    (hlab : ∀ {w p p' : Nat} {d d' : Dep}, (d, w) ∈ t.children p → (d', w) ∈ t.children p' → d = d') {i n : Nat}
    (R : FlatRun t i n) : ∀ {m : Nat}, m ≤ n → UpChain t.parent .FLAT (i + m) (List.range' i m).reverse := by
  intro m
  induction m with
  | zero =>
    intro _
    refine .stop fun p hp => ?_
    rw [H.inv.parent] at hp
    exact (R.top _ _ ((H.inv.mem_children _ _ _).mpr (lastParent_mem hp))).1 rfl
  | succ m ih =>
    intro hm
    rw [List.range'_concat, List.reverse_append]
    simp only [List.reverse_singleton, List.singleton_append, Nat.one_mul]
    exact .step (flatRun_parent H hlab R (k := i + m) (by omega) (by omega)) (ih (by omega))

theorem forall₂_range' {tokens : List Str} : ∀ {n i : Nat} {texts : List Str},
    List.Forall₂ (fun (i : Nat) tok => tokens[i]? = some tok) (List.range' i n) texts → texts = (tokens.drop i).take n := by
  intro n
  induction n with
  | zero => intro i texts h; cases h; simp
  | succ n ih =>
    intro i texts h
    rw [List.range'_succ] at h
    cases h with
    | @cons _ tok _ ts h1 h2 =>
      obtain ⟨hlt, e⟩ := List.getElem?_eq_some_iff.mp h1
      rw [List.drop_eq_getElem_cons hlt, List.take_succ_cons, e, ← ih h2]

/-- The node of a flat expression. -/
theorem flatRun_entry (H : IdxTree t tokens.length arcs)
    (hlab : ∀ {w p p' : Nat} {d d' : Dep}, (d, w) ∈ t.children p → (d', w) ∈ t.children p' → d = d') {s : Nodif}
    (inv : NodInv t arcs lower tokens tags s)
    (hflat : ∀ z path, t.children z = [] → z < tokens.length → path ≠ [] → UpChain t.parent .FLAT z path →
      ∀ k, k = z ∨ k ∈ path → (∀ x, (.PART, x) ∉ t.children k) → ∀ r, (k, r) ∈ s.dict → (s.heap.node r).idx ≠ k)
    {i n : Nat} (R : FlatRun t i n) (hn : n ≠ 0) :
    (∀ r, (i, r) ∈ s.dict → (s.heap.node r).idx = i + n ∧
      (s.heap.node r).original = List.intercalate c!" " ((tokens.drop i).take (n + 1)) ∧
      (s.heap.node r).particles = [] ∧ (s.heap.node r).isInfTo = false) ∧
    ∀ k, i < k → k ≤ i + n → ∀ r, (k, r) ∉ s.dict := by
  have hlt : i + n < tokens.length := by
    have h1 := flatRun_parent H hlab R (k := i + (n - 1)) (by omega) (by omega)
    rw [H.inv.parent] at h1
    have := (H.lt _ (lastParent_mem h1)).2
    simp only at this
    omega
  have hch := flatRun_chain H hlab R (Nat.le_refl n)
  have hne : (List.range' i n).reverse ≠ [] := by
    intro e
    have := congrArg List.length e
    simp at this
    exact hn this
  have hidx := hflat (i + n) _ R.leaf hlt hne hch
  constructor
  · intro r hr
    have hi := hidx i (Or.inr (by simp [List.mem_range'_1]; omega)) R.noPart r hr
    rcases (inv.ent i r hr).kind with ⟨e, -⟩ | ⟨-, hc, h3, h4, up, texts, h5, h6, h7⟩
    · exact absurd e hi
    have hdown : ∀ {j}, Relation.ReflTransGen (fun a b => (Dep.FLAT, b) ∈ t.children a) i j → i ≤ j ∧ j ≤ i + n := by
      intro j hj
      induction hj with
      | refl => omega
      | @tail b c _ hb ih =>
        by_cases hlt : b < i + n
        · have := (R.next b ih.1 hlt c).mp hb
          omega
        · have : b = i + n := by omega
          rw [this, R.leaf] at hb
          cases hb
    have hle := hdown (upChain_flat H h5 rfl)
    have hz : (s.heap.node r).idx = i + n := by
      by_contra hne
      have : (Dep.FLAT, (s.heap.node r).idx + 1) ∈ t.children (s.heap.node r).idx :=
        (R.next _ hle.1 (by omega) _).mpr rfl
      rw [hc] at this
      cases this
    rw [hz] at h5 h6
    have e := upChain_unique h5 hch
    have e' : i :: up.reverse ++ [i + n] = List.range' i (n + 1) := by
      have := congrArg List.reverse e
      simp only [List.reverse_append, List.reverse_reverse, List.reverse_singleton, List.singleton_append] at this
      rw [List.range'_concat, this, Nat.one_mul]
    rw [e'] at h6
    refine ⟨hz, ?_, h3, h4⟩
    rw [h7, join_eq_intercalate, forall₂_range' h6]
  · intro k k1 k2 r hr
    have hk : k = i + n ∨ k ∈ (List.range' i n).reverse := by
      by_cases hlt : k < i + n
      · exact Or.inr (by simp [List.mem_range'_1]; omega)
      · exact Or.inl (by omega)
    have hnp : ∀ x, (Dep.PART, x) ∉ t.children k := fun x hx => absurd (R.inner k k1 k2 _ _ hx) (by decide)
    have hi := hidx k hk hnp r hr
    rcases (inv.ent k r hr).kind with ⟨e, -⟩ | ⟨-, hc, h3, h4, up, texts, h5, h6, h7⟩
    · exact absurd e hi
    have := flatRun_parent H hlab R (k := k - 1) (by omega) (by omega)
    rw [Nat.sub_add_cancel (by omega)] at this
    exact upChain_top h5 _ _ rfl _ this

/-- Token `w` is the first one of its flat expression, if it is in one. -/
def Outermost (width : Nat → Nat) (w : Nat) : Prop := ∀ i, i < w → i + width i < w

variable {width : Nat → Nat} {t' : Tree Dep Nat} {tokens' : List Str} {tags' : List Tag}

theorem _root_.Spec.OneWord.sub (F : OneWord width t tokens tags t' tokens' tags') {k x : Nat} {d : Dep}
    (h : (d, x) ∈ t'.children k) : (d, x) ∈ t.children k := by
  by_cases hw : width k = 0
  · by_cases ho : ∀ i, i < k → i + width i < k
    · rw [F.other k hw ho] at h; exact h
    · push Not at ho
      obtain ⟨i, h1, h2⟩ := ho
      rw [F.rest i k h1 h2] at h
      cases h
  · rw [F.head k hw] at h
    exact (List.mem_filter.mp h).1

theorem _root_.Spec.OneWord.lift (F : OneWord width t tokens tags t' tokens' tags') {w p : Nat} {d : Dep} (ho : Outermost width w)
    (h : (d, w) ∈ t.children p) : (d, w) ∈ t'.children p := by
  by_cases hw : width p = 0
  · by_cases hp : ∀ i, i < p → i + width i < p
    · rw [F.other p hw hp]; exact h
    · push Not at hp
      obtain ⟨i, h1, h2⟩ := hp
      have R := F.run i (by omega)
      have hd := R.inner p h1 h2 _ _ h
      subst hd
      by_cases hlt : p < i + width i
      · have := (R.next p (by omega) hlt w).mp h
        have := ho i (by omega)
        omega
      · have : p = i + width i := by omega
        rw [this, R.leaf] at h
        cases h
  · rw [F.head p hw]
    refine List.mem_filter.mpr ⟨h, ?_⟩
    simp only [ne_eq, decide_not, Bool.not_eq_eq_eq_not, Bool.not_true, decide_eq_false_iff_not]
    rintro rfl
    have := ((F.run p hw).next p (by omega) (by omega) w).mp h
    have := ho p (by omega)
    omega

theorem _root_.Spec.OneWord.outer (F : OneWord width t tokens tags t' tokens' tags')
    (hlab : ∀ {w p p' : Nat} {d d' : Dep}, (d, w) ∈ t.children p → (d', w) ∈ t.children p' → d = d') {w : Nat}
    (h : (∃ d x, (d, x) ∈ t'.children w) ∨ ∃ d p, (d, w) ∈ t'.children p) : Outermost width w := by
  intro i hi
  by_contra hw
  have hw' : w ≤ i + width i := by omega
  rcases h with ⟨d, x, h⟩ | ⟨d, p, h⟩
  · rw [F.rest i w hi hw'] at h
    cases h
  · have R := F.run i (by omega)
    have hp := R.one w hi hw' _ _ (F.sub h)
    subst hp
    have hd := hlab (F.sub h) ((R.next p (by omega) (by omega) _).mpr rfl)
    subst hd
    by_cases hpi : p = i
    · subst hpi
      rw [F.head p (by omega)] at h
      have := (List.mem_filter.mp h).2
      simp at this
    · rw [F.rest i p (by omega) (by omega)] at h
      cases h

theorem forall₂_imp_of_mem {α β : Type} {P Q : α → β → Prop} {l : List α} {l' : List β} (h : List.Forall₂ P l l')
    (hi : ∀ a ∈ l, ∀ b, P a b → Q a b) : List.Forall₂ Q l l' := by
  induction h with
  | nil => exact .nil
  | cons a _ ih => exact .cons (hi _ (by simp) _ a) (ih fun a ha => hi a (by simp [ha]))

/-- The entry of a word, possibly a flat expression. -/
theorem _root_.Spec.OneWord.entry (F : OneWord width t tokens tags t' tokens' tags') (H : IdxTree t tokens.length arcs)
    (hlab : ∀ {w p p' : Nat} {d d' : Dep}, (d, w) ∈ t.children p → (d', w) ∈ t.children p' → d = d') {s : Nodif}
    (inv : NodInv t arcs lower tokens tags s)
    (hflat : ∀ z path, t.children z = [] → z < tokens.length → path ≠ [] → UpChain t.parent .FLAT z path →
      ∀ k, k = z ∨ k ∈ path → (∀ x, (.PART, x) ∉ t.children k) → ∀ r, (k, r) ∈ s.dict → (s.heap.node r).idx ≠ k) {w : Nat}
    {r : Ref} (hr : (w, r) ∈ s.dict) :
    Outermost width w ∧ ((∀ x, (.FLAT, x) ∉ t'.children w) → (s.heap.node r).idx = w + width w ∧
      tokens'[w]? = some (s.heap.node r).original ∧ tags'[w]? = some (s.heap.node r).tag ∧
      PartWords lower tokens' (t'.children w) w (s.heap.node r).particles ∧
      ((s.heap.node r).isInfTo = true ↔ InfTo lower tokens' (t'.children w) w)) := by
  have ho : Outermost width w := by
    intro i hi
    by_contra hw
    have hn : width i ≠ 0 := by omega
    exact (flatRun_entry H hlab inv hflat (F.run i hn) hn).2 w hi (by omega) r hr
  refine ⟨ho, fun hdown => ?_⟩
  have htag := (inv.ent w r hr).tag
  by_cases hw : width w = 0
  · have hch := F.other w hw ho
    have hpt : ∀ {x}, (Dep.PART, x) ∈ t.children w → tokens'[x]? = tokens[x]? := by
      intro x hx
      refine F.same x ?_
      by_contra hx'
      exact ((F.run x hx').top _ _ hx).2 rfl
    rcases (inv.ent w r hr).kind with ⟨a1, -, a3, ⟨is, toks, b1, b2, b3, b4⟩, a5⟩ | ⟨_, _, _, _, up, _, a5, _⟩
    · rw [hch, F.same w hw, F.tag, hw, Nat.add_zero, a1]
      refine ⟨rfl, a3, by rw [← a1]; exact htag, ⟨is, toks, b1, b2, ?_, b4⟩, ?_⟩
      · refine forall₂_imp_of_mem b3 fun i hi tok he => ?_
        have := b2.mem_iff.mp hi
        simp only [List.mem_map, List.mem_filter, decide_eq_true_eq, Prod.exists] at this
        obtain ⟨d, y, ⟨hy, rfl, -⟩, rfl⟩ := this
        rw [hpt hy]; exact he
      · rw [a5]
        constructor
        · rintro ⟨i, tok, h1, h2, h3, h4⟩; exact ⟨i, tok, h1, h2, by rw [hpt h2]; exact h3, h4⟩
        · rintro ⟨i, tok, h1, h2, h3, h4⟩; exact ⟨i, tok, h1, h2, by rw [← hpt h2]; exact h3, h4⟩
    · exfalso
      obtain ⟨z, hz⟩ := upChain_mem a5 w (by simp)
      exact hdown z (by rw [hch]; exact H.arc hz)
  · obtain ⟨a1, a2, a3, a4⟩ := (flatRun_entry H hlab inv hflat (F.run w hw) hw).1 r hr
    have hnp : ∀ x, (Dep.PART, x) ∉ t'.children w := fun x hx => (F.run w hw).noPart x (F.sub hx)
    refine ⟨a1, by rw [F.word w hw, a2], by rw [F.tag, ← a1]; exact htag, ⟨[], [], .nil, ?_, .nil, by simp [a3]⟩, ?_⟩
    · have : (t'.children w).filter (fun c => c.1 = .PART ∧ w < c.2) = [] := by
        rw [List.filter_eq_nil_iff]
        rintro ⟨d, x⟩ hx
        simp only [decide_eq_true_eq, not_and]
        rintro rfl
        exact absurd hx (hnp x)
      rw [this]
      exact .refl _
    · rw [a4]
      simp only [Bool.false_eq_true, false_iff]
      rintro ⟨i, tok, -, h2, -⟩
      exact hnp i h2

/-- A sentence read word by word. -/
theorem oneWord_refl (t : Tree Dep Nat) (tokens : List Str) (tags : List Tag) :
    OneWord (fun _ => 0) t tokens tags t tokens tags where
  run i h := absurd rfl h
  head i h := absurd rfl h
  rest i k h1 h2 := by omega
  other k _ _ := rfl
  word i h := absurd rfl h
  same _ _ := rfl
  tag _ := rfl

end
end Model
