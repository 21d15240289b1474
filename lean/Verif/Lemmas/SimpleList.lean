import Verif.Spec.SimpleList
import Verif.Spec.ArgOrder
import Verif.Spec.TupleOrder
import Verif.Lemmas.Simple

/-! Lemmas for the lists of tuples of simple sentences. -/

namespace Model
open Py Spec

theorem flatMap_only {α β : Type} {l : List α} {f : α → List β} {a : α} (hl : l.Nodup) (ha : a ∈ l) (hf : ∀ x ∈ l, x ≠ a → f x = []) :
    l.flatMap f = f a := by
  induction l with
  | nil => cases ha
  | cons x l ih =>
    rw [List.nodup_cons] at hl
    rw [List.flatMap_cons]
    rcases List.mem_cons.mp ha with rfl | hm
    · rw [List.flatMap_eq_nil_iff.mpr, List.append_nil]
      intro y hy
      exact hf y (List.mem_cons_of_mem _ hy) (by rintro rfl; exact hl.1 hy)
    · rw [hf x List.mem_cons_self (by rintro rfl; exact hl.1 hm), List.nil_append]
      exact ih hl.2 hm fun y hy => hf y (List.mem_cons_of_mem _ hy)

theorem flatMap_refs {β : Type} {l : List Nat} {g : Nat → Option Ref} {f : Ref → List β} {f' : Nat → List β}
    (hl : ∀ x ∈ l, ∃ r, g x = some r ∧ f r = f' x) : (l.filterMap g).flatMap f = l.flatMap f' := by
  induction l with
  | nil => rfl
  | cons x l ih =>
    obtain ⟨r, h1, h2⟩ := hl x List.mem_cons_self
    rw [List.filterMap_cons_some h1, List.flatMap_cons, List.flatMap_cons, h2, ih fun y hy => hl y (List.mem_cons_of_mem _ hy)]

theorem map_refs {β : Type} {l : List Nat} {g : Nat → Option Ref} {f : Ref → β} {f' : Nat → β}
    (hl : ∀ x ∈ l, ∃ r, g x = some r ∧ f r = f' x) : (l.filterMap g).map f = l.map f' := by
  induction l with
  | nil => rfl
  | cons x l ih =>
    obtain ⟨r, h1, h2⟩ := hl x List.mem_cons_self
    rw [List.filterMap_cons_some h1, List.map_cons, List.map_cons, h2, ih fun y hy => hl y (List.mem_cons_of_mem _ hy)]

theorem mem_together {t : Tree Dep Nat} {i x : Nat} : x ∈ together t i ↔ Member t i x := by
  simp [together, Member]

theorem orderly_noun {h : Heap} {r : Ref} {a : Argument} (H : IsNoun h r a) : Order.noun h r = a := by
  obtain ⟨w, code, aff⟩ := a
  obtain ⟨h1, h2, h3⟩ := H
  dsimp only at h1 h2 h3
  subst h1 h3
  unfold Order.noun
  congr 1
  generalize (h.node r).tag = tag at h2
  cases h2 with
  | noun k1 k2 k3 k4 => cases tag <;> simp_all [Order.nounCode]
  | _ => rfl

theorem mem_withoutMarker {t : Tree Dep Nat} {i : Nat} : withoutMarker t i = true ↔ Unmarked t i := by
  simp [withoutMarker, Unmarked]

theorem orderly_adj {h : Heap} {r : Ref} {code : Str} (H : AdjCode (h.node r) code) : Order.adjCode (h.node r) = code := by
  unfold Order.adjCode Order.activeOf
  cases H with
  | pp k => obtain ⟨k1, k2⟩ := k; rw [k1]; simp [k2]
  | adj k =>
    rw [if_pos]
    cases e : (h.node r).activeVerb with
    | none => rfl
    | some w =>
      have := k w
      simp only [ActiveVerb, e, true_and, not_not] at this
      simp [this]

theorem orderly_prop {h : Heap} {r : Ref} {a : Argument} (H : IsProp h r a) : Order.prop h r = a := by
  obtain ⟨w, code, aff⟩ := a
  obtain ⟨h1, h2, h3⟩ := H
  dsimp only at h1 h2 h3
  unfold Order.prop
  rcases h2 with ⟨e, h2⟩ | ⟨e, h2⟩
  · rw [if_pos e]
    unfold Order.adj
    rw [orderly_adj h2, h1, h3]
  · rw [if_neg e]
    exact orderly_noun ⟨h1, h2, h3⟩

theorem filterMap_filter_refs {l : List Nat} {g : Nat → Option Ref} {p : Ref → Bool} {q : Nat → Bool}
    (hl : ∀ x ∈ l, ∃ r, g x = some r ∧ p r = q x) : (l.filterMap g).filter p = (l.filter q).filterMap g := by
  induction l with
  | nil => rfl
  | cons x l ih =>
    obtain ⟨r, h1, h2⟩ := hl x List.mem_cons_self
    have ih := ih fun y hy => hl y (List.mem_cons_of_mem _ hy)
    rw [List.filterMap_cons_some h1, List.filter_cons, List.filter_cons, h2, ih]
    split
    · rw [List.filterMap_cons_some h1]
    · rfl

theorem orderly_heads {h : Heap} {r : Ref} : Order.heads h r = true ↔ Heads h r := by
  simp [Order.heads, Heads, Order.plain, Spec.Plain]

/-- Tuples of nodes with one verb that has arguments, none of them clauses. -/
theorem one_verb {pp : Str → Str} {h : Heap} {nodes : List Ref} {rv : Ref} (N : nodes.Nodup) (hv : rv ∈ nodes) (hh : Order.heads h rv = true)
    (he : ∀ r ∈ nodes, r ≠ rv → (h.node r).subjs = [] ∧ (h.node r).objs = []) (hi : ∀ r, (h.node r).iobjs = [])
    (ho : Order.verbs h (h.node rv).objs = []) (hn : ∀ r, Order.ofNoun pp h r = []) :
    Order.tuples pp h nodes = Order.ofVerb h rv ++ Order.passives pp h rv := by
  have e1 : ((nodes.filter (Order.heads h)).flatMap (Order.clauses h)) = [] := by
    refine List.flatMap_eq_nil_iff.mpr fun r hr => ?_
    unfold Order.clauses
    by_cases e : r = rv
    · subst e
      rw [ho]
      simp
    · rw [(he r (List.mem_filter.mp hr).1 e).1]
      rfl
  have e2 : (nodes.filter fun r => Order.said h nodes r = false) = nodes := by
    refine List.filter_eq_self.mpr fun r _ => ?_
    rw [decide_eq_true_iff]
    unfold Order.said
    rw [List.any_eq_false]
    intro x hx
    by_cases e : x = rv
    · subst e
      simp [ho]
    · simp [(he x hx e).1, Order.nouns]
  have hp : rv ∈ nodes.filter fun r => (h.node r).tag = .VERB ∧ Order.plain h r = true := by
    simp only [Order.heads, decide_eq_true_eq] at hh
    simp [hv, hh]
  unfold Order.tuples
  rw [e1, e2, List.nil_append, flatMap_only N hv, flatMap_only (N.filter _) hp, if_pos hh]
  · intro r hr e
    simp [Order.passives, (he r (List.mem_filter.mp hr).1 e).2, Order.nouns]
  · intro r hr e
    rw [hn]
    simp [Order.ofVerb, (he r hr e).1, (he r hr e).2, hi, Order.nouns]

section
variable {ck : Bool} {c : Logic} {tokens : List Str} {tg : List Tag} {t : Tree Dep Nat} {h h' : Heap} {nt : Tree Dep Ref}
  {nodes : List Ref} {pos : Dict Nat Ref} {v s : Nat} {rest : Option (Dep × Nat)}
variable (L : Linked ck c tokens tg t h nt nodes pos) (T : NeatParse t)
include L T

theorem Linked.group_list {i : Nat} {r : Ref} (hi : At t nodes pos i r) :
    Order.group nt nodes r = (together t i).filterMap pos.get? := by
  unfold Order.group Order.coordinated together
  rw [if_pos hi.mem, List.filterMap_cons_some (L.get hi.pos), List.filterMap_append, L.viaList hi.pos (by decide),
    L.viaList hi.pos (by decide)]

theorem Linked.noParent {d : Dep} (hd : ∀ p x, (d, x) ∉ t.children p) {r p : Ref} : nt.parent r ≠ some (d, p) := by
  intro e
  obtain ⟨_, _, -, -, k⟩ := L.arc.mp (L.parMem e)
  exact hd _ _ k

/-- Who acts, as a list. -/
theorem Linked.subjs_list (B : Order.Lists h nt nodes h') (N : nodes.Nodup) (F : Frame t v s rest)
    (hr : ∀ y ∈ rest, y.1 = .OBJ ∧ y.2 ≠ v ∨ y.1 = .PROP) {rv : Ref} (hv : At t nodes pos v rv) :
    (h'.node rv).subjs = (together t s).filterMap pos.get? := by
  obtain ⟨_, rs, -, hs⟩ := L.ends T F.subj (by decide)
  have hp : nt.parent rs = some (.SUBJ, rv) := (L.parent_iff hv hs).mpr F.subj
  have hc : ∀ {r p : Ref}, nt.parent r ≠ some (.CPL, p) := L.noParent T (F.noCpl hr)
  have hm : ∀ x, Member t v x → x = v := fun x => F.member fun y hy => by rcases hr y hy with ⟨e, -⟩ | e <;> rw [e] <;> decide
  have hco : Order.coordinated nt nodes rv = [] := by
    rw [List.eq_nil_iff_forall_not_mem]
    intro x hx
    have : x ∈ Order.group nt nodes rv := List.mem_cons_of_mem _ hx
    unfold Order.coordinated at hx
    rw [if_pos hv.mem, List.mem_append, L.viaMem, L.viaMem] at hx
    rcases hx with hx | hx
    all_goals
      obtain ⟨k, -, k2⟩ := L.child hv.pos hx
      rcases F.only _ _ k2 (by decide) with e | e
      · exact absurd (congrArg Prod.fst e) (by simp)
      · rcases hr _ e.symm with ⟨e, -⟩ | e <;> cases e
  have hmeant : Order.meantSubj h nt rv rs = rs := by
    have e1 : Order.relative h nt rv rs = [] := by
      unfold Order.relative
      split
      · rename_i e; exact absurd e hc
      · rfl
    have e2 : Order.reflexiveSubj h nt rv rs = [] := by
      unfold Order.reflexiveSubj
      split
      · rename_i p e
        obtain ⟨k, -, k2⟩ := L.above hv.pos e
        obtain ⟨-, k | k⟩ := F.arc k2 (by decide) (by decide) (by decide)
        · exact absurd (congrArg Prod.fst k) (by simp)
        · rcases hr (.OBJ, v) (by rw [← k]; rfl) with ⟨-, e⟩ | e
          · exact absurd rfl e
          · cases e
      · rfl
    unfold Order.meantSubj
    rw [e1, e2]
    rfl
  rw [B.subjs]
  unfold Order.subjs
  rw [flatMap_only N hs.mem, hp]
  · dsimp only
    rw [List.flatMap_eq_nil_iff.mpr, List.append_nil, hmeant, L.group_list T hs]
    · simp [Order.each, Order.sharesSubj, hco]
    · intro n _
      split
      · rename_i e; exact absurd e hc
      · rfl
  · intro n hn hne
    split
    · rename_i w e
      exfalso
      obtain ⟨k, hk⟩ := L.at_mem T hn
      obtain ⟨j, -, k2⟩ := L.above hk.pos e
      obtain ⟨-, k3 | k3⟩ := F.arc k2 (by decide) (by decide) (by decide)
      · cases k3
        exact hne (L.fn hk.pos hs.pos)
      · rcases hr _ k3.symm with ⟨e, -⟩ | e <;> cases e
    · rfl

/-- Who undergoes, as a list. -/
theorem Linked.objs_list (B : Order.Lists h nt nodes h') (N : nodes.Nodup) {o : Nat} (F : Frame t v s (some (.OBJ, o))) (ho : o ≠ v)
    (hself : ¬ Exactly.Self ck c tokens tg t o) {rv : Ref} (hv : At t nodes pos v rv) :
    (h'.node rv).objs = (together t o).filterMap pos.get? := by
  have hr : ∀ y ∈ some (Dep.OBJ, o), y.1 = .OBJ ∧ y.2 ≠ v ∨ y.1 = .PROP := by rintro y ⟨⟩; exact .inl ⟨rfl, ho⟩
  obtain ⟨_, ro, -, hro⟩ := L.ends T (F.also _ rfl) (by decide)
  have hp : nt.parent ro = some (.OBJ, rv) := (L.parent_iff hv hro).mpr (F.also _ rfl)
  have hc : ∀ {r p : Ref}, nt.parent r ≠ some (.CPL, p) := L.noParent T (F.noCpl hr)
  have hco : Order.coordinated nt nodes rv = [] := by
    rw [List.eq_nil_iff_forall_not_mem]
    intro x hx
    unfold Order.coordinated at hx
    rw [if_pos hv.mem, List.mem_append, L.viaMem, L.viaMem] at hx
    rcases hx with hx | hx
    all_goals
      obtain ⟨k, -, k2⟩ := L.child hv.pos hx
      rcases F.only _ _ k2 (by decide) with e | e
      · exact absurd (congrArg Prod.fst e) (by simp)
      · rcases hr _ e.symm with ⟨e, -⟩ | e <;> cases e
  have hmeant : Order.meantObj h nt rv ro = ro := by
    have e1 : Order.relative h nt rv ro = [] := by
      unfold Order.relative
      split
      · rename_i e; exact absurd e hc
      · rfl
    have e2 : Order.reflexiveObj h nt rv ro = [] := by
      unfold Order.reflexiveObj
      rw [if_neg]
      rw [L.self_iff T hro]
      exact hself
    unfold Order.meantObj
    rw [e1, e2]
    rfl
  rw [B.objs]
  unfold Order.objs
  rw [flatMap_only N hro.mem, hp]
  · dsimp only
    rw [List.flatMap_eq_nil_iff.mpr, List.append_nil, hmeant, L.group_list T hro]
    · simp [Order.each, Order.sharesObj, hco]
    · intro n _
      split
      · rename_i e; exact absurd e hc
      · rfl
  · intro n hn hne
    split
    · rename_i w e
      exfalso
      obtain ⟨k, hk⟩ := L.at_mem T hn
      obtain ⟨j, -, k2⟩ := L.above hk.pos e
      obtain ⟨-, k3 | k3⟩ := F.arc k2 (by decide) (by decide) (by decide)
      · exact absurd (congrArg Prod.fst k3) (by simp)
      · cases k3
        exact hne (L.fn hk.pos hro.pos)
    · rfl

/-- Without complements and properties nothing is said of nouns. -/
theorem Linked.noun_silent (B : Order.Lists h nt nodes h') (h1 : ∀ p x, (.CPL, x) ∉ t.children p) (h2 : ∀ p x, (.PROP, x) ∉ t.children p)
    (h3 : ∀ p x, (.IPROP, x) ∉ t.children p) (pp : Str → Str) (r : Ref) : Order.ofNoun pp h' r = [] := by
  have c1 : ∀ {r p : Ref}, nt.parent r ≠ some (.CPL, p) := L.noParent T h1
  have c2 : ∀ {r p : Ref}, nt.parent r ≠ some (.PROP, p) := L.noParent T h2
  have c3 : ∀ {r p : Ref}, nt.parent r ≠ some (.IPROP, p) := L.noParent T h3
  have e1 : (h'.node r).subjsVerbsIprops = [] := by
    rw [B.called]
    refine List.flatMap_eq_nil_iff.mpr fun n _ => ?_
    split
    · rename_i e; exact absurd e c3
    · rfl
  have e2 : (h'.node r).copulasProps = [] := by
    rw [B.copulas]
    refine List.flatMap_eq_nil_iff.mpr fun n _ => ?_
    split
    · rename_i e; exact absurd e c2
    · rfl
  have e3 : (h'.node r).ppsProps = [] := by
    rw [B.pps, Order.pps, List.filter_eq_nil_iff.mpr]
    · rfl
    · intro n _
      simp [c1]
  have e4 : (h'.node r).adjs = [] := by
    rw [B.adjs]
    refine List.flatMap_eq_nil_iff.mpr fun n _ => ?_
    split
    · rename_i e; exact absurd e c1
    · rfl
  unfold Order.ofNoun
  rw [e1, e2, e3, e4]
  rfl

theorem Linked.orderly_unmarked {i : Nat} {r : Ref} (hi : At t nodes pos i r) : Order.unmarked nt r = withoutMarker t i := by
  rw [Bool.eq_iff_iff, mem_withoutMarker, ← L.unmarked_iff T hi]
  have key : ∀ d, Order.without nt d r = true ↔ ¬ HasChild nt r d := by
    intro d
    unfold Order.without HasChild
    rw [decide_eq_true_iff, List.eq_nil_iff_forall_not_mem]
    simp only [L.viaMem, not_exists]
  unfold Order.unmarked HasMarker
  rw [Bool.and_eq_true, Bool.and_eq_true, key, key, key]
  tauto

/-- What the subjects of a copula are. -/
theorem Linked.copulas_list (B : Order.Lists h nt nodes h') (N : nodes.Nodup) {p : Nat} (F : Frame t v s (some (.PROP, p)))
    {rv rs : Ref} (hv : At t nodes pos v rv) (hs : At t nodes pos s rs) (r : Ref) :
    (h'.node r).copulasProps = Order.each ((together t s).filterMap pos.get?) r
      ((((together t p).filter (withoutMarker t)).filterMap pos.get?).map fun x => (rv, x)) := by
  have hr : ∀ y ∈ some (Dep.PROP, p), y.1 = .OBJ ∧ y.2 ≠ v ∨ y.1 = .PROP := by rintro y ⟨⟩; exact .inr rfl
  obtain ⟨_, rp, -, Rp⟩ := L.ends T (F.also _ rfl) (by decide)
  have hp : nt.parent rp = some (.PROP, rv) := (L.parent_iff hv Rp).mpr (F.also _ rfl)
  have hc : ∀ {r p : Ref}, nt.parent r ≠ some (.CPL, p) := L.noParent T (F.noCpl hr)
  have hf : Order.first nt rv .SUBJ = [rs] := by
    have := (L.first_iff T (d := .SUBJ) hv.pos hs.pos (by decide)).mpr ((F.first (by rintro y ⟨⟩; simp)).mpr rfl)
    unfold FirstChild at this
    unfold Order.first
    cases e : nt.childrenVia rv .SUBJ with
    | nil => rw [e] at this; cases this
    | cons x l => rw [e] at this; cases this; rfl
  have hrel : Order.relative h nt rv rs = [] := by
    unfold Order.relative
    split
    · rename_i e; exact absurd e hc
    · rfl
  rw [B.copulas]
  unfold Order.copulas
  rw [flatMap_only N Rp.mem, hp]
  · dsimp only
    rw [hf, List.flatMap_singleton, hrel, List.headD_nil, L.group_list T hs, L.group_list T Rp,
      filterMap_filter_refs (q := withoutMarker t)]
    · intro x hx
      obtain ⟨rx, Rx⟩ := L.memberRef T Rp (mem_together.mp hx)
      exact ⟨rx, L.get Rx.pos, L.orderly_unmarked T Rx⟩
  · intro n hn hne
    split
    · rename_i w e
      exfalso
      obtain ⟨k, hk⟩ := L.at_mem T hn
      obtain ⟨j, -, k2⟩ := L.above hk.pos e
      obtain ⟨-, k3 | k3⟩ := F.arc k2 (by decide) (by decide) (by decide)
      · exact absurd (congrArg Prod.fst k3) (by simp)
      · cases k3
        exact hne (L.fn hk.pos Rp.pos)
    · rfl

/-- Without complements nobody is an agent. -/
theorem Linked.noAgents (B : Order.Lists h nt nodes h') (h1 : ∀ p x, (.CPL, x) ∉ t.children p) (r : Ref) : (h'.node r).agents = [] := by
  rw [B.agents]
  unfold Order.agents
  split
  · split
    · rw [List.filter_eq_nil_iff.mpr]
      · rfl
      · intro n _
        simp [L.noParent T h1]
    · rfl
  · rfl

/-- Without complements only copulas speak of nouns. -/
theorem Linked.noun_copulas (B : Order.Lists h nt nodes h') (h1 : ∀ p x, (.CPL, x) ∉ t.children p)
    (h3 : ∀ p x, (.IPROP, x) ∉ t.children p) (pp : Str → Str) (r : Ref) : Order.ofNoun pp h' r =
      ((h'.node r).copulasProps.filter fun x => Order.canBeProp h' x.2).map fun x =>
        ⟨[Order.noun h' r, Order.verb h' (h'.node x.1).canon c!"C" [r, x.1, x.2], Order.prop h' x.2]⟩ := by
  have c1 : ∀ {r p : Ref}, nt.parent r ≠ some (.CPL, p) := L.noParent T h1
  have c3 : ∀ {r p : Ref}, nt.parent r ≠ some (.IPROP, p) := L.noParent T h3
  have e1 : (h'.node r).subjsVerbsIprops = [] := by
    rw [B.called]
    refine List.flatMap_eq_nil_iff.mpr fun n _ => ?_
    split
    · rename_i e; exact absurd e c3
    · rfl
  have e3 : (h'.node r).ppsProps = [] := by
    rw [B.pps, Order.pps, List.filter_eq_nil_iff.mpr]
    · rfl
    · intro n _
      simp [c1]
  have e4 : (h'.node r).adjs = [] := by
    rw [B.adjs]
    refine List.flatMap_eq_nil_iff.mpr fun n _ => ?_
    split
    · rename_i e; exact absurd e c1
    · rfl
  unfold Order.ofNoun Order.actives
  rw [e1, e3, e4]
  simp only [L.noAgents T B h1, Order.nouns, List.filter_nil, List.map_nil, List.flatMap_nil, List.nil_append, List.append_nil]
  rw [List.map_eq_flatMap]
  congr 1
  funext x
  split
  · simp
  · rfl

/-- Without recipients. -/
theorem Linked.noRecipients (B : Order.Lists h nt nodes h') (h1 : ∀ p x, (.IOBJ, x) ∉ t.children p) (r : Ref) : (h'.node r).iobjs = [] := by
  rw [B.iobjs, Order.attached, List.filter_eq_nil_iff.mpr]
  · rfl
  · intro n _
    simp [L.noParent T h1]

end
end Model
