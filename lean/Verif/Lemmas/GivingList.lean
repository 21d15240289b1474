import Verif.Lemmas.Giving
import Verif.Lemmas.SimpleList

/-! Lemmas for the list of tuples of sentences with a recipient. -/

namespace Model
open Py Spec

/-- Tuples of nodes with one verb that has arguments, recipients among them but no clauses. -/
theorem one_verb_recipients {pp : Str → Str} {h : Heap} {nodes : List Ref} {rv : Ref} (N : nodes.Nodup) (hv : rv ∈ nodes) (hh : Order.heads h rv = true)
    (he : ∀ r ∈ nodes, r ≠ rv → (h.node r).subjs = [] ∧ (h.node r).objs = []) (hi : ∀ r, r ≠ rv → (h.node r).iobjs = [])
    (ho : Order.verbs h (h.node rv).objs = []) (hn : ∀ r, Order.ofNoun pp h r = []) :
    Order.tuples pp h nodes = Order.ofVerb h rv ++ Order.passives pp h rv := by
  have e1 : ((nodes.filter (Order.heads h)).flatMap (Order.clauses h)) = [] := by
    refine List.flatMap_eq_nil_iff.mpr fun r hr => ?_
    unfold Order.clauses
    by_cases e : r = rv
    · subst e
      rw [ho]
      simp
    · rw [(he r (List.mem_filter.mp hr).1 e).1]
      rfl
  have e2 : (nodes.filter fun r => Order.said h nodes r = false) = nodes := by
    refine List.filter_eq_self.mpr fun r _ => ?_
    rw [decide_eq_true_iff]
    unfold Order.said
    rw [List.any_eq_false]
    intro x hx
    by_cases e : x = rv
    · subst e
      simp [ho]
    · simp [(he x hx e).1, Order.nouns]
  have hp : rv ∈ nodes.filter fun r => (h.node r).tag = .VERB ∧ Order.plain h r = true := by
    simp only [Order.heads, decide_eq_true_eq] at hh
    simp [hv, hh]
  unfold Order.tuples
  rw [e1, e2, List.nil_append, flatMap_only N hv, flatMap_only (N.filter _) hp, if_pos hh]
  · intro r hr e
    simp [Order.passives, (he r (List.mem_filter.mp hr).1 e).2, Order.nouns]
  · intro r hr e
    rw [hn]
    simp [Order.ofVerb, (he r hr e).1, (he r hr e).2, hi r e, Order.nouns]

section
variable {ck : Bool} {c : Logic} {tokens : List Str} {tg : List Tag} {t : Tree Dep Nat} {h h' : Heap} {nt : Tree Dep Ref}
  {nodes : List Ref} {pos : Dict Nat Ref} {v s r o : Nat}
variable (L : Linked ck c tokens tg t h nt nodes pos) (T : NeatParse t)
include L T

/-- Who acts, as a list. -/
theorem Linked.givers_list (B : Order.Lists h nt nodes h') (N : nodes.Nodup) (F : Giving t v s r o)
    (ho : o ≠ v) {rv : Ref} (hv : At t nodes pos v rv) :
    (h'.node rv).subjs = (together t s).filterMap pos.get? := by
  obtain ⟨_, rs, -, hs⟩ := L.ends T F.subj (by decide)
  have hp : nt.parent rs = some (.SUBJ, rv) := (L.parent_iff hv hs).mpr F.subj
  have hc : ∀ {r p : Ref}, nt.parent r ≠ some (.CPL, p) := L.noParent T fun _ _ => F.none (by decide)
  have hco : Order.coordinated nt nodes rv = [] := by
    rw [List.eq_nil_iff_forall_not_mem]
    intro x hx
    have : x ∈ Order.group nt nodes rv := List.mem_cons_of_mem _ hx
    unfold Order.coordinated at hx
    rw [if_pos hv.mem, List.mem_append, L.viaMem, L.viaMem] at hx
    rcases hx with hx | hx
    all_goals
      obtain ⟨k, -, k2⟩ := L.child hv.pos hx
      rcases F.only _ _ k2 (by decide) with e | e | e <;> exact absurd (congrArg Prod.fst e) (by simp)
  have hmeant : Order.meantSubj h nt rv rs = rs := by
    have e1 : Order.relative h nt rv rs = [] := by
      unfold Order.relative
      split
      · rename_i e; exact absurd e hc
      · rfl
    have e2 : Order.reflexiveSubj h nt rv rs = [] := by
      unfold Order.reflexiveSubj
      split
      · rename_i p e
        obtain ⟨k, -, k2⟩ := L.above hv.pos e
        exact absurd (F.isObj k2).2.symm ho
      · rfl
    unfold Order.meantSubj
    rw [e1, e2]
    rfl
  rw [B.subjs]
  unfold Order.subjs
  rw [flatMap_only N hs.mem, hp]
  · dsimp only
    rw [List.flatMap_eq_nil_iff.mpr, List.append_nil, hmeant, L.group_list T hs]
    · simp [Order.each, Order.sharesSubj, hco]
    · intro n _
      split
      · rename_i e; exact absurd e hc
      · rfl
  · intro n hn hne
    split
    · rename_i w e
      exfalso
      obtain ⟨k, hk⟩ := L.at_mem T hn
      obtain ⟨j, -, k2⟩ := L.above hk.pos e
      cases (F.isSubj k2).2
      exact hne (L.fn hk.pos hs.pos)
    · rfl

/-- Who undergoes, as a list. -/
theorem Linked.given_list (B : Order.Lists h nt nodes h') (N : nodes.Nodup) (F : Giving t v s r o)
    (hself : ¬ Exactly.Self ck c tokens tg t o) {rv : Ref} (hv : At t nodes pos v rv) :
    (h'.node rv).objs = (together t o).filterMap pos.get? := by
  obtain ⟨_, ro, -, hro⟩ := L.ends T F.obj (by decide)
  have hp : nt.parent ro = some (.OBJ, rv) := (L.parent_iff hv hro).mpr F.obj
  have hc : ∀ {r p : Ref}, nt.parent r ≠ some (.CPL, p) := L.noParent T fun _ _ => F.none (by decide)
  have hco : Order.coordinated nt nodes rv = [] := by
    rw [List.eq_nil_iff_forall_not_mem]
    intro x hx
    unfold Order.coordinated at hx
    rw [if_pos hv.mem, List.mem_append, L.viaMem, L.viaMem] at hx
    rcases hx with hx | hx
    all_goals
      obtain ⟨k, -, k2⟩ := L.child hv.pos hx
      rcases F.only _ _ k2 (by decide) with e | e | e <;> exact absurd (congrArg Prod.fst e) (by simp)
  have hmeant : Order.meantObj h nt rv ro = ro := by
    have e1 : Order.relative h nt rv ro = [] := by
      unfold Order.relative
      split
      · rename_i e; exact absurd e hc
      · rfl
    have e2 : Order.reflexiveObj h nt rv ro = [] := by
      unfold Order.reflexiveObj
      rw [if_neg]
      rw [L.self_iff T hro]
      exact hself
    unfold Order.meantObj
    rw [e1, e2]
    rfl
  rw [B.objs]
  unfold Order.objs
  rw [flatMap_only N hro.mem, hp]
  · dsimp only
    rw [List.flatMap_eq_nil_iff.mpr, List.append_nil, hmeant, L.group_list T hro]
    · simp [Order.each, Order.sharesObj, hco]
    · intro n _
      split
      · rename_i e; exact absurd e hc
      · rfl
  · intro n hn hne
    split
    · rename_i w e
      exfalso
      obtain ⟨k, hk⟩ := L.at_mem T hn
      obtain ⟨j, -, k2⟩ := L.above hk.pos e
      cases (F.isObj k2).2
      exact hne (L.fn hk.pos hro.pos)
    · rfl

/-- Who receives, as a list. -/
theorem Linked.receivers_list (B : Order.Lists h nt nodes h') (N : nodes.Nodup) (F : Giving t v s r o) {rv : Ref}
    (hv : At t nodes pos v rv) (x : Ref) :
    (h'.node x).iobjs = if x = rv then (together t r).filterMap pos.get? else [] := by
  obtain ⟨_, rr, -, hrr⟩ := L.ends T F.recipient (by decide)
  have hp : nt.parent rr = some (.IOBJ, rv) := (L.parent_iff hv hrr).mpr F.recipient
  have key : ∀ n ∈ nodes, ∀ y, nt.parent n = some (.IOBJ, y) → n = rr := by
    intro n hn y e
    obtain ⟨k, hk⟩ := L.at_mem T hn
    obtain ⟨j, -, k2⟩ := L.above hk.pos e
    obtain ⟨-, k3 | k3 | k3⟩ := F.arc k2 (by decide) (by decide) (by decide)
    · exact absurd (congrArg Prod.fst k3) (by simp)
    · cases congrArg Prod.snd k3
      exact L.fn hk.pos hrr.pos
    · exact absurd (congrArg Prod.fst k3) (by simp)
  rw [B.iobjs, Order.attached, ← L.group_list T hrr]
  by_cases e : x = rv
  · subst e
    rw [if_pos rfl]
    have : (nodes.filter fun n => nt.parent n = some (.IOBJ, x)) = [rr] := by
      refine List.perm_singleton.mp ((List.perm_ext_iff_of_nodup (N.filter _) (List.nodup_singleton _)).mpr fun n => ?_)
      simp only [List.mem_filter, decide_eq_true_eq, List.mem_singleton]
      exact ⟨fun k => key n k.1 _ k.2, by rintro rfl; exact ⟨hrr.mem, hp⟩⟩
    rw [this, List.flatMap_singleton]
  · rw [if_neg e, List.filter_eq_nil_iff.mpr]
    · rfl
    · intro n hn k
      have k := of_decide_eq_true k
      cases key n hn _ k
      rw [hp] at k
      cases k
      exact e rfl

end
end Model
