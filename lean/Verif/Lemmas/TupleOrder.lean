import Verif.Spec.TupleOrder
import Verif.Lemmas.Semantics

/-! The list of tuples that extraction returns. -/

namespace Model
open Py Spec

theorem collect_ok {α β : Type} {l : List α} {f : α → Except PyErr (List β)} {g : α → List β} (h : ∀ x, f x = .ok (g x)) :
    collect l f = .ok (l.flatMap g) := by
  induction l with
  | nil => rfl
  | cons x l ih => simp only [collect, h, ih, List.flatMap_cons]; rfl

theorem collect_one {α β : Type} {l : List α} {f : α → Except PyErr (List β)} {g : α → β} (h : ∀ x, f x = .ok [g x]) :
    collect l f = .ok (l.map g) := by
  rw [collect_ok h, ← List.map_eq_flatMap]

section
variable (pp : Str → Str) (h : Heap)

theorem order_noun (r : Ref) : nArg h r = Order.noun h r := by
  unfold nArg Order.noun nounArgCode
  cases (h.node r).tag <;> rfl

theorem order_adjCode (n : Node) : adjArgCode n = Order.adjCode n := by
  unfold adjArgCode Order.adjCode Order.activeOf Node.active
  rcases n.activeVerb with _ | _ | ⟨c, w⟩ <;> simp

theorem order_adj (r : Ref) : aArg h r = Order.adj h r := by
  unfold aArg Order.adj; rw [order_adjCode]

theorem order_prop (r : Ref) : pArg h r = Order.prop h r := by
  unfold pArg Order.prop propArgCode
  split
  · exact order_adj h r
  · exact order_noun h r

theorem order_nouns (l : List Ref) : nominals h l = Order.nouns h l := by
  unfold nominals Order.nouns
  rfl

theorem order_canBeProp (r : Ref) : decide ((h.node r).tag ∈ propTags) = Order.canBeProp h r := by
  unfold Order.canBeProp
  rw [decide_eq_decide]
  exact mem_propTags h r

theorem order_plain (r : Ref) : (h.node r).cannotBeTransitive = !Order.plain h r := by
  have := plain_iff (h.node r)
  unfold Spec.Plain at this
  cases e : (h.node r).cannotBeTransitive
  · simp [Order.plain, this.mp e]
  · rw [e] at this
    simp only [Bool.true_eq_false, false_iff] at this
    simp [Order.plain, this]

theorem order_heads (r : Ref) : headVerb h r = Order.heads h r := by
  unfold headVerb Order.heads
  rw [order_plain, Bool.eq_iff_iff]
  simp

theorem ok_append {β : Type} {m m' : Except PyErr (List β)} {a b : List β} (h1 : m = .ok a) (h2 : m' = .ok b) :
    (do let x ← m; let y ← m'; return x ++ y) = (.ok (a ++ b) : Except PyErr (List β)) := by rw [h1, h2]; rfl

theorem ok_ite {β : Type} {c : Prop} [Decidable c] {m m' : Except PyErr (List β)} {a b : List β} (h1 : m = .ok a) (h2 : m' = .ok b) :
    (if c then m else m') = .ok (if c then a else b) := by split <;> assumption

theorem order_clause (v s o s' : Ref) : clauseTuples h v s o s' = .ok (Order.clause h v s o s') := by
  unfold clauseTuples Order.clause
  simp only [nounArg_ok, xnor_affirmed, newT, newI, newC, propArg_ok, bind_ok, order_noun, order_prop, order_nouns, order_plain,
    Bool.not_not]
  refine ok_append (ok_ite (ok_append ?_ (collect_one fun _ => rfl)) rfl) (collect_one fun _ => rfl)
  simp only [List.isEmpty_iff]
  exact ok_ite rfl rfl

theorem order_clauses (v : Ref) : fromVerbsSubjsObjs h v = .ok (Order.clauses h v) := by
  unfold fromVerbsSubjsObjs Order.clauses
  simp only [nounArg_ok, bind_ok, order_nouns]
  refine collect_ok fun s => collect_ok fun o => ?_
  unfold subjs2
  simp only [order_nouns, List.isEmpty_iff]
  exact collect_ok fun s' => order_clause h v s o s'

theorem order_ofVerb (v : Ref) : (do let a ← fromSubjsObjs h v; let b ← fromIobj h v; return a ++ b) =
    (.ok (Order.ofVerb h v) : Except PyErr (List STuple)) := by
  unfold fromSubjsObjs fromIobj Order.ofVerb
  simp only [nounArg_ok, xnor_affirmed, newT, newI, newR, bind_ok, order_noun, order_nouns, List.isEmpty_iff]
  exact ok_append (ok_append (ok_ite (collect_one fun _ => rfl) rfl) (collect_ok fun _ => collect_one fun _ => rfl))
    (collect_ok fun _ => collect_one fun _ => rfl)

theorem order_actives (n p : Ref) : activeForms h n p (Order.noun h n) = .ok (Order.actives h n p) := by
  unfold activeForms Order.actives Order.activeOf Node.active
  simp only [nounArg_ok, xnor_affirmed, newT, bind_ok, order_noun, order_nouns]
  rcases (h.node p).activeVerb with _ | _ | ⟨c, w⟩
  · rfl
  · rfl
  · simp only [Option.toList_some]
    rw [List.filter_cons_of_pos (by simp), List.filter_nil, List.flatMap_singleton]
    exact collect_one fun _ => rfl

theorem order_nakedAdjs (n : Ref) : fromNakedAdjs h n = .ok ((h.node n).adjs.flatMap fun p =>
    ⟨[Order.noun h n, Order.verb h c!"be" c!"C" [p, n], Order.adj h p]⟩ :: Order.actives h n p) := by
  unfold fromNakedAdjs
  simp only [nounArg_ok, xnor_affirmed, newC, adjArg_ok, bind_ok, order_noun, order_adj, order_actives]
  exact collect_ok fun _ => rfl

theorem order_ppProps (n : Ref) : fromPpProps h n = .ok (((h.node n).ppsProps.filter fun x => Order.canBeProp h x.2).map fun x =>
    ⟨[Order.noun h n, Order.verb h (c!"be " ++ (h.node x.1).canon) c!"C" [n, x.1, x.2], Order.prop h x.2]⟩) := by
  unfold fromPpProps
  simp only [nounArg_ok, xnor_affirmed, newC, propArg_ok, bind_ok, order_noun, order_prop, join_be, order_canBeProp]
  exact collect_one fun _ => rfl

theorem order_copulaProps (n : Ref) : fromCopulaProps h n = .ok (((h.node n).copulasProps.filter fun x => Order.canBeProp h x.2).flatMap
    fun x => ⟨[Order.noun h n, Order.verb h (h.node x.1).canon c!"C" [n, x.1, x.2], Order.prop h x.2]⟩ ::
      if (h.node x.2).tag = .ADJ then Order.actives h n x.2 else []) := by
  unfold fromCopulaProps
  simp only [nounArg_ok, xnor_affirmed, newC, propArg_ok, bind_ok, order_noun, order_prop, order_canBeProp, order_actives]
  refine collect_ok fun x => ?_
  rw [ok_ite rfl rfl]
  rfl

theorem order_iprops (n : Ref) : fromIprops pp h n = .ok (((h.node n).subjsVerbsIprops.filter fun x => Order.canBeProp h x.2.2).map
    fun x => ⟨[Order.noun h n, Order.verb h (c!"be " ++ Spec.pastParticiple pp h x.2.1) c!"C" (x.1.toList ++ [x.2.1, n, x.2.2]),
      Order.prop h x.2.2]⟩) := by
  unfold fromIprops
  have ha : ∀ x : Option Ref × Ref × Ref, ipropAff h n x =
      .ok (affirmed ((x.1.toList ++ [x.2.1, n, x.2.2]).map fun r => (h.node r).isAff)) := by
    rintro ⟨_ | s, v, p⟩ <;> simp [ipropAff, xnor_affirmed]
  simp only [nounArg_ok, ha, newC, propArg_ok, bind_ok, order_noun, order_prop, join_be, order_canBeProp, ppWithParticles_eq]
  exact collect_one fun _ => rfl

theorem order_passives (v : Ref) : fromObjs pp h v = .ok (Order.passives pp h v) := by
  unfold fromObjs Order.passives
  have hx : ∀ o, (if (h.node v).subjs.isEmpty = true then xnor [(h.node v).isAff, (h.node o).isAff]
        else xnor [(h.node v).subjs.any fun s => (h.node s).isAff, (h.node v).isAff, (h.node o).isAff]) =
      .ok (affirmed (subjPolarity h v ++ [(h.node v).isAff, (h.node o).isAff])) := by
    intro o
    unfold subjPolarity
    by_cases he : (h.node v).subjs = []
    · simp [he, xnor_affirmed]
    · have : ((h.node v).subjs.any fun s => (h.node s).isAff) = decide (∃ s ∈ (h.node v).subjs, (h.node s).isAff = true) := by
        rw [Bool.eq_iff_iff]; simp
      simp [he, xnor_affirmed, this]
  simp only [nounArg_ok, hx, newC, newL, bind_ok, order_noun, order_nouns, ppWithParticles_eq]
  by_cases hc : (h.node v).canon ∈ notPassive
  · rw [if_neg (by simpa using hc), if_pos (show _ ∈ [c!"have", c!"get"] from hc)]
  · rw [if_pos hc, if_neg (show _ ∉ [c!"have", c!"get"] from hc)]
    exact collect_one fun _ => rfl

theorem order_second (r : Ref) : secondRound pp h r =
    .ok (if Order.heads h r then Order.ofVerb h r else if (h.node r).tag ∈ nominal then Order.ofNoun pp h r else []) := by
  unfold secondRound
  rw [order_heads, order_ofVerb]
  refine ok_ite rfl ?_
  have : (h.node r).tag ∈ nounTags ↔ (h.node r).tag ∈ nominal := by simp [nounTags, nominal]
  simp only [this]
  refine ok_ite ?_ rfl
  rw [order_iprops, order_copulaProps, order_ppProps, order_nakedAdjs]
  unfold Order.ofNoun
  simp only [List.append_assoc]
  rfl

theorem flatMap_ite {α β : Type} (l : List α) (c : α → Bool) (g : α → List β) :
    (l.flatMap fun x => if c x then g x else []) = (l.filter c).flatMap g := by
  induction l with
  | nil => rfl
  | cons x l ih =>
    rw [List.flatMap_cons, ih, List.filter_cons]
    split <;> simp

theorem order_tuples (nodes : List Ref) : extractTuples pp h nodes = .ok (Order.tuples pp h nodes) := by
  unfold extractTuples Order.tuples
  have h1 : collect nodes (fun n => if headVerb h n = true then fromVerbsSubjsObjs h n else .ok []) =
      .ok ((nodes.filter (Order.heads h)).flatMap (Order.clauses h)) := by
    rw [← flatMap_ite]
    refine collect_ok fun n => ?_
    rw [order_heads, order_clauses]
    exact ok_ite rfl rfl
  have h2 : ∀ r, decide (r ∉ (nodes.filter fun n => headVerb h n).flatMap (blockedBy h)) = decide (Order.said h nodes r = false) := by
    intro r
    rw [decide_eq_decide, ← Bool.not_eq_true, not_iff_not]
    simp only [Order.said, blockedBy, List.mem_flatMap, List.mem_filter, List.any_eq_true, decide_eq_true_eq, order_heads, order_nouns]
    constructor
    · rintro ⟨v, ⟨h1, h2⟩, s, h3, h4⟩
      exact ⟨v, h1, h2, List.ne_nil_of_mem h3, h4⟩
    · rintro ⟨v, h1, h2, h3, h4⟩
      obtain ⟨s, hs⟩ := List.exists_mem_of_ne_nil _ h3
      exact ⟨v, ⟨h1, h2⟩, s, hs, h4⟩
  have h3 : collect nodes (thirdRound pp h) =
      .ok ((nodes.filter fun r => (h.node r).tag = .VERB ∧ Order.plain h r = true).flatMap (Order.passives pp h)) := by
    rw [← flatMap_ite]
    refine collect_ok fun n => ?_
    unfold thirdRound
    rw [order_passives, order_plain]
    simp only [Bool.not_eq_false', decide_eq_true_eq]
    exact ok_ite rfl rfl
  rw [h1, h3]
  simp only [bind_ok, h2]
  rw [collect_ok fun r => order_second pp h r]
  rfl

end
end Model
