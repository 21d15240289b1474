import Verif.Lemmas.ArgFinder
import Verif.Spec.ArgOrder

/-! Lemmas on the order of arguments. -/

namespace Model
open Py Spec

theorem take_head {α : Type} (l : List α) : (l.take 1).head? = l.head? := by cases l <;> rfl

theorem flatMap_filter_eq {α β : Type} (l : List α) (c : α → Bool) (g : α → List β) :
    (l.filter c).flatMap g = l.flatMap fun x => if c x = true then g x else [] := by
  induction l with
  | nil => rfl
  | cons x l ih => by_cases k : c x = true <;> simp [List.filter_cons, k, ih]

/-- A list of arguments after events. -/
theorem list_field {ι : Type} (F : Node → List ι) (sel : Ev → Option ι) (hon : ∀ e n, F (e.on n) = F n ++ (sel e).toList)
    (es : List Ev) : ∀ (h : Heap) (r : Ref), F ((applyEvs h es).node r) =
      F (h.node r) ++ es.filterMap fun e => if e.target = r then sel e else none := by
  induction es with
  | nil => intro h r; simp [applyEvs]
  | cons e es ih =>
    intro h r
    have : applyEvs h (e :: es) = applyEvs (applyEv h e) es := rfl
    rw [this, ih]
    simp only [applyEv, Heap.upd, List.filterMap_cons]
    by_cases er : r = e.target
    · subst er
      rw [if_pos rfl, if_pos rfl, hon]
      cases sel e <;> simp
    · rw [if_neg er, if_neg (Ne.symm er)]

/-- The arguments of one kind that events give a node. -/
def picked {ι : Type} (sel : Ev → Option ι) (r : Ref) (es : List Ev) : List ι :=
  es.filterMap fun e => if e.target = r then sel e else none

section
variable {ι : Type} {sel : Ev → Option ι} {r : Ref}

theorem picked_append (a b : List Ev) : picked sel r (a ++ b) = picked sel r a ++ picked sel r b := by
  simp [picked]

theorem picked_flatMap {α : Type} (l : List α) (f : α → List Ev) : picked sel r (l.flatMap f) = l.flatMap fun x => picked sel r (f x) := by
  simp only [picked, List.filterMap_flatMap]

theorem picked_nil : picked sel r [] = [] := rfl

theorem picked_skip {α : Type} (l : List α) (f : α → Ev) (hf : ∀ x, sel (f x) = none) : picked sel r (l.map f) = [] := by
  simp only [picked, List.filterMap_map, List.filterMap_eq_nil_iff]
  intro x _
  simp [hf]

theorem picked_map {α : Type} (l : List α) (f : α → Ev) (v : Ref) (g : α → ι) (hv : ∀ x, (f x).target = v)
    (hf : ∀ x, sel (f x) = some (g x)) : picked sel r (l.map f) = if v = r then l.map g else [] := by
  simp only [picked, List.filterMap_map]
  split
  · rename_i e
    rw [← List.filterMap_eq_map]
    congr 1
    funext x
    simp [hv, hf, e]
  · rename_i e
    rw [List.filterMap_eq_nil_iff]
    intro x _
    simp [hv, e]

theorem each_eq (l : List Ref) (xs : List ι) : (l.flatMap fun v => if v = r then xs else []) = Order.each l r xs := by
  unfold Order.each
  induction l with
  | nil => rfl
  | cons v l ih =>
    simp only [List.flatMap_cons, List.filter_cons]
    rw [ih]
    by_cases e : v = r <;> simp [e]

end

def Ev.asSubj : Ev → Option Ref | .subj _ x => some x | _ => none
def Ev.asObj : Ev → Option Ref | .obj _ x => some x | _ => none
def Ev.asIobj : Ev → Option Ref | .iobj _ x => some x | _ => none
def Ev.asExist : Ev → Option Ref | .exist _ x => some x | _ => none
def Ev.asProp : Ev → Option Ref | .prop _ x => some x | _ => none
def Ev.asIprop : Ev → Option Ref | .iprop _ x => some x | _ => none
def Ev.asAdj : Ev → Option Ref | .adj _ x => some x | _ => none
def Ev.asAgent : Ev → Option Ref | .agent _ x => some x | _ => none
def Ev.asPp : Ev → Option (Ref × Ref) | .pp _ x => some x | _ => none
def Ev.asCop : Ev → Option (Ref × Ref) | .cop _ x => some x | _ => none
def Ev.asSvi : Ev → Option (Option Ref × Ref × Ref) | .svi _ x => some x | _ => none

section
variable {t : Tree Dep Ref} {nodes : List Ref} {h : Heap}

/-- The nodes with their coordinated nodes. -/
local notation "H₀" => nodes.foldl (aggregStep t) h

theorem order_aggreg (hn : ∀ r, NoArgs (h.node r)) (x : Ref) : Heap.aggreg (H₀) x = Order.group t nodes x := by
  unfold Heap.aggreg Order.group Order.coordinated
  rw [(aggreg_fold t nodes h).2]
  split
  · rfl
  · simp [(hn x).andCconjs, (hn x).orCconjs]

theorem order_cconjs (hn : ∀ r, NoArgs (h.node r)) (x : Ref) : Node.cconjs (Heap.node (H₀) x) = Order.coordinated t nodes x := by
  unfold Node.cconjs Order.coordinated
  rw [(aggreg_fold t nodes h).2]
  split
  · rfl
  · simp [(hn x).andCconjs, (hn x).orCconjs]

variable {root : Ref} {hist : List (Dep × Ref × Ref)} (hb : buildTree root hist = .ok t)
include hb

theorem order_has (n : Ref) (l : Dep) : t.hasChildVia n l = !Order.without t l n := by
  have := (tree_queries root hist t hb n l []).2.2.1
  unfold Order.without
  cases e : t.childrenVia n l with
  | nil => simpa [e] using this
  | cons x xs => simp [this, e]

theorem order_unmarked (n : Ref) : t.hasChildViaSet n markerDeps = !Order.unmarked t n := by
  have := (tree_queries root hist t hb n .MARK markerDeps).2.2.2.1
  rw [Bool.eq_iff_iff, this]
  simp only [markerDeps, List.mem_cons, List.not_mem_nil, or_false, Order.unmarked, Order.without, Bool.not_eq_true', Bool.and_eq_false_iff,
    decide_eq_false_iff_not]
  constructor
  · rintro ⟨l, rfl | rfl | rfl, c, hc⟩
    all_goals have := List.ne_nil_of_mem hc; tauto
  · rintro ((k | k) | k)
    all_goals obtain ⟨c, hc⟩ := List.exists_mem_of_ne_nil _ k; exact ⟨_, by decide, c, hc⟩

theorem order_relative (hn : ∀ r, NoArgs (h.node r)) (verb pron : Ref) :
    resolveRelativePron t (H₀) verb pron = (Order.relative h t verb pron).head? := by
  have A : AggSpec t nodes h (H₀) := aggSpec hb hn
  unfold resolveRelativePron Order.relative
  simp only [A.tag, A.canon, order_unmarked hb]
  cases t.parent verb with
  | none => rfl
  | some q =>
    obtain ⟨d, p⟩ := q
    simp only [relativePronouns, show nounTags = nominal from rfl]
    by_cases hd : d = .CPL
    · subst hd
      simp only [true_and, Bool.not_eq_false']
      split <;> rfl
    · have : ∀ (a : List Ref), (match (some (d, p) : Option (Dep × Ref)) with
          | some (.CPL, _) => a
          | _ => []) = [] := by intro a; cases d <;> first | rfl | exact absurd rfl hd
      simp only [hd, false_and, and_false, if_false]
      cases d <;> first | rfl | exact absurd rfl hd

theorem order_meantSubj (hn : ∀ r, NoArgs (h.node r)) (verb node : Ref) : subjRef t (H₀) verb node = Order.meantSubj h t verb node := by
  have A : AggSpec t nodes h (H₀) := aggSpec hb hn
  unfold subjRef Order.meantSubj
  rw [order_relative hb hn]
  cases Order.relative h t verb node with
  | cons x l => rfl
  | nil =>
    simp only [List.head?_nil, List.nil_append, Order.reflexiveSubj, A.canon, A.tag, Spec.Reflexive, reflexivePronouns]
    cases t.parent verb with
    | none => simp
    | some q =>
      obtain ⟨d, p⟩ := q
      simp only
      cases d <;> simp only [reduceCtorEq, false_and, if_false, ite_self, List.headD_nil, true_and, Order.first, take_head]
      by_cases h1 : (h.node p).tag = .VERB
      · simp only [h1, and_true, if_true]
        split
        · cases t.childrenVia p .SUBJ <;> rfl
        · rfl
      · simp [h1]

theorem order_meantObj (hn : ∀ r, NoArgs (h.node r)) (verb node : Ref) : objRef t (H₀) verb node = Order.meantObj h t verb node := by
  have A : AggSpec t nodes h (H₀) := aggSpec hb hn
  unfold objRef Order.meantObj
  rw [order_relative hb hn]
  cases Order.relative h t verb node with
  | cons x l => rfl
  | nil =>
    simp only [List.head?_nil, List.nil_append, Order.reflexiveObj, A.canon, Order.first]
    by_cases k : (h.node node).canon ∈ reflexivePronouns
    · rw [if_pos k, if_pos (show Spec.Reflexive h node from k)]
      cases t.childrenVia verb .SUBJ <;> rfl
    · rw [if_neg k, if_neg (show ¬ Spec.Reflexive h node from k)]
      rfl

section
variable {ι : Type} {sel : Ev → Option ι} {r : Ref}
omit hb

theorem picked_subjEvs (hn : ∀ r, NoArgs (h.node r)) (hb : buildTree root hist = .ok t) (verb subj : Ref) :
    picked Ev.asSubj r (subjEvs t (H₀) verb subj) = Order.each (Order.sharesSubj t nodes verb) r (Order.group t nodes subj) := by
  unfold subjEvs Order.sharesSubj
  rw [picked_flatMap, order_cconjs hn, order_aggreg hn, ← each_eq]
  simp only [order_has hb, Bool.not_eq_false']
  congr 1
  · funext v
    rw [picked_map _ (Ev.subj v) v id (fun _ => rfl) (fun _ => rfl), List.map_id]
  · simp

theorem picked_objEvs (hn : ∀ r, NoArgs (h.node r)) (verb obj : Ref) :
    picked Ev.asObj r (objEvs t (H₀) verb obj) = Order.each (Order.sharesObj t nodes verb) r (Order.group t nodes obj) := by
  unfold objEvs Order.sharesObj
  rw [picked_flatMap, order_cconjs hn, order_aggreg hn, ← each_eq]
  congr 1
  funext v
  rw [picked_map _ (Ev.obj v) v id (fun _ => rfl) (fun _ => rfl), List.map_id]

theorem picked_copEvs (hn : ∀ r, NoArgs (h.node r)) (hb : buildTree root hist = .ok t) (subj copula prop : Ref) :
    picked Ev.asCop r (copEvs t (H₀) subj copula prop) = Order.each (Order.group t nodes subj) r
      (((Order.group t nodes prop).filter (Order.unmarked t)).map fun p => (copula, p)) := by
  unfold copEvs
  rw [order_aggreg hn, order_aggreg hn, ← each_eq, List.map_flatMap, picked_flatMap]
  simp only [order_unmarked hb, Bool.not_eq_false', List.map_map]
  congr 1
  funext v
  rw [picked_map _ _ v (fun p => (copula, p)) (fun _ => rfl) (fun _ => rfl)]
  simp

theorem picked_sviEvs (hn : ∀ r, NoArgs (h.node r)) (verb iprop : Ref) :
    picked Ev.asSvi r (ipropEvs t (H₀) verb iprop) = (Order.first t verb .OBJ).flatMap fun o => Order.each (Order.group t nodes o) r
        ((Order.group t nodes iprop).map fun p => ((Order.first t verb .SUBJ).head?, verb, p)) := by
  unfold ipropEvs Order.first
  rw [picked_append, picked_skip _ _ (fun _ => rfl), List.nil_append, take_head]
  cases t.childrenVia verb .OBJ with
  | nil => rfl
  | cons o l =>
    simp only [List.head?_cons, List.take_succ_cons, List.take_zero, List.flatMap_cons, List.flatMap_nil, List.append_nil]
    rw [order_aggreg hn, order_aggreg hn, ← each_eq, List.map_flatMap, picked_flatMap]
    simp only [List.map_map]
    congr 1
    funext v
    rw [picked_map _ _ v (fun p => ((t.childrenVia verb .SUBJ).head?, verb, p)) (fun _ => rfl) (fun _ => rfl)]

theorem picked_agentEvs (hn : ∀ r, NoArgs (h.node r)) (d c m : Ref) :
    picked Ev.asAgent r (agentEvs t (H₀) d c m) = if d = r ∧ (Heap.node (H₀) m).canon = c!"by" then
      match t.parent d with
      | some (dep, _) => if dep = .PROP ∨ dep = .CPL then Order.group t nodes c else []
      | none => []
    else [] := by
  unfold agentEvs
  by_cases hm : (Heap.node (H₀) m).canon = c!"by"
  · rw [if_pos hm]
    simp only [hm, and_true]
    cases t.parent d with
    | none => simp [picked_nil]
    | some q =>
      simp only
      split
      · rw [picked_map _ (Ev.agent d) d id (fun _ => rfl) (fun _ => rfl), List.map_id, order_aggreg hn]
      · simp [picked_nil]
  · rw [if_neg hm, if_neg (fun k => hm k.2)]
    rfl

/-- Events of one kind only. -/
theorem picked_subj_skip (hs : ∀ v x, sel (Ev.subj v x) = none) (h₀ : Heap) (verb subj : Ref) : picked sel r (subjEvs t h₀ verb subj) = [] := by
  unfold subjEvs
  rw [picked_flatMap]
  simp [picked_skip _ _ (hs _)]

theorem picked_obj_skip (hs : ∀ v x, sel (Ev.obj v x) = none) (h₀ : Heap) (verb subj : Ref) : picked sel r (objEvs t h₀ verb subj) = [] := by
  unfold objEvs
  rw [picked_flatMap]
  simp [picked_skip _ _ (hs _)]

theorem picked_cop_skip (hs : ∀ v x, sel (Ev.cop v x) = none) (h₀ : Heap) (a b c : Ref) : picked sel r (copEvs t h₀ a b c) = [] := by
  unfold copEvs
  exact picked_skip _ _ fun x => hs _ _

theorem picked_agent_skip (hs : ∀ v x, sel (Ev.agent v x) = none) (h₀ : Heap) (a b c : Ref) : picked sel r (agentEvs t h₀ a b c) = [] := by
  unfold agentEvs
  split
  · split
    · split
      · exact picked_skip _ _ fun x => hs _ _
      · rfl
    · rfl
  · rfl

theorem picked_neg_skip (hs : ∀ v, sel (Ev.neg v) = none) (n : Ref) : picked sel r (negEvs t n) = [] := by
  unfold negEvs
  split
  · simp [picked, hs]
  · rfl

theorem picked_naked_skip (hs : ∀ v x, sel (Ev.adj v x) = none) (hp : ∀ v x, sel (Ev.pp v x) = none) (h₀ : Heap) (n p : Ref) :
    picked sel r (nakedEvs t h₀ n p) = [] := by
  unfold nakedEvs
  split
  · rw [picked_append, picked_skip _ _ (fun x => hs _ _)]
    split
    · split
      · split
        · exact picked_skip _ _ fun x => hp _ _
        · rfl
      · rfl
    · rfl
  · rfl

theorem picked_long_skip (hs : ∀ v x, sel (Ev.subj v x) = none) (ho : ∀ v x, sel (Ev.obj v x) = none) (h₀ : Heap) (a b : List Ref) (n : Ref) :
    picked sel r (longEvs t h₀ a b n) = [] := by
  unfold longEvs
  split
  · rfl
  · split
    · split
      · exact picked_subj_skip hs _ _ _
      · rfl
    · split
      · split
        · split
          · exact picked_obj_skip ho _ _ _
          · rfl
        · rfl
      · rfl

theorem picked_cpl_skip (hs : ∀ v x, sel (Ev.adj v x) = none) (hp : ∀ v x, sel (Ev.pp v x) = none) (ha : ∀ v x, sel (Ev.agent v x) = none)
    (h₀ : Heap) (n : Ref) : picked sel r (cplEvs t h₀ n) = [] := by
  unfold cplEvs
  split
  · rw [picked_append]
    cases (t.childrenVia n .MARK).head?
    all_goals simp only [picked_naked_skip hs hp, picked_agent_skip ha, List.nil_append]
    all_goals split <;> first | rfl | exact picked_skip _ _ fun x => hs _ _
  · rfl

theorem picked_ipr_skip (hs : ∀ v x, sel (Ev.iprop v x) = none) (hp : ∀ v x, sel (Ev.svi v x) = none) (h₀ : Heap) (a b : Ref) :
    picked sel r (ipropEvs t h₀ a b) = [] := by
  unfold ipropEvs
  rw [picked_append, picked_skip _ _ fun x => hs _ _]
  split
  · rfl
  · exact picked_skip _ _ fun x => hp _ _

theorem picked_svi_skip (hp : ∀ v x, sel (Ev.svi v x) = none) (h₀ : Heap) (a b : Ref) :
    picked sel r (ipropEvs t h₀ a b) = picked sel r ((h₀.aggreg b).map (Ev.iprop a)) := by
  unfold ipropEvs
  rw [picked_append]
  conv_rhs => rw [← List.append_nil (picked _ _ _)]
  congr 1
  split
  · rfl
  · exact picked_skip _ _ fun x => hp _ _

/-- The events of the arc above a node that give subjects. -/
theorem picked_parent (h₀ : Heap) (n : Ref) (l : Dep)
    (h1 : l ≠ .SUBJ → ∀ v x, sel (Ev.subj v x) = none) (h2 : l ≠ .OBJ → ∀ v x, sel (Ev.obj v x) = none)
    (h3 : l ≠ .IOBJ → ∀ v x, sel (Ev.iobj v x) = none) (h4 : l ≠ .EXIST → ∀ v x, sel (Ev.exist v x) = none)
    (h5 : l ≠ .PROP → ∀ v x, sel (Ev.prop v x) = none) (h6 : l ≠ .PROP → ∀ v x, sel (Ev.cop v x) = none)
    (h7 : l ≠ .IPROP → ∀ v x, sel (Ev.iprop v x) = none) (h8 : l ≠ .IPROP → ∀ v x, sel (Ev.svi v x) = none) :
    picked sel r (parentEvs t h₀ n) = match t.parent n with
      | some (d, _) => if d = l then picked sel r (parentEvs t h₀ n) else []
      | none => [] := by
  unfold parentEvs
  cases t.parent n with
  | none => rfl
  | some q =>
    obtain ⟨d, p⟩ := q
    simp only
    by_cases e : d = l
    · rw [if_pos e]
    · rw [if_neg e]
      cases d <;> simp only
      case SUBJ => exact picked_subj_skip (h1 (Ne.symm e)) _ _ _
      case OBJ => exact picked_obj_skip (h2 (Ne.symm e)) _ _ _
      case IOBJ => exact picked_skip _ _ (h3 (Ne.symm e) _)
      case EXIST => exact picked_skip _ _ (h4 (Ne.symm e) _)
      case PROP =>
        rw [picked_append, picked_skip _ _ (h5 (Ne.symm e) _)]
        cases (t.childrenVia p .SUBJ).head? <;> simp only
        · rfl
        · rw [picked_cop_skip (h6 (Ne.symm e))]; rfl
      case IPROP => exact picked_ipr_skip (h7 (Ne.symm e)) (h8 (Ne.symm e)) _ _ _
      all_goals rfl

end

theorem field_eq {ι : Type} (F : Node → List ι) (sel : Ev → Option ι) (hon : ∀ e n, F (e.on n) = F n ++ (sel e).toList)
    (hF : ∀ n, NoArgs n → F n = []) (hF2 : ∀ n a b, F { n with andCconjs := a, orCconjs := b } = F n)
    (hn : ∀ r, NoArgs (h.node r)) (hneg : ∀ v, sel (Ev.neg v) = none) (r : Ref) (direct long : Ref → List ι)
    (hd : ∀ n, picked sel r (parentEvs t (H₀) n) ++ picked sel r (cplEvs t (H₀) n) = direct n)
    (hl : ∀ n ∈ nodes, picked sel r (longEvs t (H₀) (nodes.filter (isNaked t)) (nodes.filter (isMarked t)) n) = long n)
    {h' : Heap} (e : findArgs t nodes h = .ok h') : F (h'.node r) = nodes.flatMap direct ++ nodes.flatMap long := by
  have heq := findArgs_eq hb nodes h
  simp only at heq
  rw [heq] at e
  rw [← Except.ok.inj e, list_field F sel hon]
  have h0 : F (Heap.node (H₀) r) = [] := by
    rw [(aggreg_fold t nodes h).2]
    split <;> simp [hF2, hF _ (hn r)]
  rw [h0, List.nil_append]
  change picked sel r _ = _
  rw [picked_append, picked_flatMap, picked_flatMap]
  congr 1
  · congr 1
    funext n
    unfold directEvs
    rw [picked_append, picked_append, picked_neg_skip hneg, List.append_nil, hd]
  · exact List.flatMap_congr hl

/-- A kind of argument given by one label only. -/
theorem attached_eq (F : Node → List Ref) (sel : Ev → Option Ref) (mk : Ref → Ref → Ev) (l : Dep)
    (hon : ∀ e n, F (e.on n) = F n ++ (sel e).toList)
    (hF : ∀ n, NoArgs n → F n = []) (hF2 : ∀ n a b, F { n with andCconjs := a, orCconjs := b } = F n)
    (hn : ∀ r, NoArgs (h.node r)) (hneg : ∀ v, sel (Ev.neg v) = none) (hs : ∀ v x, sel (Ev.subj v x) = none)
    (ho : ∀ v x, sel (Ev.obj v x) = none) (hs1 : ∀ v x, sel (Ev.adj v x) = none) (hp : ∀ v x, sel (Ev.pp v x) = none)
    (ha : ∀ v x, sel (Ev.agent v x) = none)
    (hd : ∀ n r, picked sel r (parentEvs t (H₀) n) = if t.parent n = some (l, r) then Heap.aggreg (H₀) n else [])
    {h' : Heap} (e : findArgs t nodes h = .ok h') (r : Ref) : F (h'.node r) = Order.attached t nodes l r := by
  rw [field_eq hb F sel hon hF hF2 hn hneg r (fun n => if t.parent n = some (l, r) then Order.group t nodes n else []) (fun _ => [])
    (fun n => by rw [hd, picked_cpl_skip hs1 hp ha, List.append_nil, order_aggreg hn]) (fun n _ => picked_long_skip hs ho _ _ _ _) e]
  unfold Order.attached
  rw [flatMap_filter_eq]
  simp



omit hb in
theorem picked_iobj (n r : Ref) (h₀ : Heap) : picked Ev.asIobj r (parentEvs t h₀ n) =
    if t.parent n = some (.IOBJ, r) then h₀.aggreg n else [] := by
  rw [picked_parent _ _ .IOBJ (fun _ _ _ => rfl) (fun _ _ _ => rfl) (fun k => absurd rfl k) (fun _ _ _ => rfl) (fun _ _ _ => rfl) (fun _ _ _ => rfl) (fun _ _ _ => rfl) (fun _ _ _ => rfl)]
  unfold parentEvs
  cases t.parent n with
  | none => rfl
  | some q =>
    obtain ⟨d, p⟩ := q
    simp only [Option.some.injEq, Prod.mk.injEq]
    by_cases e : d = .IOBJ
    · subst e
      simp only [if_true, true_and]
      rw [picked_map _ (Ev.iobj p) p id (fun _ => rfl) (fun _ => rfl), List.map_id]
    · simp [e]

omit hb in
theorem picked_exist (n r : Ref) (h₀ : Heap) : picked Ev.asExist r (parentEvs t h₀ n) =
    if t.parent n = some (.EXIST, r) then h₀.aggreg n else [] := by
  rw [picked_parent _ _ .EXIST (fun _ _ _ => rfl) (fun _ _ _ => rfl) (fun _ _ _ => rfl) (fun k => absurd rfl k) (fun _ _ _ => rfl) (fun _ _ _ => rfl) (fun _ _ _ => rfl) (fun _ _ _ => rfl)]
  unfold parentEvs
  cases t.parent n with
  | none => rfl
  | some q =>
    obtain ⟨d, p⟩ := q
    simp only [Option.some.injEq, Prod.mk.injEq]
    by_cases e : d = .EXIST
    · subst e
      simp only [if_true, true_and]
      rw [picked_map _ (Ev.exist p) p id (fun _ => rfl) (fun _ => rfl), List.map_id]
    · simp [e]

omit hb in
theorem picked_props (n r : Ref) (h₀ : Heap) : picked Ev.asProp r (parentEvs t h₀ n) =
    if t.parent n = some (.PROP, r) then h₀.aggreg n else [] := by
  rw [picked_parent _ _ .PROP (fun _ _ _ => rfl) (fun _ _ _ => rfl) (fun _ _ _ => rfl) (fun _ _ _ => rfl) (fun k => absurd rfl k) (fun _ _ _ => rfl) (fun _ _ _ => rfl) (fun _ _ _ => rfl)]
  unfold parentEvs
  cases t.parent n with
  | none => rfl
  | some q =>
    obtain ⟨d, p⟩ := q
    simp only [Option.some.injEq, Prod.mk.injEq]
    by_cases e : d = .PROP
    · subst e
      simp only [if_true, true_and]
      rw [picked_append]
      cases (t.childrenVia p .SUBJ).head? <;> simp only [picked_nil, picked_cop_skip (sel := Ev.asProp) (fun _ _ => rfl), List.append_nil]
      all_goals
        rw [picked_map _ (Ev.prop p) p id (fun _ => rfl) (fun _ => rfl), List.map_id]
    · simp [e]

omit hb in
theorem picked_iprops (n r : Ref) (h₀ : Heap) : picked Ev.asIprop r (parentEvs t h₀ n) =
    if t.parent n = some (.IPROP, r) then h₀.aggreg n else [] := by
  rw [picked_parent _ _ .IPROP (fun _ _ _ => rfl) (fun _ _ _ => rfl) (fun _ _ _ => rfl) (fun _ _ _ => rfl) (fun _ _ _ => rfl) (fun _ _ _ => rfl) (fun k => absurd rfl k) (fun _ _ _ => rfl)]
  unfold parentEvs
  cases t.parent n with
  | none => rfl
  | some q =>
    obtain ⟨d, p⟩ := q
    simp only [Option.some.injEq, Prod.mk.injEq]
    by_cases e : d = .IPROP
    · subst e
      simp only [if_true, true_and]
      rw [picked_svi_skip (fun _ _ => rfl)]
      rw [picked_map _ (Ev.iprop p) p id (fun _ => rfl) (fun _ => rfl), List.map_id]
    · simp [e]


omit hb in
theorem order_first {β : Type} (p : Ref) (l : Dep) (g : Ref → List β) : (Order.first t p l).flatMap g =
    match (t.childrenVia p l).head? with
    | some s => g s
    | none => [] := by
  unfold Order.first
  cases t.childrenVia p l <;> simp

omit hb in
theorem head_none (p : Ref) (l : Dep) : ((t.childrenVia p l).head? = none) ↔ Order.without t l p = true := by
  unfold Order.without
  cases t.childrenVia p l <;> simp

theorem order_subjs (hn : ∀ r, NoArgs (h.node r)) {h' : Heap} (e : findArgs t nodes h = .ok h') (r : Ref) :
    (h'.node r).subjs = Order.subjs h t nodes r := by
  have A : AggSpec t nodes h (H₀) := aggSpec hb hn
  refine field_eq hb (·.subjs) Ev.asSubj ?_ (fun n k => k.subjs) (fun _ _ _ => rfl) hn (fun _ => rfl) r _ _ ?_ ?_ e
  · intro e n
    cases e <;> simp [Ev.on, Ev.asSubj]
  · intro n
    rw [picked_cpl_skip (fun _ _ => rfl) (fun _ _ => rfl) (fun _ _ => rfl), List.append_nil,
      picked_parent _ _ .SUBJ (fun k => absurd rfl k) (fun _ _ _ => rfl) (fun _ _ _ => rfl) (fun _ _ _ => rfl) (fun _ _ _ => rfl)
        (fun _ _ _ => rfl) (fun _ _ _ => rfl) (fun _ _ _ => rfl)]
    unfold parentEvs
    cases t.parent n with
    | none => rfl
    | some q =>
      obtain ⟨d, p⟩ := q
      cases d <;> simp only [reduceCtorEq, if_false, if_true]
      rw [picked_subjEvs hn hb, order_meantSubj hb hn]
  · intro n hm
    unfold longEvs
    simp only [A.tag, List.mem_filter, hm, true_and, order_has hb, Bool.not_eq_false', isMarked, isNaked]
    cases t.parent n with
    | none => rfl
    | some q =>
      obtain ⟨d, p⟩ := q
      have obj : ∀ c : Prop, [Decidable c] → picked Ev.asSubj r (if c then
          match (t.childrenVia n .SUBJ).head? with
          | some subj => if (Heap.node (H₀) subj).canon ∉ relativePronouns then objEvs t (H₀) n p else []
          | none => []
        else []) = [] := by
        intro c _
        split
        · split
          · split
            · exact picked_obj_skip (fun _ _ => rfl) _ _ _
            · rfl
          · rfl
        · rfl
      cases d <;> simp only [Bool.false_eq_true, false_and, if_false, picked_nil]
      simp only [decide_eq_true_eq, ne_eq, head_none, Bool.not_eq_true]
      by_cases c : Order.without t .MARK n = false ∧ (h.node n).tag = .VERB ∧ Order.without t .SUBJ n = true ∧ (h.node p).tag = .VERB
      · rw [if_pos c, if_pos c, order_first]
        cases (t.childrenVia p .SUBJ).head? with
        | none => rfl
        | some s => exact picked_subjEvs hn hb _ _
      · rw [if_neg c, if_neg c]
        exact obj _

theorem order_objs (hn : ∀ r, NoArgs (h.node r)) {h' : Heap} (e : findArgs t nodes h = .ok h') (r : Ref) :
    (h'.node r).objs = Order.objs h t nodes r := by
  have A : AggSpec t nodes h (H₀) := aggSpec hb hn
  refine field_eq hb (·.objs) Ev.asObj ?_ (fun n k => k.objs) (fun _ _ _ => rfl) hn (fun _ => rfl) r _ _ ?_ ?_ e
  · intro e n
    cases e <;> simp [Ev.on, Ev.asObj]
  · intro n
    rw [picked_cpl_skip (fun _ _ => rfl) (fun _ _ => rfl) (fun _ _ => rfl), List.append_nil,
      picked_parent _ _ .OBJ (fun _ _ _ => rfl) (fun k => absurd rfl k) (fun _ _ _ => rfl) (fun _ _ _ => rfl) (fun _ _ _ => rfl)
        (fun _ _ _ => rfl) (fun _ _ _ => rfl) (fun _ _ _ => rfl)]
    unfold parentEvs
    cases t.parent n with
    | none => rfl
    | some q =>
      obtain ⟨d, p⟩ := q
      cases d <;> simp only [reduceCtorEq, if_false, if_true]
      rw [picked_objEvs hn, order_meantObj hb hn]
  · intro n hm
    unfold longEvs
    simp only [A.tag, List.mem_filter, hm, true_and, order_has hb, Bool.not_eq_false', isMarked, isNaked]
    cases t.parent n with
    | none => rfl
    | some q =>
      obtain ⟨d, p⟩ := q
      cases d <;> simp only [Bool.false_eq_true, false_and, if_false, picked_nil]
      simp only [decide_eq_true_eq, ne_eq, head_none, Bool.not_eq_true]
      have u : Order.unmarked t n = true ↔ Order.without t .MARK n = true ∧ Order.without t .IMARK n = true ∧ Order.without t .CMARK n = true := by
        simp only [Order.unmarked, Bool.and_eq_true]; tauto
      by_cases c : Order.without t .MARK n = false ∧ (h.node n).tag = .VERB ∧ Order.without t .SUBJ n = true ∧ (h.node p).tag = .VERB
      · rw [if_pos c, if_neg (fun k => by rw [(u.mp k.1).1] at c; exact absurd c.1 (by decide))]
        cases (t.childrenVia p .SUBJ).head? with
        | none => rfl
        | some s => exact picked_subj_skip (fun _ _ => rfl) _ _ _
      · rw [if_neg c, order_first]
        simp only [u]
        by_cases c2 : (Order.without t .MARK n = true ∧ Order.without t .IMARK n = true ∧ Order.without t .CMARK n = true) ∧
            (h.node p).tag ∈ nominal ∧ Order.without t .OBJ n = true
        · rw [if_pos c2, if_pos (show _ ∧ (h.node p).tag ∈ nounTags ∧ _ from c2)]
          cases (t.childrenVia n .SUBJ).head? with
          | none => rfl
          | some s =>
            simp only [A.canon, relativePronouns]
            by_cases c3 : (h.node s).canon ∈ [c!"that", c!"which", c!"who"]
            · rw [if_neg (fun k => k c3), if_pos c3]; rfl
            · rw [if_pos c3, if_neg c3]
              exact picked_objEvs hn _ _
        · rw [if_neg c2, if_neg (show ¬ (_ ∧ (h.node p).tag ∈ nounTags ∧ _) from c2)]
          rfl

theorem order_copulas (hn : ∀ r, NoArgs (h.node r)) {h' : Heap} (e : findArgs t nodes h = .ok h') (r : Ref) :
    (h'.node r).copulasProps = Order.copulas h t nodes r := by
  have := field_eq hb (·.copulasProps) Ev.asCop (by intro e n; cases e <;> simp [Ev.on, Ev.asCop]) (fun n k => k.copulasProps)
    (fun _ _ _ => rfl) hn (fun _ => rfl) r
    (fun n => match t.parent n with
      | some (.PROP, c) => (Order.first t c .SUBJ).flatMap fun s => Order.each (Order.group t nodes ((Order.relative h t c s).headD s)) r
          (((Order.group t nodes n).filter (Order.unmarked t)).map fun p => (c, p))
      | _ => []) (fun _ => []) ?_ (fun n _ => picked_long_skip (fun _ _ => rfl) (fun _ _ => rfl) _ _ _ _) e
  · rw [this, flatMap_none, List.append_nil]
    rfl
  · intro n
    rw [picked_cpl_skip (fun _ _ => rfl) (fun _ _ => rfl) (fun _ _ => rfl), List.append_nil,
      picked_parent _ _ .PROP (fun _ _ _ => rfl) (fun _ _ _ => rfl) (fun _ _ _ => rfl) (fun _ _ _ => rfl) (fun k => absurd rfl k)
        (fun k => absurd rfl k) (fun _ _ _ => rfl) (fun _ _ _ => rfl)]
    unfold parentEvs
    cases t.parent n with
    | none => rfl
    | some q =>
      obtain ⟨d, p⟩ := q
      cases d <;> simp only [reduceCtorEq, if_false, if_true]
      rw [picked_append, picked_skip _ _ (fun _ => rfl), List.nil_append, order_first]
      cases (t.childrenVia p .SUBJ).head? with
      | none => rfl
      | some s =>
        simp only
        rw [picked_copEvs hn hb, order_relative hb hn]
        cases Order.relative h t p s <;> rfl

theorem order_called (hn : ∀ r, NoArgs (h.node r)) {h' : Heap} (e : findArgs t nodes h = .ok h') (r : Ref) :
    (h'.node r).subjsVerbsIprops = Order.called t nodes r := by
  have := field_eq hb (·.subjsVerbsIprops) Ev.asSvi (by intro e n; cases e <;> simp [Ev.on, Ev.asSvi]) (fun n k => k.subjsVerbsIprops)
    (fun _ _ _ => rfl) hn (fun _ => rfl) r
    (fun n => match t.parent n with
      | some (.IPROP, v) => (Order.first t v .OBJ).flatMap fun o => Order.each (Order.group t nodes o) r
          ((Order.group t nodes n).map fun p => ((Order.first t v .SUBJ).head?, v, p))
      | _ => []) (fun _ => []) ?_ (fun n _ => picked_long_skip (fun _ _ => rfl) (fun _ _ => rfl) _ _ _ _) e
  · rw [this, flatMap_none, List.append_nil]
    rfl
  · intro n
    rw [picked_cpl_skip (fun _ _ => rfl) (fun _ _ => rfl) (fun _ _ => rfl), List.append_nil,
      picked_parent _ _ .IPROP (fun _ _ _ => rfl) (fun _ _ _ => rfl) (fun _ _ _ => rfl) (fun _ _ _ => rfl) (fun _ _ _ => rfl)
        (fun _ _ _ => rfl) (fun k => absurd rfl k) (fun k => absurd rfl k)]
    unfold parentEvs
    cases t.parent n with
    | none => rfl
    | some q =>
      obtain ⟨d, p⟩ := q
      cases d <;> simp only [reduceCtorEq, if_false, if_true]
      exact picked_sviEvs hn _ _

theorem order_adjs (hn : ∀ r, NoArgs (h.node r)) {h' : Heap} (e : findArgs t nodes h = .ok h') (r : Ref) :
    (h'.node r).adjs = Order.adjs h t nodes r := by
  have A : AggSpec t nodes h (H₀) := aggSpec hb hn
  have := field_eq hb (·.adjs) Ev.asAdj (by intro e n; cases e <;> simp [Ev.on, Ev.asAdj]) (fun n k => k.adjs)
    (fun _ _ _ => rfl) hn (fun _ => rfl) r
    (fun n => match t.parent n with
      | some (.CPL, p) =>
        (if p = r ∧ Order.without t .MARK n = true ∧ (h.node n).tag = .ADJ then Order.group t nodes n else []) ++
        if n = r ∧ Order.without t .CMARK n = false ∧ (h.node p).tag = .ADJ ∧ (h.node n).tag ∈ nominal then Order.group t nodes p else []
      | _ => []) (fun _ => []) ?_ (fun n _ => picked_long_skip (fun _ _ => rfl) (fun _ _ => rfl) _ _ _ _) e
  · rw [this, flatMap_none, List.append_nil]
    rfl
  · intro n
    rw [picked_parent _ _ .CPL (fun _ _ _ => rfl) (fun _ _ _ => rfl) (fun _ _ _ => rfl) (fun _ _ _ => rfl) (fun _ _ _ => rfl)
        (fun _ _ _ => rfl) (fun _ _ _ => rfl) (fun _ _ _ => rfl)]
    unfold parentEvs cplEvs
    cases t.parent n with
    | none => rfl
    | some q =>
      obtain ⟨d, p⟩ := q
      cases d <;> simp only [reduceCtorEq, if_false, if_true, picked_nil, List.nil_append]
      rw [picked_append]
      congr 1
      · unfold Order.without
        cases t.childrenVia n .MARK with
        | cons m l =>
          simp only [List.head?_cons, picked_agent_skip (sel := Ev.asAdj) (fun _ _ => rfl)]
          simp
        | nil =>
          simp only [List.head?_nil, nakedEvs, A.tag]
          by_cases c : (h.node n).tag = .ADJ
          · rw [if_pos c, picked_append, picked_map _ (Ev.adj p) p id (fun _ => rfl) (fun _ => rfl), List.map_id, order_aggreg hn]
            have z : ∀ (x : Option Ref), picked Ev.asAdj r (if (h.node p).tag ∈ nounTags then
                match x with
                | some prop => if (Heap.node (H₀) n).suffix = some .PAST then
                    (((H₀).aggreg prop).map fun x => (n, x)).map (Ev.pp p) else []
                | none => []
              else []) = [] := by
              intro x
              split
              · cases x
                · rfl
                · simp only
                  split
                  · exact picked_skip _ _ fun _ => rfl
                  · rfl
              · rfl
            refine (congrArg _ (z _)).trans ?_
            simp [c]
          · rw [if_neg c]
            simp [c, picked_nil]
      · simp only [ne_eq, head_none, Bool.not_eq_true, A.tag]
        by_cases c : Order.without t .CMARK n = false ∧ (h.node p).tag = .ADJ ∧ (h.node n).tag ∈ nominal
        · rw [if_pos (show _ ∧ _ ∧ (h.node n).tag ∈ nounTags from c), picked_map _ (Ev.adj n) n id (fun _ => rfl) (fun _ => rfl), List.map_id,
            order_aggreg hn]
          simp [c]
        · rw [if_neg (show ¬ (_ ∧ _ ∧ (h.node n).tag ∈ nounTags) from c), if_neg (fun k => c k.2)]
          rfl

theorem order_pps (hn : ∀ r, NoArgs (h.node r)) {h' : Heap} (e : findArgs t nodes h = .ok h') (r : Ref) :
    (h'.node r).ppsProps = Order.pps h t nodes r := by
  have A : AggSpec t nodes h (H₀) := aggSpec hb hn
  have := field_eq hb (·.ppsProps) Ev.asPp (by intro e n; cases e <;> simp [Ev.on, Ev.asPp]) (fun n k => k.ppsProps)
    (fun _ _ _ => rfl) hn (fun _ => rfl) r
    (fun n => if (decide (t.parent n = some (.CPL, r) ∧ Order.without t .MARK n = true ∧ (h.node n).tag = .ADJ ∧ (h.node r).tag ∈ nominal ∧
      (h.node n).suffix = some .PAST)) = true then (Order.first t n .PROP).flatMap fun p => (Order.group t nodes p).map fun x => (n, x)
      else []) (fun _ => []) ?_ (fun n _ => picked_long_skip (fun _ _ => rfl) (fun _ _ => rfl) _ _ _ _) e
  · rw [this, flatMap_none, List.append_nil, Order.pps, flatMap_filter_eq]
  · intro n
    rw [picked_parent _ _ .CPL (fun _ _ _ => rfl) (fun _ _ _ => rfl) (fun _ _ _ => rfl) (fun _ _ _ => rfl) (fun _ _ _ => rfl)
        (fun _ _ _ => rfl) (fun _ _ _ => rfl) (fun _ _ _ => rfl)]
    unfold parentEvs cplEvs
    cases t.parent n with
    | none => rfl
    | some q =>
      obtain ⟨d, p⟩ := q
      cases d <;> simp only [reduceCtorEq, if_false, if_true, picked_nil, List.nil_append, Option.some.injEq, Prod.mk.injEq, false_and,
        true_and, decide_false, Bool.false_eq_true]
      rw [picked_append]
      have z : ∀ c : Prop, [Decidable c] → picked Ev.asPp r (if c then ((H₀).aggreg p).map (Ev.adj n) else []) = [] := by
        intro c _
        split
        · exact picked_skip _ _ fun _ => rfl
        · rfl
      rw [z, List.append_nil]
      simp only [Order.without, order_first, decide_eq_true_eq]
      cases t.childrenVia n .MARK with
      | cons m l =>
        simp only [List.head?_cons, picked_agent_skip (sel := Ev.asPp) (fun _ _ => rfl)]
        simp
      | nil =>
        simp only [List.head?_nil, nakedEvs, A.tag, A.suffix, true_and]
        by_cases c : (h.node n).tag = .ADJ
        · rw [if_pos c, picked_append, picked_skip _ _ (fun _ => rfl), List.nil_append]
          by_cases c2 : (h.node p).tag ∈ nominal
          · rw [if_pos (show (h.node p).tag ∈ nounTags from c2)]
            cases (t.childrenVia n .PROP).head? with
            | none => simp [picked_nil]
            | some x =>
              simp only [List.map_map]
              by_cases c3 : (h.node n).suffix = some .PAST
              · rw [if_pos c3, picked_map _ _ p (fun x => (n, x)) (fun _ => rfl) (fun _ => rfl), order_aggreg hn]
                by_cases c4 : p = r
                · subst c4; simp [c, c2, c3]
                · simp [c4]
              · simp [c3, picked_nil]
          · rw [if_neg (show ¬ (h.node p).tag ∈ nounTags from c2), picked_nil, if_neg]
            intro k
            exact c2 (k.1 ▸ k.2.2.1)
        · simp [c, picked_nil]

theorem order_agents (hn : ∀ r, NoArgs (h.node r)) {h' : Heap} (e : findArgs t nodes h = .ok h') (r : Ref) :
    (h'.node r).agents = Order.agents h t nodes r := by
  have A : AggSpec t nodes h (H₀) := aggSpec hb hn
  have := field_eq hb (·.agents) Ev.asAgent (by intro e n; cases e <;> simp [Ev.on, Ev.asAgent]) (fun n k => k.agents)
    (fun _ _ _ => rfl) hn (fun _ => rfl) r
    (fun n => if (decide (t.parent n = some (.CPL, r))) = true then (Order.first t n .MARK).flatMap fun m =>
      if (h.node m).canon = c!"by" then
        match t.parent r with
        | some (d, _) => if d = .PROP ∨ d = .CPL then Order.group t nodes n else []
        | none => []
      else [] else [])
    (fun _ => []) ?_ (fun n _ => picked_long_skip (fun _ _ => rfl) (fun _ _ => rfl) _ _ _ _) e
  · rw [this, flatMap_none, List.append_nil, Order.agents]
    cases t.parent r with
    | none => simp
    | some q =>
      obtain ⟨d, p⟩ := q
      simp only
      by_cases c : d = .PROP ∨ d = .CPL
      · simp only [if_pos c]
        rw [flatMap_filter_eq]
      · simp [c]
  · intro n
    rw [picked_parent _ _ .CPL (fun _ _ _ => rfl) (fun _ _ _ => rfl) (fun _ _ _ => rfl) (fun _ _ _ => rfl) (fun _ _ _ => rfl)
        (fun _ _ _ => rfl) (fun _ _ _ => rfl) (fun _ _ _ => rfl)]
    unfold parentEvs cplEvs
    cases t.parent n with
    | none => rfl
    | some q =>
      obtain ⟨d, p⟩ := q
      cases d <;> simp only [reduceCtorEq, if_false, if_true, picked_nil, List.nil_append, Option.some.injEq, Prod.mk.injEq, false_and,
        true_and, decide_false, Bool.false_eq_true]
      rw [picked_append]
      have z : ∀ c : Prop, [Decidable c] → picked Ev.asAgent r (if c then ((H₀).aggreg p).map (Ev.adj n) else []) = [] := by
        intro c _
        split
        · exact picked_skip _ _ fun _ => rfl
        · rfl
      rw [z, List.append_nil, order_first]
      cases (t.childrenVia n .MARK).head? with
      | none =>
        simp only [picked_naked_skip (sel := Ev.asAgent) (fun _ _ => rfl) (fun _ _ => rfl)]
        simp
      | some m =>
        simp only [picked_agentEvs hn, A.canon, decide_eq_true_eq]
        by_cases c : p = r
        · subst c; simp
        · simp [c]

/-- All lists of arguments. -/
theorem order_lists (hn : ∀ r, NoArgs (h.node r)) {h' : Heap} (e : findArgs t nodes h = .ok h') : Order.Lists h t nodes h' := by
  have conj : ∀ r, (h'.node r).andCconjs = (Heap.node (H₀) r).andCconjs ∧ (h'.node r).orCconjs = (Heap.node (H₀) r).orCconjs := by
    intro r
    have heq := findArgs_eq hb nodes h
    simp only at heq
    rw [heq] at e
    rw [← Except.ok.inj e]
    have := ((Static.refl (H₀)).applyEvs (nodes.flatMap (directEvs t (H₀)) ++
      nodes.flatMap (longEvs t (H₀) (nodes.filter (isNaked t)) (nodes.filter (isMarked t))))).2 r
    exact ⟨by simpa [Node.erase] using congrArg Node.andCconjs this, by simpa [Node.erase] using congrArg Node.orCconjs this⟩
  refine ⟨?_, ?_, order_subjs hb hn e, order_objs hb hn e, ?_, ?_, ?_, ?_, order_adjs hb hn e, order_pps hb hn e,
    order_copulas hb hn e, order_called hb hn e, order_agents hb hn e⟩
  · intro r
    rw [(conj r).1, (aggreg_fold t nodes h).2]
    split
    · rfl
    · exact (hn r).andCconjs
  · intro r
    rw [(conj r).2, (aggreg_fold t nodes h).2]
    split
    · rfl
    · exact (hn r).orCconjs
  · exact attached_eq hb (·.iobjs) Ev.asIobj Ev.iobj .IOBJ (by intro e n; cases e <;> simp [Ev.on, Ev.asIobj]) (fun n k => k.iobjs)
      (fun _ _ _ => rfl) hn (fun _ => rfl) (fun _ _ => rfl) (fun _ _ => rfl) (fun _ _ => rfl) (fun _ _ => rfl) (fun _ _ => rfl)
      (fun n r => picked_iobj n r _) e
  · exact attached_eq hb (·.exist) Ev.asExist Ev.exist .EXIST (by intro e n; cases e <;> simp [Ev.on, Ev.asExist]) (fun n k => k.exist)
      (fun _ _ _ => rfl) hn (fun _ => rfl) (fun _ _ => rfl) (fun _ _ => rfl) (fun _ _ => rfl) (fun _ _ => rfl) (fun _ _ => rfl)
      (fun n r => picked_exist n r _) e
  · exact attached_eq hb (·.props) Ev.asProp Ev.prop .PROP (by intro e n; cases e <;> simp [Ev.on, Ev.asProp]) (fun n k => k.props)
      (fun _ _ _ => rfl) hn (fun _ => rfl) (fun _ _ => rfl) (fun _ _ => rfl) (fun _ _ => rfl) (fun _ _ => rfl) (fun _ _ => rfl)
      (fun n r => picked_props n r _) e
  · exact attached_eq hb (·.iprops) Ev.asIprop Ev.iprop .IPROP (by intro e n; cases e <;> simp [Ev.on, Ev.asIprop]) (fun n k => k.iprops)
      (fun _ _ _ => rfl) hn (fun _ => rfl) (fun _ _ => rfl) (fun _ _ => rfl) (fun _ _ => rfl) (fun _ _ => rfl) (fun _ _ => rfl)
      (fun n r => picked_iprops n r _) e

end
end Model
