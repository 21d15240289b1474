import Verif.Model.ArgFinder
import Verif.Lemmas.Tree
import Verif.Spec.Nodes

/-! Lemmas on argument finding: every registration is a sequence of single events. -/

namespace Model
open Py Spec

/-- One registration. -/
inductive Ev
  | subj (v x : Ref) | obj (v x : Ref) | iobj (v x : Ref) | exist (v x : Ref) | prop (v x : Ref) | iprop (v x : Ref)
  | adj (v x : Ref) | pp (v : Ref) (x : Ref × Ref) | cop (v : Ref) (x : Ref × Ref)
  | svi (v : Ref) (x : Option Ref × Ref × Ref) | agent (v x : Ref) | neg (v : Ref)

def Ev.target : Ev → Ref
  | .subj v _ | .obj v _ | .iobj v _ | .exist v _ | .prop v _ | .iprop v _ | .adj v _ | .pp v _ | .cop v _ | .svi v _
  | .agent v _ | .neg v => v

def Ev.on : Ev → Node → Node
  | .subj _ x, n => { n with subjs := n.subjs ++ [x] }
  | .obj _ x, n => { n with objs := n.objs ++ [x] }
  | .iobj _ x, n => { n with iobjs := n.iobjs ++ [x] }
  | .exist _ x, n => { n with exist := n.exist ++ [x] }
  | .prop _ x, n => { n with props := n.props ++ [x] }
  | .iprop _ x, n => { n with iprops := n.iprops ++ [x] }
  | .adj _ x, n => { n with adjs := n.adjs ++ [x] }
  | .pp _ x, n => { n with ppsProps := n.ppsProps ++ [x] }
  | .cop _ x, n => { n with copulasProps := n.copulasProps ++ [x] }
  | .svi _ x, n => { n with subjsVerbsIprops := n.subjsVerbsIprops ++ [x] }
  | .agent _ x, n => { n with agents := n.agents ++ [x] }
  | .neg _, n => { n with isAff := false }

def applyEv (h : Heap) (e : Ev) : Heap := h.upd e.target e.on

def applyEvs (h : Heap) (es : List Ev) : Heap := es.foldl applyEv h

theorem applyEvs_append (h : Heap) (a b : List Ev) : applyEvs h (a ++ b) = applyEvs (applyEvs h a) b := by
  simp [applyEvs]

theorem upd_comp (h : Heap) (v : Ref) (f g : Node → Node) : (h.upd v f).upd v g = h.upd v (fun n => g (f n)) := by
  unfold Heap.upd
  simp only [Heap.mk.injEq, true_and]
  funext r
  by_cases e : r = v <;> simp [e]

theorem upd_self (h : Heap) (v : Ref) (f : Node → Node) (hf : f (h.node v) = h.node v) : h.upd v f = h := by
  unfold Heap.upd
  cases h
  simp only [Heap.mk.injEq, true_and]
  funext r
  by_cases e : r = v
  · subst e; simpa using hf
  · simp [e]

theorem upd_congr (h : Heap) (v : Ref) (f g : Node → Node) (hf : f (h.node v) = g (h.node v)) : h.upd v f = h.upd v g := by
  unfold Heap.upd
  simp only [Heap.mk.injEq, true_and]
  funext r
  by_cases e : r = v <;> simp [e, hf]

/-- An extension of a list is a sequence of events. -/
theorem upd_events {ι : Type} (v : Ref) (mk : ι → Ev) (ht : ∀ x, (mk x).target = v) (F : List ι → Node → Node)
    (h0 : ∀ n, F [] n = n) (hc : ∀ x l n, F (x :: l) n = F l ((mk x).on n)) (l : List ι) :
    ∀ h : Heap, h.upd v (F l) = applyEvs h (l.map mk) := by
  induction l with
  | nil => intro h; exact upd_self h v _ (h0 _)
  | cons x l ih =>
    intro h
    have : applyEvs h ((x :: l).map mk) = applyEvs (applyEv h (mk x)) (l.map mk) := rfl
    rw [this, ← ih, applyEv, ht, upd_comp]
    exact upd_congr h v _ _ (hc x l _)

theorem upd_subjs (h : Heap) (v : Ref) (l : List Ref) :
    h.upd v (fun n => { n with subjs := n.subjs ++ l }) = applyEvs h (l.map (Ev.subj v)) :=
  upd_events v (Ev.subj v) (fun _ => rfl) (fun l n => { n with subjs := n.subjs ++ l }) (by simp)
    (by intro x l n; simp [Ev.on]) l h
theorem upd_objs (h : Heap) (v : Ref) (l : List Ref) :
    h.upd v (fun n => { n with objs := n.objs ++ l }) = applyEvs h (l.map (Ev.obj v)) :=
  upd_events v (Ev.obj v) (fun _ => rfl) (fun l n => { n with objs := n.objs ++ l }) (by simp)
    (by intro x l n; simp [Ev.on]) l h
theorem upd_iobjs (h : Heap) (v : Ref) (l : List Ref) :
    h.upd v (fun n => { n with iobjs := n.iobjs ++ l }) = applyEvs h (l.map (Ev.iobj v)) :=
  upd_events v (Ev.iobj v) (fun _ => rfl) (fun l n => { n with iobjs := n.iobjs ++ l }) (by simp)
    (by intro x l n; simp [Ev.on]) l h
theorem upd_exist (h : Heap) (v : Ref) (l : List Ref) :
    h.upd v (fun n => { n with exist := n.exist ++ l }) = applyEvs h (l.map (Ev.exist v)) :=
  upd_events v (Ev.exist v) (fun _ => rfl) (fun l n => { n with exist := n.exist ++ l }) (by simp)
    (by intro x l n; simp [Ev.on]) l h
theorem upd_props (h : Heap) (v : Ref) (l : List Ref) :
    h.upd v (fun n => { n with props := n.props ++ l }) = applyEvs h (l.map (Ev.prop v)) :=
  upd_events v (Ev.prop v) (fun _ => rfl) (fun l n => { n with props := n.props ++ l }) (by simp)
    (by intro x l n; simp [Ev.on]) l h
theorem upd_iprops (h : Heap) (v : Ref) (l : List Ref) :
    h.upd v (fun n => { n with iprops := n.iprops ++ l }) = applyEvs h (l.map (Ev.iprop v)) :=
  upd_events v (Ev.iprop v) (fun _ => rfl) (fun l n => { n with iprops := n.iprops ++ l }) (by simp)
    (by intro x l n; simp [Ev.on]) l h
theorem upd_adjs (h : Heap) (v : Ref) (l : List Ref) :
    h.upd v (fun n => { n with adjs := n.adjs ++ l }) = applyEvs h (l.map (Ev.adj v)) :=
  upd_events v (Ev.adj v) (fun _ => rfl) (fun l n => { n with adjs := n.adjs ++ l }) (by simp)
    (by intro x l n; simp [Ev.on]) l h
theorem upd_pps (h : Heap) (v : Ref) (l : List (Ref × Ref)) :
    h.upd v (fun n => { n with ppsProps := n.ppsProps ++ l }) = applyEvs h (l.map (Ev.pp v)) :=
  upd_events v (Ev.pp v) (fun _ => rfl) (fun l n => { n with ppsProps := n.ppsProps ++ l }) (by simp)
    (by intro x l n; simp [Ev.on]) l h

/-- The node without its arguments and polarity: what no event changes. -/
def Node.erase (n : Node) : Node :=
  { n with isAff := true, subjs := [], objs := [], exist := [], props := [], iprops := [], iobjs := [], adjs := [],
           subjsVerbsIprops := [], copulasProps := [], ppsProps := [], agents := [] }

/-- Same objects up to arguments and polarity. -/
def Static (h₀ h : Heap) : Prop := h.next = h₀.next ∧ ∀ r, (h.node r).erase = (h₀.node r).erase

theorem Static.refl (h : Heap) : Static h h := ⟨rfl, fun _ => rfl⟩

theorem Static.applyEv {h₀ h : Heap} (hs : Static h₀ h) (e : Ev) : Static h₀ (applyEv h e) := by
  refine ⟨hs.1, ?_⟩
  intro r
  rw [← hs.2 r]
  simp only [Model.applyEv, Heap.upd]
  by_cases he : r = e.target
  · subst he
    rw [if_pos rfl]
    cases e <;> rfl
  · rw [if_neg he]

theorem Static.applyEvs {h₀ h : Heap} (hs : Static h₀ h) (es : List Ev) : Static h₀ (applyEvs h es) := by
  induction es generalizing h with
  | nil => exact hs
  | cons e es ih => exact ih (hs.applyEv e)

section
variable {h₀ h : Heap} (hs : Static h₀ h) (r : Ref)
include hs

theorem Static.tag : (h.node r).tag = (h₀.node r).tag := (congrArg Node.tag (hs.2 r) : _)
theorem Static.canon : (h.node r).canon = (h₀.node r).canon := (congrArg Node.canon (hs.2 r) : _)
theorem Static.suffix : (h.node r).suffix = (h₀.node r).suffix := (congrArg Node.suffix (hs.2 r) : _)
theorem Static.andC : (h.node r).andCconjs = (h₀.node r).andCconjs := (congrArg Node.andCconjs (hs.2 r) : _)
theorem Static.orC : (h.node r).orCconjs = (h₀.node r).orCconjs := (congrArg Node.orCconjs (hs.2 r) : _)
theorem Static.aggreg : h.aggreg r = h₀.aggreg r := by simp only [Heap.aggreg, hs.andC, hs.orC]
theorem Static.cconjs : (h.node r).cconjs = (h₀.node r).cconjs := by simp only [Node.cconjs, hs.andC, hs.orC]

end

theorem flatMap_single {α β : Type} (f : α → β) (l : List α) : l.flatMap (fun x => [f x]) = l.map f := by
  induction l with
  | nil => rfl
  | cons x l ih => simp [ih]

theorem flatMap_none {α β : Type} (l : List α) : l.flatMap (fun _ => ([] : List β)) = [] := by
  induction l with
  | nil => rfl
  | cons x l ih => simp

/-- A loop of extensions is a sequence of events. -/
theorem foldl_events {ι : Type} {h₀ : Heap} (f : Heap → ι → Heap) (evs : ι → List Ev)
    (hf : ∀ h x, Static h₀ h → f h x = applyEvs h (evs x)) (l : List ι) :
    ∀ h, Static h₀ h → l.foldl f h = applyEvs h (l.flatMap evs) := by
  induction l with
  | nil => intro h _; rfl
  | cons x l ih =>
    intro h hs
    rw [List.foldl_cons, hf h x hs, ih _ (hs.applyEvs _), List.flatMap_cons, applyEvs_append]

/-- A loop of steps that raise nothing is a sequence of events. -/
theorem foldlM_events {ι : Type} {h₀ : Heap} (f : Heap → ι → Except PyErr Heap) (evs : ι → List Ev)
    (hf : ∀ h x, Static h₀ h → f h x = .ok (applyEvs h (evs x))) (l : List ι) :
    ∀ h, Static h₀ h → l.foldlM f h = .ok (applyEvs h (l.flatMap evs)) := by
  induction l with
  | nil => intro h _; rfl
  | cons x l ih =>
    intro h hs
    rw [List.foldlM_cons, hf h x hs, List.flatMap_cons, applyEvs_append]
    exact ih _ (hs.applyEvs _)

section
variable (t : Tree Dep Ref) (h₀ : Heap)

def subjEvs (verb subj : Ref) : List Ev :=
  (verb :: (h₀.node verb).cconjs.filter fun v => t.hasChildVia v .SUBJ = false).flatMap
    fun v => (h₀.aggreg subj).map (Ev.subj v)

def objEvs (verb obj : Ref) : List Ev :=
  (verb :: (h₀.node verb).cconjs.filter fun v => t.children v = []).flatMap fun v => (h₀.aggreg obj).map (Ev.obj v)

def copEvs (subj copula prop : Ref) : List Ev :=
  ((h₀.aggreg subj).flatMap fun s => ((h₀.aggreg prop).filter fun p => t.hasChildViaSet p markerDeps = false).map
    fun p => (s, p)).map fun sp => Ev.cop sp.1 (copula, sp.2)

def ipropEvs (verb iprop : Ref) : List Ev :=
  (h₀.aggreg iprop).map (Ev.iprop verb) ++
  match (t.childrenVia verb .OBJ).head? with
  | none => []
  | some o => ((h₀.aggreg o).flatMap fun o => (h₀.aggreg iprop).map fun ip => (o, ip)).map
      fun q => Ev.svi q.1 ((t.childrenVia verb .SUBJ).head?, verb, q.2)

def agentEvs (describee cpl marker : Ref) : List Ev :=
  if (h₀.node marker).canon = c!"by" then
    match t.parent describee with
    | some (dep, _) => if dep = .PROP ∨ dep = .CPL then (h₀.aggreg cpl).map (Ev.agent describee) else []
    | none => []
  else []

variable {t h₀}

theorem registerSubjs_eq {h : Heap} (hs : Static h₀ h) (verb subj : Ref) :
    registerSubjs t verb subj h = applyEvs h (subjEvs t h₀ verb subj) := by
  unfold registerSubjs subjEvs
  rw [hs.cconjs]
  refine foldl_events (h₀ := h₀) _ _ ?_ _ h hs
  intro h x hs
  rw [upd_subjs, hs.aggreg]

theorem registerObjs_eq {h : Heap} (hs : Static h₀ h) (verb obj : Ref) :
    registerObjs t verb obj h = applyEvs h (objEvs t h₀ verb obj) := by
  unfold registerObjs objEvs
  rw [hs.cconjs]
  refine foldl_events (h₀ := h₀) _ _ ?_ _ h hs
  intro h x hs
  rw [upd_objs, hs.aggreg]

theorem registerPropsViaCopula_eq {h : Heap} (hs : Static h₀ h) (subj copula prop : Ref) :
    registerPropsViaCopula t subj copula prop h = applyEvs h (copEvs t h₀ subj copula prop) := by
  unfold registerPropsViaCopula copEvs
  rw [hs.aggreg, hs.aggreg]
  rw [foldl_events (h₀ := h₀) _ (fun sp => [Ev.cop sp.1 (copula, sp.2)]) ?_ _ h hs]
  · rw [flatMap_single]
  · intro h x hs
    rfl

theorem registerIprops_eq (root : Ref) (hist : List (Dep × Ref × Ref)) (hb : buildTree root hist = .ok t) {h : Heap}
    (hs : Static h₀ h) (verb iprop : Ref) :
    registerIprops t verb iprop h = .ok (applyEvs h (ipropEvs t h₀ verb iprop)) := by
  unfold registerIprops ipropEvs
  have hc : ∀ x l, t.childVia x l = .ok (t.childrenVia x l).head? := fun x l => (tree_queries root hist t hb x l []).2.2.2.2.1
  simp only [hc, bind, Except.bind, upd_iprops, hs.aggreg]
  have hs' := hs.applyEvs ((h₀.aggreg iprop).map (Ev.iprop verb))
  cases (t.childrenVia verb .OBJ).head? with
  | none => simp; rfl
  | some o =>
    simp only
    rw [applyEvs_append, hs'.aggreg]
    simp only [hs'.aggreg]
    rw [foldl_events (h₀ := h₀) _ (fun q => [Ev.svi q.1 ((t.childrenVia verb .SUBJ).head?, verb, q.2)]) ?_ _ _ hs']
    · rw [flatMap_single]; rfl
    · intro h x hs; rfl

theorem registerAgents_eq {h : Heap} (hs : Static h₀ h) (describee cpl marker : Ref) :
    registerAgents t describee cpl marker h = applyEvs h (agentEvs t h₀ describee cpl marker) := by
  unfold registerAgents
  rw [hs.aggreg]
  rw [foldl_events (h₀ := h₀) _ (fun c => if (h₀.node marker).canon = c!"by" then
    match t.parent describee with
    | some (dep, _) => if dep = .PROP ∨ dep = .CPL then [Ev.agent describee c] else []
    | none => [] else []) ?_ _ h hs]
  · unfold agentEvs
    by_cases hm : (h₀.node marker).canon = c!"by"
    · simp only [hm, if_true]
      cases t.parent describee with
      | none => simp only [flatMap_none]
      | some q =>
        obtain ⟨dep, p⟩ := q
        simp only
        by_cases hd : dep = .PROP ∨ dep = .CPL
        · simp only [hd, if_true]; rw [flatMap_single]
        · simp only [hd, if_false, flatMap_none]
    · simp only [hm, if_false, flatMap_none]
  · intro h x hs
    simp only [hs.canon]
    by_cases hm : (h₀.node marker).canon = c!"by"
    · simp only [hm, if_true]
      cases t.parent describee with
      | none => rfl
      | some q =>
        obtain ⟨dep, p⟩ := q
        simp only
        by_cases hd : dep = .PROP ∨ dep = .CPL
        · simp only [hd, if_true]; rfl
        · simp [hd, applyEvs]
    · simp [hm, applyEvs]


theorem resolveRelativePron_eq {h : Heap} (hs : Static h₀ h) (verb pron : Ref) :
    resolveRelativePron t h verb pron = resolveRelativePron t h₀ verb pron := by
  unfold resolveRelativePron
  simp only [hs.tag, hs.canon]

variable (t h₀)

/-- The referent of a subject. -/
def subjRef (verb node : Ref) : Ref :=
  match resolveRelativePron t h₀ verb node with
  | some r => r
  | none =>
    if (h₀.node node).canon ∈ reflexivePronouns then
      match t.parent verb with
      | some (dep, p) => if dep = .OBJ ∧ (h₀.node p).tag = .VERB then (t.childrenVia p .SUBJ).head?.getD node else node
      | none => node
    else node

/-- The referent of an object. -/
def objRef (verb node : Ref) : Ref :=
  match resolveRelativePron t h₀ verb node with
  | some r => r
  | none => if (h₀.node node).canon ∈ reflexivePronouns then (t.childrenVia verb .SUBJ).head?.getD node else node

def parentEvs (node : Ref) : List Ev :=
  match t.parent node with
  | some (.SUBJ, p) => subjEvs t h₀ p (subjRef t h₀ p node)
  | some (.OBJ, p) => objEvs t h₀ p (objRef t h₀ p node)
  | some (.IOBJ, p) => (h₀.aggreg node).map (Ev.iobj p)
  | some (.EXIST, p) => (h₀.aggreg node).map (Ev.exist p)
  | some (.PROP, p) => (h₀.aggreg node).map (Ev.prop p) ++
      match (t.childrenVia p .SUBJ).head? with
      | none => []
      | some s => copEvs t h₀ ((resolveRelativePron t h₀ p s).getD s) p node
  | some (.IPROP, p) => ipropEvs t h₀ p node
  | _ => []

def negEvs (node : Ref) : List Ev := if (t.children node).any fun c => c.1 = .NEG then [Ev.neg node] else []

def nakedEvs (node p : Ref) : List Ev :=
  if (h₀.node node).tag = .ADJ then
    (h₀.aggreg node).map (Ev.adj p) ++
    if (h₀.node p).tag ∈ nounTags then
      match (t.childrenVia node .PROP).head? with
      | some prop => if (h₀.node node).suffix = some .PAST then
          ((h₀.aggreg prop).map fun x => (node, x)).map (Ev.pp p) else []
      | none => []
    else []
  else []

def cplEvs (node : Ref) : List Ev :=
  match t.parent node with
  | some (.CPL, p) =>
    (match (t.childrenVia node .MARK).head? with
      | none => nakedEvs t h₀ node p
      | some m => agentEvs t h₀ p node m) ++
    if (t.childrenVia node .CMARK).head? ≠ none ∧ (h₀.node p).tag = .ADJ ∧ (h₀.node node).tag ∈ nounTags then
      (h₀.aggreg p).map (Ev.adj node) else []
  | _ => []

def directEvs (node : Ref) : List Ev := parentEvs t h₀ node ++ negEvs t node ++ cplEvs t h₀ node

def isNaked (node : Ref) : Bool :=
  match t.parent node with
  | some (.CPL, _) => decide ((t.childrenVia node .MARK).head? = none ∧ (t.childrenVia node .IMARK).head? = none ∧
      (t.childrenVia node .CMARK).head? = none)
  | _ => false

def isMarked (node : Ref) : Bool :=
  match t.parent node with
  | some (.CPL, _) => decide ((t.childrenVia node .MARK).head? ≠ none)
  | _ => false

def longEvs (naked marked : List Ref) (node : Ref) : List Ev :=
  match t.parent node with
  | none => []
  | some (_, p) =>
    if node ∈ marked ∧ (h₀.node node).tag = .VERB ∧ t.hasChildVia node .SUBJ = false ∧ (h₀.node p).tag = .VERB then
      match (t.childrenVia p .SUBJ).head? with
      | some subj => subjEvs t h₀ node subj
      | none => []
    else if node ∈ naked ∧ (h₀.node p).tag ∈ nounTags ∧ t.hasChildVia node .OBJ = false then
      match (t.childrenVia node .SUBJ).head? with
      | some subj => if (h₀.node subj).canon ∉ relativePronouns then objEvs t h₀ node p else []
      | none => []
    else []

variable {t h₀}
variable {root : Ref} {hist : List (Dep × Ref × Ref)} (hb : buildTree root hist = .ok t)
include hb

theorem childVia_eq (x : Ref) (l : Dep) : t.childVia x l = .ok (t.childrenVia x l).head? :=
  (tree_queries root hist t hb x l []).2.2.2.2.1

theorem analyzeParent_eq {h : Heap} (hs : Static h₀ h) (node : Ref) (dep : Dep) (p : Ref)
    (hp : t.parent node = some (dep, p)) :
    analyzeParent t node dep p h = .ok (applyEvs h (parentEvs t h₀ node)) := by
  have hc := childVia_eq hb
  unfold parentEvs
  rw [hp]
  cases dep
  case SUBJ =>
    simp only [analyzeParent, resolveRelativePron_eq hs, subjRef, resolveSubjReflexivePron, hs.canon, hs.tag, hc]
    cases hr : resolveRelativePron t h₀ p node with
    | some r => simp only [orElseM, bind, Except.bind]; rw [registerSubjs_eq hs]; rfl
    | none =>
      simp only [orElseM]
      by_cases hrf : (h₀.node node).canon ∈ reflexivePronouns
      · simp only [hrf, if_true]
        cases hq : t.parent p with
        | none => simp only [bind, Except.bind]; rw [registerSubjs_eq hs]; rfl
        | some q =>
          obtain ⟨d, q⟩ := q
          simp only
          by_cases hd : d = .OBJ ∧ (h₀.node q).tag = .VERB
          · simp only [hd, and_self, if_true, bind, Except.bind]; rw [registerSubjs_eq hs]; rfl
          · simp only [hd, if_false, bind, Except.bind]; rw [registerSubjs_eq hs]; rfl
      · simp only [hrf, if_false, bind, Except.bind]; rw [registerSubjs_eq hs]; rfl
  case OBJ =>
    simp only [analyzeParent, resolveRelativePron_eq hs, objRef, resolveObjReflexivePron, hs.canon, hc]
    cases hr : resolveRelativePron t h₀ p node with
    | some r => simp only [orElseM, bind, Except.bind]; rw [registerObjs_eq hs]; rfl
    | none =>
      simp only [orElseM]
      by_cases hrf : (h₀.node node).canon ∈ reflexivePronouns
      · simp only [hrf, if_true, bind, Except.bind]; rw [registerObjs_eq hs]; rfl
      · simp only [hrf, if_false, bind, Except.bind]; rw [registerObjs_eq hs]; rfl
  case IOBJ => simp only [analyzeParent, registerIobjs, upd_iobjs, hs.aggreg]
  case EXIST => simp only [analyzeParent, registerExists, upd_exist, hs.aggreg]
  case PROP =>
    simp only [analyzeParent, hc, bind, Except.bind, upd_props, hs.aggreg]
    have hs' := hs.applyEvs ((h₀.aggreg node).map (Ev.prop p))
    cases (t.childrenVia p .SUBJ).head? with
    | none => simp; rfl
    | some s =>
      simp only
      rw [resolveRelativePron_eq hs', registerPropsViaCopula_eq hs', applyEvs_append]
      rfl
  case IPROP => exact registerIprops_eq root hist hb hs p node
  all_goals rfl

theorem analyzeNakedAdj_eq {h : Heap} (hs : Static h₀ h) (node p : Ref) :
    analyzeNakedAdj t node p h = .ok (applyEvs h (nakedEvs t h₀ node p)) := by
  unfold analyzeNakedAdj nakedEvs registerAdjs registerPropsViaPp
  rw [hs.tag]
  by_cases ht : (h₀.node node).tag = .ADJ
  · simp only [ht, if_true, upd_adjs, hs.aggreg]
    have hs' := hs.applyEvs ((h₀.aggreg node).map (Ev.adj p))
    simp only [hs'.tag, childVia_eq hb, hs'.suffix, upd_pps, hs'.aggreg]
    by_cases hn : (h₀.node p).tag ∈ nounTags
    · simp only [hn, if_true]
      cases (t.childrenVia node .PROP).head? with
      | none => simp
      | some prop =>
        simp only
        by_cases hsx : (h₀.node node).suffix = some .PAST
        · simp only [hsx, if_true, applyEvs_append]
        · simp only [hsx, if_false, List.append_nil]
    · simp only [hn, if_false, List.append_nil]
  · simp only [ht, if_false]; rfl

theorem directStep_eq (s : ArgState) (hs : Static h₀ s.heap) (node : Ref) :
    directStep t s node = .ok { heap := applyEvs s.heap (directEvs t h₀ node),
                                naked := s.naked ++ if isNaked t node then [node] else [],
                                marked := s.marked ++ if isMarked t node then [node] else [] } := by
  have hc := childVia_eq hb
  have h1 : parentStep t node s.heap = .ok (applyEvs s.heap (parentEvs t h₀ node)) := by
    unfold parentStep
    cases hp : t.parent node with
    | none => unfold parentEvs; rw [hp]; rfl
    | some q =>
      obtain ⟨dep, p⟩ := q
      exact analyzeParent_eq hb hs node dep p hp
  unfold directStep
  rw [h1]
  have hs1 := hs.applyEvs (parentEvs t h₀ node)
  have h2 : (if (t.children node).any fun c => c.1 = .NEG then
      (applyEvs s.heap (parentEvs t h₀ node)).upd node fun n => { n with isAff := false }
      else applyEvs s.heap (parentEvs t h₀ node)) = applyEvs s.heap (parentEvs t h₀ node ++ negEvs t node) := by
    unfold negEvs
    by_cases hn : ((t.children node).any fun c => c.1 = .NEG) = true
    · rw [if_pos hn, if_pos hn, applyEvs_append]; rfl
    · rw [if_neg hn, if_neg hn, List.append_nil]
  simp only [bind, Except.bind, hc]
  rw [h2]
  have hs2 := hs.applyEvs (parentEvs t h₀ node ++ negEvs t node)
  unfold directEvs cplEvs isNaked isMarked
  rw [applyEvs_append _ (parentEvs t h₀ node ++ negEvs t node)]
  generalize applyEvs s.heap (parentEvs t h₀ node ++ negEvs t node) = g at hs2
  cases hp : t.parent node with
  | none => simp; rfl
  | some q =>
    obtain ⟨dep, p⟩ := q
    cases dep
    case CPL =>
      have h3 : analyzeMark t node p (t.childrenVia node .MARK).head? g = .ok (applyEvs g
          (match (t.childrenVia node .MARK).head? with
          | none => nakedEvs t h₀ node p
          | some m => agentEvs t h₀ p node m)) := by
        unfold analyzeMark
        cases (t.childrenVia node .MARK).head? with
        | none => exact analyzeNakedAdj_eq hb hs2 node p
        | some m => simp only; rw [registerAgents_eq hs2]
      have hs3 := hs2.applyEvs (match (t.childrenVia node .MARK).head? with
          | none => nakedEvs t h₀ node p
          | some m => agentEvs t h₀ p node m)
      have h4 : analyzeCpl t node p (t.childrenVia node .MARK).head? (t.childrenVia node .CMARK).head? g = .ok (applyEvs g
          ((match (t.childrenVia node .MARK).head? with
            | none => nakedEvs t h₀ node p
            | some m => agentEvs t h₀ p node m) ++
          if (t.childrenVia node .CMARK).head? ≠ none ∧ (h₀.node p).tag = .ADJ ∧ (h₀.node node).tag ∈ nounTags then
            (h₀.aggreg p).map (Ev.adj node) else [])) := by
        unfold analyzeCpl
        rw [h3]
        simp only [bind, Except.bind, hs3.tag, registerAdjs, upd_adjs, hs3.aggreg]
        split
        · rename_i hcm
          rw [applyEvs_append]; rfl
        · rw [List.append_nil]; rfl
      simp only [h4]
      simp only [decide_eq_true_eq, ne_eq, pure, Except.pure, Except.ok.injEq, ArgState.mk.injEq, true_and]
      refine ⟨?_, ?_⟩
      · by_cases e1 : (t.childrenVia node .MARK).head? = none <;>
        by_cases e2 : (t.childrenVia node .IMARK).head? = none <;>
        by_cases e3 : (t.childrenVia node .CMARK).head? = none <;> simp [e1, e2, e3]
      · by_cases e1 : (t.childrenVia node .MARK).head? = none <;> simp [e1]
    all_goals (simp; rfl)

theorem longStep_eq (naked marked : List Ref) {h : Heap} (hs : Static h₀ h) (node : Ref) :
    longStep t naked marked h node = .ok (applyEvs h (longEvs t h₀ naked marked node)) := by
  unfold longStep longEvs
  cases hp : t.parent node with
  | none => rfl
  | some q =>
    obtain ⟨dep, p⟩ := q
    simp only [hs.tag, childVia_eq hb, hs.canon, bind, Except.bind]
    by_cases h1 : node ∈ marked ∧ (h₀.node node).tag = .VERB ∧ t.hasChildVia node .SUBJ = false ∧ (h₀.node p).tag = .VERB
    · rw [if_pos h1, if_pos h1]
      cases (t.childrenVia p .SUBJ).head? with
      | none => rfl
      | some subj => simp only; rw [registerSubjs_eq hs]; rfl
    · rw [if_neg h1, if_neg h1]
      by_cases h2 : node ∈ naked ∧ (h₀.node p).tag ∈ nounTags ∧ t.hasChildVia node .OBJ = false
      · rw [if_pos h2, if_pos h2]
        cases (t.childrenVia node .SUBJ).head? with
        | none => rfl
        | some subj =>
          simp only
          by_cases h3 : (h₀.node subj).canon ∉ relativePronouns
          · rw [if_pos h3, if_pos h3, registerObjs_eq hs]; rfl
          · rw [if_neg h3, if_neg h3]; rfl
      · rw [if_neg h2, if_neg h2]; rfl

/-- Argument finding as a list of events. -/
theorem findArgs_eq (nodes : List Ref) (h : Heap) :
    let h₀ := nodes.foldl (aggregStep t) h
    findArgs t nodes h = .ok (applyEvs h₀ (nodes.flatMap (directEvs t h₀) ++
      nodes.flatMap (longEvs t h₀ (nodes.filter (isNaked t)) (nodes.filter (isMarked t))))) := by
  intro h₀
  have h1 : ∀ (l : List Ref) (s : ArgState), Static h₀ s.heap → l.foldlM (directStep t) s =
      .ok { heap := applyEvs s.heap (l.flatMap (directEvs t h₀)), naked := s.naked ++ l.filter (isNaked t),
            marked := s.marked ++ l.filter (isMarked t) } := by
    intro l
    induction l with
    | nil => intro s _; simp [applyEvs]; rfl
    | cons x l ih =>
      intro s hs
      rw [List.foldlM_cons, directStep_eq hb s hs x]
      simp only [bind, Except.bind]
      rw [ih _ (hs.applyEvs _)]
      simp only [List.flatMap_cons, applyEvs_append, List.filter_cons, Except.ok.injEq, ArgState.mk.injEq, true_and]
      refine ⟨?_, ?_⟩
      · by_cases e : isNaked t x = true <;> simp [e]
      · by_cases e : isMarked t x = true <;> simp [e]
  unfold findArgs
  simp only [bind, Except.bind]
  rw [h1 nodes _ (Static.refl _)]
  simp only [List.nil_append]
  rw [foldlM_events (h₀ := h₀) _ (longEvs t h₀ (nodes.filter (isNaked t)) (nodes.filter (isMarked t)))
    (fun h x hs => longStep_eq hb _ _ hs x) _ _ ((Static.refl h₀).applyEvs _)]
  rw [applyEvs_append]

end

/-- Membership in a list of arguments after events. -/
theorem mem_field {ι : Type} (F : Node → List ι) (mk : Ref → ι → Ev) (hm : ∀ v x, (mk v x).target = v)
    (hon : ∀ e n x, x ∈ F (e.on n) ↔ x ∈ F n ∨ e = mk e.target x) (es : List Ev) :
    ∀ (h : Heap) (r : Ref) (x : ι), x ∈ F ((applyEvs h es).node r) ↔ x ∈ F (h.node r) ∨ mk r x ∈ es := by
  induction es with
  | nil => intro h r x; simp [applyEvs]
  | cons e es ih =>
    intro h r x
    have : applyEvs h (e :: es) = applyEvs (applyEv h e) es := rfl
    rw [this, ih]
    simp only [applyEv, Heap.upd, List.mem_cons]
    by_cases er : r = e.target
    · subst er
      rw [if_pos rfl, hon, or_assoc, eq_comm (a := e)]
    · rw [if_neg er]
      have : mk r x ≠ e := by
        intro h
        rw [← h, hm] at er
        exact er rfl
      simp [this]

theorem aff_field (es : List Ev) : ∀ (h : Heap) (r : Ref),
    ((applyEvs h es).node r).isAff = false ↔ (h.node r).isAff = false ∨ Ev.neg r ∈ es := by
  induction es with
  | nil => intro h r; simp [applyEvs]
  | cons e es ih =>
    intro h r
    have : applyEvs h (e :: es) = applyEvs (applyEv h e) es := rfl
    rw [this, ih]
    simp only [applyEv, Heap.upd, List.mem_cons]
    by_cases er : r = e.target
    · subst er
      rw [if_pos rfl]
      cases e <;> simp [Ev.on, Ev.target]
    · rw [if_neg er]
      have : Ev.neg r ≠ e := by
        intro h
        rw [← h] at er
        exact er rfl
      simp [this]

section
variable (t : Tree Dep Ref) (nodes : List Ref) (h : Heap)

theorem aggreg_fold (l : List Ref) : ∀ h : Heap, (l.foldl (aggregStep t) h).next = h.next ∧
    ∀ r, (l.foldl (aggregStep t) h).node r = if r ∈ l then
      { h.node r with andCconjs := t.childrenVia r .AND, orCconjs := t.childrenVia r .OR } else h.node r := by
  induction l with
  | nil => intro h; exact ⟨rfl, by simp⟩
  | cons x l ih =>
    intro h
    obtain ⟨h1, h2⟩ := ih (aggregStep t h x)
    refine ⟨h1, ?_⟩
    intro r
    rw [List.foldl_cons, h2]
    simp only [aggregStep, Heap.upd]
    by_cases e : r = x
    · subst e
      by_cases hm : r ∈ l <;> simp [hm]
    · simp [e]

end

section
variable {t : Tree Dep Ref} {nodes : List Ref} {h h₀ : Heap} {root : Ref} {hist : List (Dep × Ref × Ref)}

/-- What is known of the nodes after the aggregations. -/
structure AggSpec (t : Tree Dep Ref) (nodes : List Ref) (h h₀ : Heap) : Prop where
  tag : ∀ r, (h₀.node r).tag = (h.node r).tag
  canon : ∀ r, (h₀.node r).canon = (h.node r).canon
  suffix : ∀ r, (h₀.node r).suffix = (h.node r).suffix
  conj : ∀ x y, y ∈ (h₀.node x).cconjs ↔ Conjunct t nodes x y
  group : ∀ x y, y ∈ h₀.aggreg x ↔ Group t nodes x y

theorem aggSpec (hb : buildTree root hist = .ok t) (hn : ∀ r, NoArgs (h.node r)) :
    AggSpec t nodes h (nodes.foldl (aggregStep t) h) := by
  have inv := buildTree_inv hb
  have hmc : ∀ p l c, c ∈ t.childrenVia p l ↔ (l, c) ∈ t.children p := by
    intro p l c
    rw [inv.mem_children, inv.childrenVia, mem_labelled]
  obtain ⟨_, hf⟩ := aggreg_fold t nodes h
  have hconj : ∀ x y, y ∈ ((nodes.foldl (aggregStep t) h).node x).cconjs ↔ Conjunct t nodes x y := by
    intro x y
    rw [hf]
    unfold Conjunct Node.cconjs
    by_cases hx : x ∈ nodes
    · simp [hx, hmc]
    · simp [hx, (hn x).andCconjs, (hn x).orCconjs]
  refine ⟨?_, ?_, ?_, hconj, ?_⟩
  · intro r; rw [hf]; split <;> rfl
  · intro r; rw [hf]; split <;> rfl
  · intro r; rw [hf]; split <;> rfl
  · intro x y
    have := hconj x y
    unfold Node.cconjs at this
    unfold Heap.aggreg Spec.Group
    rw [List.mem_cons, this]

variable (hb : buildTree root hist = .ok t) (A : AggSpec t nodes h h₀)
include hb

theorem hasChildVia_false (p : Ref) (l : Dep) : t.hasChildVia p l = false ↔ ¬ HasChild t p l := by
  have inv := buildTree_inv hb
  rw [← Bool.not_eq_true, (tree_queries root hist t hb p l []).2.2.1]
  unfold HasChild
  simp only [inv.childrenVia, mem_labelled, inv.mem_children]

theorem head?_none (p : Ref) (l : Dep) : (t.childrenVia p l).head? = none ↔ ¬ HasChild t p l := by
  have inv := buildTree_inv hb
  unfold HasChild
  simp only [inv.mem_children]
  simp only [inv.childrenVia, ← mem_labelled]
  rw [List.head?_eq_none_iff, List.eq_nil_iff_forall_not_mem, not_exists]

theorem hasMarker_false (p : Ref) : t.hasChildViaSet p markerDeps = false ↔ ¬ HasMarker t p := by
  have inv := buildTree_inv hb
  rw [← Bool.not_eq_true, hasChildViaSet_iff hb]
  simp only [inv.childrenVia, mem_labelled, HasMarker, HasChild, inv.mem_children, markerDeps, List.mem_cons,
    List.not_mem_nil, or_false, exists_eq_or_imp, exists_eq_left]

include A

theorem relReferent_iff (verb pron p : Ref) :
    resolveRelativePron t h₀ verb pron = some p ↔ RelReferent h t verb pron p := by
  unfold resolveRelativePron RelReferent
  have hnom : nominal = nounTags := rfl
  have hrel : (h.node pron).canon ∈ relativePronouns ↔ ((h.node pron).canon = c!"that" ∨
      (h.node pron).canon = c!"which" ∨ (h.node pron).canon = c!"who") := by
    simp [relativePronouns]
  rw [hnom, ← hrel]
  cases t.parent verb with
  | none => simp
  | some q =>
    obtain ⟨d, q⟩ := q
    simp only [Option.ite_none_right_eq_some, Option.some.injEq, Prod.mk.injEq, A.tag, A.canon, hasMarker_false hb]
    constructor
    · rintro ⟨⟨h1, h2, rfl, h3, h4⟩, rfl⟩
      exact ⟨h1, h2, ⟨rfl, rfl⟩, h3, h4⟩
    · rintro ⟨h1, h2, ⟨rfl, rfl⟩, h3, h4⟩
      exact ⟨⟨h1, h2, rfl, h3, h4⟩, rfl⟩

theorem meant_subj (verb node x : Ref) :
    Meant (RelReferent h t verb node) (ReflexiveSubj h t verb node) node x ↔ x = subjRef t h₀ verb node := by
  have hr := relReferent_iff hb A verb node
  have hrefl : ∀ s, ReflexiveSubj h t verb node s ↔ (h₀.node node).canon ∈ reflexivePronouns ∧
      ∃ p, t.parent verb = some (.OBJ, p) ∧ (h₀.node p).tag = .VERB ∧ (t.childrenVia p .SUBJ).head? = some s := by
    intro s
    unfold ReflexiveSubj Spec.Reflexive FirstChild
    simp only [A.canon, A.tag]
    rfl
  unfold Meant subjRef
  simp only [hrefl, ← hr]
  cases hrr : resolveRelativePron t h₀ verb node with
  | some r =>
    simp only [Option.some.injEq]
    constructor
    · rintro (rfl | ⟨h1, _⟩ | ⟨h1, _⟩)
      · rfl
      · exact absurd rfl (h1 r)
      · exact absurd rfl (h1 r)
    · rintro rfl; exact Or.inl rfl
  | none =>
    simp only [reduceCtorEq, false_or, not_false_eq_true, implies_true, true_and]
    by_cases hc : (h₀.node node).canon ∈ reflexivePronouns
    · simp only [hc, true_and, if_true]
      cases hp : t.parent verb with
      | none => simp
      | some q =>
        obtain ⟨d, q⟩ := q
        simp only [Option.some.injEq, Prod.mk.injEq]
        by_cases hd : d = .OBJ ∧ (h₀.node q).tag = .VERB
        · obtain ⟨rfl, ht⟩ := hd
          simp only [true_and, ht, if_true]
          cases hh : (t.childrenVia q .SUBJ).head? with
          | none => simp [hh]
          | some s =>
            simp [hh, ht, eq_comm]
        · rw [if_neg hd]
          constructor
          · rintro (⟨p, ⟨rfl, rfl⟩, h1, _⟩ | ⟨_, rfl⟩)
            · exact absurd ⟨rfl, h1⟩ hd
            · rfl
          · rintro rfl
            right
            refine ⟨?_, rfl⟩
            rintro y ⟨p, ⟨rfl, rfl⟩, h1, _⟩
            exact hd ⟨rfl, h1⟩
    · simp [hc]

theorem meant_obj (verb node x : Ref) :
    Meant (RelReferent h t verb node) (ReflexiveObj h t verb node) node x ↔ x = objRef t h₀ verb node := by
  have hr := relReferent_iff hb A verb node
  have hrefl : ∀ s, ReflexiveObj h t verb node s ↔ (h₀.node node).canon ∈ reflexivePronouns ∧
      (t.childrenVia verb .SUBJ).head? = some s := by
    intro s
    unfold ReflexiveObj Spec.Reflexive FirstChild
    simp only [A.canon]
    rfl
  unfold Meant objRef
  simp only [hrefl, ← hr]
  cases hrr : resolveRelativePron t h₀ verb node with
  | some r =>
    simp only [Option.some.injEq]
    constructor
    · rintro (rfl | ⟨h1, _⟩ | ⟨h1, _⟩)
      · rfl
      · exact absurd rfl (h1 r)
      · exact absurd rfl (h1 r)
    · rintro rfl; exact Or.inl rfl
  | none =>
    simp only [reduceCtorEq, false_or, not_false_eq_true, implies_true, true_and]
    by_cases hc : (h₀.node node).canon ∈ reflexivePronouns
    · simp only [hc, true_and, if_true]
      cases hh : (t.childrenVia verb .SUBJ).head? with
      | none => simp
      | some s => simp [eq_comm]
    · simp [hc]

theorem meant_cop (verb subj x : Ref) :
    Meant (RelReferent h t verb subj) (fun _ => False) subj x ↔ x = (resolveRelativePron t h₀ verb subj).getD subj := by
  have hr := relReferent_iff hb A verb subj
  unfold Meant
  simp only [← hr]
  cases resolveRelativePron t h₀ verb subj with
  | none => simp
  | some r =>
    simp only [Option.some.injEq, and_false, false_or, Option.getD_some]
    constructor
    · rintro (rfl | ⟨h1, _⟩)
      · rfl
      · exact absurd rfl (h1 r)
    · rintro rfl; exact Or.inl rfl

theorem mem_subjEvs (verb subj : Ref) (e : Ev) : e ∈ subjEvs t h₀ verb subj ↔
    ∃ v x, e = .subj v x ∧ SharesSubj t nodes verb v ∧ Group t nodes subj x := by
  simp only [subjEvs, List.mem_flatMap, List.mem_cons, List.mem_filter, decide_eq_true_eq, List.mem_map, A.group, A.conj,
    hasChildVia_false hb]
  constructor
  · rintro ⟨v, hv, x, hx, rfl⟩; exact ⟨v, x, rfl, hv, hx⟩
  · rintro ⟨v, x, rfl, hv, hx⟩; exact ⟨v, hv, x, hx, rfl⟩

omit hb in
theorem mem_objEvs (verb obj : Ref) (e : Ev) : e ∈ objEvs t h₀ verb obj ↔
    ∃ v x, e = .obj v x ∧ SharesObj t nodes verb v ∧ Group t nodes obj x := by
  simp only [objEvs, List.mem_flatMap, List.mem_cons, List.mem_filter, decide_eq_true_eq, List.mem_map, A.group, A.conj]
  constructor
  · rintro ⟨v, hv, x, hx, rfl⟩; exact ⟨v, x, rfl, hv, hx⟩
  · rintro ⟨v, x, rfl, hv, hx⟩; exact ⟨v, hv, x, hx, rfl⟩

theorem mem_copEvs (subj copula prop : Ref) (e : Ev) : e ∈ copEvs t h₀ subj copula prop ↔
    ∃ s p, e = .cop s (copula, p) ∧ Group t nodes subj s ∧ Group t nodes prop p ∧ ¬ HasMarker t p := by
  simp only [copEvs, List.mem_map, List.mem_flatMap, List.mem_filter, decide_eq_true_eq, A.group, hasMarker_false hb]
  constructor
  · rintro ⟨_, ⟨s, hs, p, ⟨hp, hm⟩, rfl⟩, rfl⟩; exact ⟨s, p, rfl, hs, hp, hm⟩
  · rintro ⟨s, p, rfl, hs, hp, hm⟩; exact ⟨_, ⟨s, hs, p, ⟨hp, hm⟩, rfl⟩, rfl⟩

omit hb in
theorem mem_ipropEvs (verb iprop : Ref) (e : Ev) : e ∈ ipropEvs t h₀ verb iprop ↔
    (∃ x, e = .iprop verb x ∧ Group t nodes iprop x) ∨
    ∃ obj o ip, e = .svi o ((t.childrenVia verb .SUBJ).head?, verb, ip) ∧ FirstChild t verb .OBJ obj ∧
      Group t nodes obj o ∧ Group t nodes iprop ip := by
  simp only [ipropEvs, List.mem_append, List.mem_map, A.group]
  apply or_congr
  · constructor
    · rintro ⟨x, hx, rfl⟩; exact ⟨x, rfl, hx⟩
    · rintro ⟨x, rfl, hx⟩; exact ⟨x, hx, rfl⟩
  · unfold FirstChild
    cases (t.childrenVia verb .OBJ).head? with
    | none => simp
    | some o =>
      simp only [List.mem_map, List.mem_flatMap, A.group, Option.some.injEq]
      constructor
      · rintro ⟨_, ⟨o', ho, ip, hi, rfl⟩, rfl⟩; exact ⟨o, o', ip, rfl, rfl, ho, hi⟩
      · rintro ⟨_, o', ip, rfl, rfl, ho, hi⟩; exact ⟨_, ⟨o', ho, ip, hi, rfl⟩, rfl⟩

omit hb in
theorem mem_agentEvs (d cpl m : Ref) (e : Ev) : e ∈ agentEvs t h₀ d cpl m ↔
    ∃ x, e = .agent d x ∧ (h.node m).canon = c!"by" ∧ (∃ q, t.parent d = some (.PROP, q) ∨ t.parent d = some (.CPL, q)) ∧
      Group t nodes cpl x := by
  unfold agentEvs
  rw [A.canon]
  by_cases hm : (h.node m).canon = c!"by"
  · rw [if_pos hm]
    cases hp : t.parent d with
    | none => simp
    | some q =>
      obtain ⟨dep, q⟩ := q
      simp only [Option.some.injEq, Prod.mk.injEq]
      by_cases hd : dep = .PROP ∨ dep = .CPL
      · rw [if_pos hd]
        simp only [List.mem_map, A.group]
        constructor
        · rintro ⟨x, hx, rfl⟩
          refine ⟨x, rfl, hm, ⟨q, ?_⟩, hx⟩
          rcases hd with h | h
          · exact Or.inl ⟨h, rfl⟩
          · exact Or.inr ⟨h, rfl⟩
        · rintro ⟨x, rfl, _, _, hx⟩; exact ⟨x, hx, rfl⟩
      · rw [if_neg hd]
        constructor
        · intro h; cases h
        · rintro ⟨x, _, _, ⟨q', h | h⟩, _⟩
          · exact absurd (Or.inl h.1) hd
          · exact absurd (Or.inr h.1) hd
  · rw [if_neg hm]
    constructor
    · intro h; cases h
    · rintro ⟨x, _, h1, _⟩; exact absurd h1 hm

omit hb in
theorem mem_nakedEvs (node p : Ref) (e : Ev) : e ∈ nakedEvs t h₀ node p ↔ (h.node node).tag = .ADJ ∧
    ((∃ x, e = .adj p x ∧ Group t nodes node x) ∨
      ∃ prop x, e = .pp p (node, x) ∧ (h.node p).tag ∈ nominal ∧ FirstChild t node .PROP prop ∧
        (h.node node).suffix = some .PAST ∧ Group t nodes prop x) := by
  unfold nakedEvs FirstChild
  simp only [A.tag, A.suffix]
  have hnom : nominal = nounTags := rfl
  rw [hnom]
  by_cases ht : (h.node node).tag = .ADJ
  · rw [if_pos ht]
    simp only [ht, true_and, List.mem_append, List.mem_map, A.group]
    apply or_congr
    · constructor
      · rintro ⟨x, hx, rfl⟩; exact ⟨x, rfl, hx⟩
      · rintro ⟨x, rfl, hx⟩; exact ⟨x, hx, rfl⟩
    · by_cases hn : (h.node p).tag ∈ nounTags
      · rw [if_pos hn]
        cases (t.childrenVia node .PROP).head? with
        | none => simp
        | some prop =>
          simp only [Option.some.injEq]
          by_cases hx : (h.node node).suffix = some .PAST
          · rw [if_pos hx]
            simp only [List.mem_map, A.group]
            constructor
            · rintro ⟨_, ⟨x, hg, rfl⟩, rfl⟩; exact ⟨prop, x, rfl, hn, rfl, hx, hg⟩
            · rintro ⟨_, x, rfl, _, rfl, _, hg⟩; exact ⟨_, ⟨x, hg, rfl⟩, rfl⟩
          · rw [if_neg hx]
            constructor
            · intro h; cases h
            · rintro ⟨_, _, _, _, _, h, _⟩; exact absurd h hx
      · rw [if_neg hn]
        constructor
        · intro h; cases h
        · rintro ⟨_, _, _, h, _⟩; exact absurd h hn
  · rw [if_neg ht]
    simp [ht]

theorem mem_cplEvs (node : Ref) (e : Ev) : e ∈ cplEvs t h₀ node ↔ ∃ p, t.parent node = some (.CPL, p) ∧
    ((¬ HasChild t node .MARK ∧ (h.node node).tag = .ADJ ∧
        ((∃ x, e = .adj p x ∧ Group t nodes node x) ∨
          ∃ prop x, e = .pp p (node, x) ∧ (h.node p).tag ∈ nominal ∧ FirstChild t node .PROP prop ∧
            (h.node node).suffix = some .PAST ∧ Group t nodes prop x)) ∨
     (∃ m x, e = .agent p x ∧ FirstChild t node .MARK m ∧ (h.node m).canon = c!"by" ∧
        (∃ q, t.parent p = some (.PROP, q) ∨ t.parent p = some (.CPL, q)) ∧ Group t nodes node x) ∨
     (∃ x, e = .adj node x ∧ HasChild t node .CMARK ∧ (h.node p).tag = .ADJ ∧ (h.node node).tag ∈ nominal ∧
        Group t nodes p x)) := by
  unfold cplEvs
  cases hp : t.parent node with
  | none => simp
  | some q =>
    obtain ⟨d, p⟩ := q
    cases d
    case CPL =>
      simp only [List.mem_append, Option.some.injEq, Prod.mk.injEq, true_and, exists_eq_left', ne_eq, head?_none hb,
        not_not, A.tag]
      have hnom : nominal = nounTags := rfl
      rw [hnom, ← or_assoc]
      apply or_congr
      · unfold FirstChild
        cases hm : (t.childrenVia node .MARK).head? with
        | none =>
          simp only [mem_nakedEvs A, (head?_none hb _ _).mp hm, not_false_eq_true, true_and]
          simp [FirstChild, hnom]
        | some m =>
          have : HasChild t node .MARK := by
            by_contra hcon
            rw [← head?_none hb, hm] at hcon
            cases hcon
          simp only [mem_agentEvs A, this, not_true, false_and, false_or, Option.some.injEq]
          constructor
          · rintro ⟨x, h1, h2, h3, h4⟩; exact ⟨m, x, h1, rfl, h2, h3, h4⟩
          · rintro ⟨m', x, h1, rfl, h2, h3, h4⟩; exact ⟨x, h1, h2, h3, h4⟩
      · split
        · rename_i hc
          simp only [A.tag, ne_eq, head?_none hb, not_not] at hc
          simp only [List.mem_map, A.group]
          constructor
          · rintro ⟨x, hx, rfl⟩; exact ⟨x, rfl, hc.1, hc.2.1, hc.2.2, hx⟩
          · rintro ⟨x, rfl, _, _, _, hx⟩; exact ⟨x, hx, rfl⟩
        · rename_i hc
          simp only [A.tag, ne_eq, head?_none hb, not_not] at hc
          constructor
          · intro h; cases h
          · rintro ⟨x, _, h1, h2, h3, _⟩; exact absurd ⟨h1, h2, h3⟩ hc
    all_goals simp

theorem mem_parentEvs (node : Ref) (e : Ev) : e ∈ parentEvs t h₀ node ↔
    (∃ verb v x, e = .subj v x ∧ t.parent node = some (.SUBJ, verb) ∧ SharesSubj t nodes verb v ∧
      Group t nodes (subjRef t h₀ verb node) x) ∨
    (∃ verb v x, e = .obj v x ∧ t.parent node = some (.OBJ, verb) ∧ SharesObj t nodes verb v ∧
      Group t nodes (objRef t h₀ verb node) x) ∨
    (∃ p x, e = .iobj p x ∧ t.parent node = some (.IOBJ, p) ∧ Group t nodes node x) ∨
    (∃ p x, e = .exist p x ∧ t.parent node = some (.EXIST, p) ∧ Group t nodes node x) ∨
    (∃ p x, e = .prop p x ∧ t.parent node = some (.PROP, p) ∧ Group t nodes node x) ∨
    (∃ c subj s p, e = .cop s (c, p) ∧ t.parent node = some (.PROP, c) ∧ FirstChild t c .SUBJ subj ∧
      Group t nodes ((resolveRelativePron t h₀ c subj).getD subj) s ∧ Group t nodes node p ∧ ¬ HasMarker t p) ∨
    (∃ p x, e = .iprop p x ∧ t.parent node = some (.IPROP, p) ∧ Group t nodes node x) ∨
    (∃ verb obj o ip, e = .svi o ((t.childrenVia verb .SUBJ).head?, verb, ip) ∧ t.parent node = some (.IPROP, verb) ∧
      FirstChild t verb .OBJ obj ∧ Group t nodes obj o ∧ Group t nodes node ip) := by
  unfold parentEvs
  cases hp : t.parent node with
  | none => simp
  | some q =>
    obtain ⟨d, p⟩ := q
    cases d
    case SUBJ =>
      simp only [mem_subjEvs hb A, Option.some.injEq, Prod.mk.injEq, reduceCtorEq, false_and, and_false, exists_false,
        or_false, true_and]
      constructor
      · rintro ⟨v, x, h1, h2, h3⟩; exact ⟨p, v, x, h1, rfl, h2, h3⟩
      · rintro ⟨_, v, x, h1, rfl, h2, h3⟩; exact ⟨v, x, h1, h2, h3⟩
    case OBJ =>
      simp only [mem_objEvs A, Option.some.injEq, Prod.mk.injEq, reduceCtorEq, false_and, and_false, exists_false,
        or_false, true_and, false_or]
      constructor
      · rintro ⟨v, x, h1, h2, h3⟩; exact ⟨p, v, x, h1, rfl, h2, h3⟩
      · rintro ⟨_, v, x, h1, rfl, h2, h3⟩; exact ⟨v, x, h1, h2, h3⟩
    case IOBJ =>
      simp only [List.mem_map, A.group, Option.some.injEq, Prod.mk.injEq, reduceCtorEq, false_and, and_false,
        exists_false, or_false, true_and, false_or]
      constructor
      · rintro ⟨x, h1, rfl⟩; exact ⟨p, x, rfl, rfl, h1⟩
      · rintro ⟨_, x, rfl, rfl, h1⟩; exact ⟨x, h1, rfl⟩
    case EXIST =>
      simp only [List.mem_map, A.group, Option.some.injEq, Prod.mk.injEq, reduceCtorEq, false_and, and_false,
        exists_false, or_false, true_and, false_or]
      constructor
      · rintro ⟨x, h1, rfl⟩; exact ⟨p, x, rfl, rfl, h1⟩
      · rintro ⟨_, x, rfl, rfl, h1⟩; exact ⟨x, h1, rfl⟩
    case PROP =>
      simp only [List.mem_append, List.mem_map, A.group, Option.some.injEq, Prod.mk.injEq, reduceCtorEq, false_and,
        and_false, exists_false, or_false, true_and, false_or]
      apply or_congr
      · constructor
        · rintro ⟨x, h1, rfl⟩; exact ⟨p, x, rfl, rfl, h1⟩
        · rintro ⟨_, x, rfl, rfl, h1⟩; exact ⟨x, h1, rfl⟩
      · unfold FirstChild
        cases hs : (t.childrenVia p .SUBJ).head? with
        | none =>
          constructor
          · intro h; cases h
          · rintro ⟨_, _, _, _, _, rfl, h, _⟩; rw [hs] at h; cases h
        | some s =>
          simp only [mem_copEvs hb A]
          constructor
          · rintro ⟨a, b, h1, h2, h3, h4⟩; exact ⟨p, s, a, b, h1, rfl, hs, h2, h3, h4⟩
          · rintro ⟨_, _, a, b, h1, rfl, h0, h2, h3, h4⟩
            rw [hs] at h0; cases h0
            exact ⟨a, b, h1, h2, h3, h4⟩
    case IPROP =>
      simp only [mem_ipropEvs A, Option.some.injEq, Prod.mk.injEq, reduceCtorEq, false_and, and_false, exists_false,
        or_false, true_and, false_or]
      apply or_congr
      · constructor
        · rintro ⟨x, h1, h2⟩; exact ⟨p, x, h1, rfl, h2⟩
        · rintro ⟨_, x, h1, rfl, h2⟩; exact ⟨x, h1, h2⟩
      · constructor
        · rintro ⟨a, b, c, h1, h2⟩; exact ⟨p, a, b, c, h1, rfl, h2⟩
        · rintro ⟨_, a, b, c, h1, rfl, h2⟩; exact ⟨a, b, c, h1, h2⟩
    all_goals simp

theorem mem_longEvs (node : Ref) (e : Ev) :
    e ∈ longEvs t h₀ (nodes.filter (isNaked t)) (nodes.filter (isMarked t)) node ↔
    (∃ p subj v x, e = .subj v x ∧ node ∈ nodes ∧ t.parent node = some (.CPL, p) ∧ HasChild t node .MARK ∧
      (h.node node).tag = .VERB ∧ ¬ HasChild t node .SUBJ ∧ (h.node p).tag = .VERB ∧ FirstChild t p .SUBJ subj ∧
      Group t nodes subj x ∧ SharesSubj t nodes node v) ∨
    (∃ p subj v x, e = .obj v x ∧ node ∈ nodes ∧ t.parent node = some (.CPL, p) ∧ ¬ HasMarker t node ∧
      (h.node p).tag ∈ nominal ∧ ¬ HasChild t node .OBJ ∧ FirstChild t node .SUBJ subj ∧
      (h.node subj).canon ∉ [c!"that", c!"which", c!"who"] ∧ Group t nodes p x ∧ SharesObj t nodes node v) := by
  unfold longEvs
  have hnom : nominal = nounTags := rfl
  have hrel : relativePronouns = [c!"that", c!"which", c!"who"] := rfl
  simp only [hnom, ← hrel]
  cases hp : t.parent node with
  | none => simp
  | some q =>
    obtain ⟨d, p⟩ := q
    have hmk : isMarked t node = true ↔ d = .CPL ∧ HasChild t node .MARK := by
      unfold isMarked
      rw [hp]
      cases d
      case CPL => simp [head?_none hb]
      all_goals simp
    have hnk : isNaked t node = true ↔ d = .CPL ∧ ¬ HasMarker t node := by
      unfold isNaked HasMarker
      rw [hp]
      cases d
      case CPL =>
        simp only [head?_none hb, decide_eq_true_eq, true_and, not_or]
        exact ⟨fun ⟨a, b, c⟩ => ⟨a, c, b⟩, fun ⟨a, b, c⟩ => ⟨a, c, b⟩⟩
      all_goals simp
    simp only [List.mem_filter, hmk, hnk, A.tag, A.canon, hasChildVia_false hb, Option.some.injEq, Prod.mk.injEq]
    unfold FirstChild
    split
    · rename_i hc
      simp only [List.mem_filter, hmk, hnk, A.tag, A.canon, hasChildVia_false hb] at hc
      obtain ⟨⟨h1, rfl, h2⟩, h3, h4, h5⟩ := hc
      have hmark : HasMarker t node := Or.inl h2
      constructor
      · intro he
        left
        cases hs : (t.childrenVia p .SUBJ).head? with
        | none => rw [hs] at he; cases he
        | some s =>
          rw [hs] at he
          simp only at he
          obtain ⟨v, x, rfl, h6, h7⟩ := (mem_subjEvs hb A node s e).mp he
          exact ⟨p, s, v, x, rfl, h1, ⟨rfl, rfl⟩, h2, h3, h4, h5, hs, h7, h6⟩
      · rintro (⟨_, s, v, x, rfl, _, ⟨_, rfl⟩, _, _, _, _, hs, h7, h6⟩ | ⟨_, _, _, _, _, _, _, h, _⟩)
        · rw [hs]
          exact (mem_subjEvs hb A node s _).mpr ⟨v, x, rfl, h6, h7⟩
        · exact absurd hmark h
    · rename_i hc
      simp only [List.mem_filter, hmk, hnk, A.tag, A.canon, hasChildVia_false hb] at hc
      split
      · rename_i hc2
        simp only [List.mem_filter, hmk, hnk, A.tag, A.canon, hasChildVia_false hb] at hc2
        obtain ⟨⟨h1, rfl, h2⟩, h3, h4⟩ := hc2
        constructor
        · intro he
          right
          cases hs : (t.childrenVia node .SUBJ).head? with
          | none => rw [hs] at he; cases he
          | some s =>
            rw [hs] at he
            simp only at he
            by_cases hr : (h.node s).canon ∉ relativePronouns
            · rw [if_pos hr] at he
              obtain ⟨v, x, rfl, h6, h7⟩ := (mem_objEvs A node p e).mp he
              exact ⟨p, s, v, x, rfl, h1, ⟨rfl, rfl⟩, h2, h3, h4, rfl, hr, h7, h6⟩
            · rw [if_neg hr] at he; cases he
        · rintro (⟨_, _, _, _, _, _, _, h, _⟩ | ⟨_, s, v, x, rfl, _, ⟨_, rfl⟩, _, _, _, hs, hr, h7, h6⟩)
          · exact absurd (Or.inl h) h2
          · rw [hs]
            simp only
            rw [if_pos hr]
            exact (mem_objEvs A node p _).mpr ⟨v, x, rfl, h6, h7⟩
      · rename_i hc2
        simp only [List.mem_filter, hmk, hnk, A.tag, A.canon, hasChildVia_false hb] at hc2
        constructor
        · intro h; cases h
        · rintro (⟨_, _, _, _, _, h1, ⟨rfl, rfl⟩, h2, h3, h4, h5, _⟩ | ⟨_, _, _, _, _, h1, ⟨rfl, rfl⟩, h2, h3, h4, _⟩)
          · exact absurd ⟨⟨h1, rfl, h2⟩, h3, h4, h5⟩ hc
          · exact absurd ⟨⟨h1, rfl, h2⟩, h3, h4⟩ hc2

end
end Model
