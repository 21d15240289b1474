import Verif.Spec.Nodes

/-! The lists of arguments of nodes, in order and with repetitions. -/

namespace Spec.Order
open Py Model Spec

variable (h : Heap) (t : Tree Dep Ref) (nodes : List Ref)

instance (pron : Ref) : Decidable (Spec.Reflexive h pron) := by unfold Spec.Reflexive; infer_instance

/-- Coordinated nodes: those by "and", then those by "or". -/
def coordinated (x : Ref) : List Ref := if x ∈ nodes then t.childrenVia x .AND ++ t.childrenVia x .OR else []

def group (x : Ref) : List Ref := x :: coordinated t nodes x

/-- The first child by a label, if any. -/
def first (p : Ref) (l : Dep) : List Ref := (t.childrenVia p l).take 1

def without (l : Dep) (p : Ref) : Bool := t.childrenVia p l = []

def unmarked (p : Ref) : Bool := without t .MARK p && without t .CMARK p && without t .IMARK p

/-- The noun a relative pronoun stands for, if any. -/
def relative (verb pron : Ref) : List Ref :=
  match t.parent verb with
  | some (.CPL, p) => if (h.node pron).tag = .PRON ∧ (h.node pron).canon ∈ [c!"that", c!"which", c!"who"] ∧
      (h.node p).tag ∈ nominal ∧ unmarked t verb = true then [p] else []
  | _ => []

/-- The subject a reflexive subject stands for, if any. -/
def reflexiveSubj (verb pron : Ref) : List Ref :=
  match t.parent verb with
  | some (.OBJ, p) => if Spec.Reflexive h pron ∧ (h.node p).tag = .VERB then first t p .SUBJ else []
  | _ => []

/-- The subject a reflexive object stands for, if any. -/
def reflexiveObj (verb pron : Ref) : List Ref := if Spec.Reflexive h pron then first t verb .SUBJ else []

def meantSubj (verb node : Ref) : Ref := (relative h t verb node ++ reflexiveSubj h t verb node).headD node
def meantObj (verb node : Ref) : Ref := (relative h t verb node ++ reflexiveObj h t verb node).headD node

/-- `xs`, as often as `r` is in `l`. -/
def each {ι : Type} (l : List Ref) (r : Ref) (xs : List ι) : List ι := (l.filter (· = r)).flatMap fun _ => xs

/-- Verbs with the subjects of `v`. -/
def sharesSubj (v : Ref) : List Ref := v :: (coordinated t nodes v).filter (without t .SUBJ)

/-- Verbs with the objects of `v`. -/
def sharesObj (v : Ref) : List Ref := v :: (coordinated t nodes v).filter fun w => t.children w = []

/-- Subjects of `r`: by subject arcs, in the order of the nodes; then the subjects of verbs above marked complements. -/
def subjs (r : Ref) : List Ref :=
  (nodes.flatMap fun n => match t.parent n with
    | some (.SUBJ, v) => each (sharesSubj t nodes v) r (group t nodes (meantSubj h t v n))
    | _ => []) ++
  nodes.flatMap fun n => match t.parent n with
    | some (.CPL, p) => if without t .MARK n = false ∧ (h.node n).tag = .VERB ∧ without t .SUBJ n = true ∧ (h.node p).tag = .VERB then
        (first t p .SUBJ).flatMap fun s => each (sharesSubj t nodes n) r (group t nodes s) else []
    | _ => []

/-- Objects of `r`: by object arcs, in the order of the nodes; then the nouns above relative clauses without pronoun. -/
def objs (r : Ref) : List Ref :=
  (nodes.flatMap fun n => match t.parent n with
    | some (.OBJ, v) => each (sharesObj t nodes v) r (group t nodes (meantObj h t v n))
    | _ => []) ++
  nodes.flatMap fun n => match t.parent n with
    | some (.CPL, p) => if unmarked t n = true ∧ (h.node p).tag ∈ nominal ∧ without t .OBJ n = true then
        (first t n .SUBJ).flatMap fun s => if (h.node s).canon ∈ [c!"that", c!"which", c!"who"] then [] else
          each (sharesObj t nodes n) r (group t nodes p) else []
    | _ => []

/-- Nodes attached to `r` by a label, each with those coordinated to it. -/
def attached (l : Dep) (r : Ref) : List Ref := (nodes.filter fun n => t.parent n = some (l, r)).flatMap (group t nodes)

/-- Adjectives of `r`, each with those coordinated to it. -/
def adjs (r : Ref) : List Ref :=
  nodes.flatMap fun n => match t.parent n with
    | some (.CPL, p) =>
      (if p = r ∧ without t .MARK n = true ∧ (h.node n).tag = .ADJ then group t nodes n else []) ++
      if n = r ∧ without t .CMARK n = false ∧ (h.node p).tag = .ADJ ∧ (h.node n).tag ∈ nominal then group t nodes p else []
    | _ => []

/-- Properties of `r` by past participles. -/
def pps (r : Ref) : List (Ref × Ref) :=
  (nodes.filter fun n => t.parent n = some (.CPL, r) ∧ without t .MARK n = true ∧ (h.node n).tag = .ADJ ∧ (h.node r).tag ∈ nominal ∧
    (h.node n).suffix = some .PAST).flatMap fun n => (first t n .PROP).flatMap fun p => (group t nodes p).map fun x => (n, x)

/-- Copulas and properties of `r`. -/
def copulas (r : Ref) : List (Ref × Ref) :=
  nodes.flatMap fun n => match t.parent n with
    | some (.PROP, c) => (first t c .SUBJ).flatMap fun s => each (group t nodes ((relative h t c s).headD s)) r
        (((group t nodes n).filter (unmarked t)).map fun p => (c, p))
    | _ => []

/-- What `r` is called: subjects, verbs and properties. -/
def called (r : Ref) : List (Option Ref × Ref × Ref) :=
  nodes.flatMap fun n => match t.parent n with
    | some (.IPROP, v) => (first t v .OBJ).flatMap fun o => each (group t nodes o) r
        ((group t nodes n).map fun p => ((first t v .SUBJ).head?, v, p))
    | _ => []

/-- Agents of `r`. -/
def agents (r : Ref) : List Ref :=
  match t.parent r with
  | some (d, _) => if d = .PROP ∨ d = .CPL then
      (nodes.filter fun n => t.parent n = some (.CPL, r)).flatMap fun n => (first t n .MARK).flatMap fun m =>
        if (h.node m).canon = c!"by" then group t nodes n else []
      else []
  | none => []

/-- All arguments found are these lists. -/
structure Lists (h' : Heap) : Prop where
  andCconjs : ∀ r, (h'.node r).andCconjs = if r ∈ nodes then t.childrenVia r .AND else []
  orCconjs : ∀ r, (h'.node r).orCconjs = if r ∈ nodes then t.childrenVia r .OR else []
  subjs : ∀ r, (h'.node r).subjs = Order.subjs h t nodes r
  objs : ∀ r, (h'.node r).objs = Order.objs h t nodes r
  iobjs : ∀ r, (h'.node r).iobjs = attached t nodes .IOBJ r
  exist : ∀ r, (h'.node r).exist = attached t nodes .EXIST r
  props : ∀ r, (h'.node r).props = attached t nodes .PROP r
  iprops : ∀ r, (h'.node r).iprops = attached t nodes .IPROP r
  adjs : ∀ r, (h'.node r).adjs = Order.adjs h t nodes r
  pps : ∀ r, (h'.node r).ppsProps = Order.pps h t nodes r
  copulas : ∀ r, (h'.node r).copulasProps = Order.copulas h t nodes r
  called : ∀ r, (h'.node r).subjsVerbsIprops = Order.called t nodes r
  agents : ∀ r, (h'.node r).agents = Order.agents h t nodes r

end Spec.Order
