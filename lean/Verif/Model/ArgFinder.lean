import Verif.Model.Node

/-! Model of `scrappybara/syntax/arg_finder.py`. -/

namespace Model
open Py

/-- `_register_subjs`, arg_finder.py:9-15 -/
def registerSubjs (t : Tree Dep Ref) (verb subj : Ref) (h : Heap) : Heap :=
  (verb :: (h.node verb).cconjs.filter fun v => t.hasChildVia v .SUBJ = false).foldl
    (fun h v => h.upd v fun n => { n with subjs := n.subjs ++ h.aggreg subj }) h

/-- `_register_objs`, arg_finder.py:18-24 -/
def registerObjs (t : Tree Dep Ref) (verb obj : Ref) (h : Heap) : Heap :=
  (verb :: (h.node verb).cconjs.filter fun v => t.children v = []).foldl
    (fun h v => h.upd v fun n => { n with objs := n.objs ++ h.aggreg obj }) h

/-- `_register_iobjs`, arg_finder.py:27-28 -/
def registerIobjs (verb iobj : Ref) (h : Heap) : Heap :=
  h.upd verb fun n => { n with iobjs := n.iobjs ++ h.aggreg iobj }

/-- `_register_exists`, arg_finder.py:31-32 -/
def registerExists (verb e : Ref) (h : Heap) : Heap :=
  h.upd verb fun n => { n with exist := n.exist ++ h.aggreg e }

/-- `_register_adjs`, arg_finder.py:35-36 -/
def registerAdjs (noun adj : Ref) (h : Heap) : Heap :=
  h.upd noun fun n => { n with adjs := n.adjs ++ h.aggreg adj }

/-- `_register_props_via_pp`, arg_finder.py:39-41 -/
def registerPropsViaPp (noun pp prop : Ref) (h : Heap) : Heap :=
  h.upd noun fun n => { n with ppsProps := n.ppsProps ++ (h.aggreg prop).map fun p => (pp, p) }

/-- `_register_props_via_copula`, arg_finder.py:44-46 -/
def registerPropsViaCopula (t : Tree Dep Ref) (subj copula prop : Ref) (h : Heap) : Heap :=
  ((h.aggreg subj).flatMap fun s => ((h.aggreg prop).filter fun p => t.hasChildViaSet p markerDeps = false).map
    fun p => (s, p)).foldl
    (fun h sp => h.upd sp.1 fun n => { n with copulasProps := n.copulasProps ++ [(copula, sp.2)] }) h

/-- `_register_iprops`, arg_finder.py:49-57 -/
def registerIprops (t : Tree Dep Ref) (verb iprop : Ref) (h : Heap) : Except PyErr Heap := do
  let h₁ := h.upd verb fun n => { n with iprops := n.iprops ++ h.aggreg iprop }
  let obj ← t.childVia verb .OBJ
  let subj ← t.childVia verb .SUBJ
  match obj with
  | none => return h₁
  | some o =>
    let pairs := (h₁.aggreg o).flatMap fun o => (h₁.aggreg iprop).map fun ip => (o, ip)
    return pairs.foldl
      (fun h q => h.upd q.1 fun n => { n with subjsVerbsIprops := n.subjsVerbsIprops ++ [(subj, verb, q.2)] }) h₁

/-- `_register_agents`, arg_finder.py:60-70 -/
def registerAgents (t : Tree Dep Ref) (describee cpl marker : Ref) (h : Heap) : Heap :=
  (h.aggreg cpl).foldl (fun h c =>
    if (h.node marker).canon = c!"by" then
      match t.parent describee with
      | some (dep, _) => if dep = .PROP ∨ dep = .CPL then h.upd describee fun n => { n with agents := n.agents ++ [c] }
          else h
      | none => h
    else h) h

/-- `__reflexive_pronouns`, arg_finder.py:74-75 -/
def reflexivePronouns : List Str :=
  [c!"myself", c!"yourself", c!"yourselves", c!"himself", c!"herself", c!"itself", c!"ourself", c!"ourselves",
   c!"theirself", c!"themselves", c!"oneself"]

/-- `__relative_pronouns`, arg_finder.py:76 -/
def relativePronouns : List Str := [c!"that", c!"which", c!"who"]

/-- `__resolve_relative_pron`, arg_finder.py:171-180 -/
def resolveRelativePron (t : Tree Dep Ref) (h : Heap) (verb pron : Ref) : Option Ref :=
  match t.parent verb with
  | some (dep, p) =>
    if (h.node pron).tag = .PRON ∧ (h.node pron).canon ∈ relativePronouns ∧ dep = .CPL ∧ (h.node p).tag ∈ nounTags ∧
      t.hasChildViaSet verb markerDeps = false then some p else none
  | none => none

/-- `__resolve_obj_reflexive_pron`, arg_finder.py:182-190 -/
def resolveObjReflexivePron (t : Tree Dep Ref) (h : Heap) (verb pron : Ref) : Except PyErr (Option Ref) :=
  if (h.node pron).canon ∈ reflexivePronouns then t.childVia verb .SUBJ else .ok none

/-- `__resolve_subj_reflexive_pron`, arg_finder.py:192-204 -/
def resolveSubjReflexivePron (t : Tree Dep Ref) (h : Heap) (verb pron : Ref) : Except PyErr (Option Ref) :=
  if (h.node pron).canon ∈ reflexivePronouns then
    match t.parent verb with
    | some (dep, p) => if dep = .OBJ ∧ (h.node p).tag = .VERB then t.childVia p .SUBJ else .ok none
    | none => .ok none
  else .ok none

/-- `a or b` for optional nodes, where `b` is only evaluated if needed. -/
def orElseM (a : Option Ref) (b : Except PyErr (Option Ref)) : Except PyErr (Option Ref) :=
  match a with
  | some r => .ok (some r)
  | none => b

/-- Analysis of the parent of a node, arg_finder.py:91-123 -/
def analyzeParent (t : Tree Dep Ref) (node : Ref) (dep : Dep) (parent : Ref) (h : Heap) : Except PyErr Heap :=
  match dep with
  | .SUBJ => do
    let ref ← orElseM (resolveRelativePron t h parent node) (resolveSubjReflexivePron t h parent node)
    return registerSubjs t parent (ref.getD node) h
  | .OBJ => do
    let ref ← orElseM (resolveRelativePron t h parent node) (resolveObjReflexivePron t h parent node)
    return registerObjs t parent (ref.getD node) h
  | .IOBJ => .ok (registerIobjs parent node h)
  | .EXIST => .ok (registerExists parent node h)
  | .PROP => do
    let h₁ := h.upd parent fun n => { n with props := n.props ++ h.aggreg node }
    match ← t.childVia parent .SUBJ with
    | none => return h₁
    | some subj => return registerPropsViaCopula t ((resolveRelativePron t h₁ parent subj).getD subj) parent node h₁
  | .IPROP => registerIprops t parent node h
  | _ => .ok h

/-- An adjective complement without marker, arg_finder.py:139-144 -/
def analyzeNakedAdj (t : Tree Dep Ref) (node parent : Ref) (h : Heap) : Except PyErr Heap :=
  if (h.node node).tag = .ADJ then
    let h₁ := registerAdjs parent node h
    if (h₁.node parent).tag ∈ nounTags then
      match t.childVia node .PROP with
      | .ok (some prop) =>
        if (h₁.node node).suffix = some .PAST then .ok (registerPropsViaPp parent node prop h₁) else .ok h₁
      | .ok none => .ok h₁
      | .error e => .error e
    else .ok h₁
  else .ok h

/-- Analysis of the marker of a complement, arg_finder.py:138-147 -/
def analyzeMark (t : Tree Dep Ref) (node parent : Ref) (mark : Option Ref) (h : Heap) : Except PyErr Heap :=
  match mark with
  | none => analyzeNakedAdj t node parent h
  | some m => .ok (registerAgents t parent node m h)

/-- Analysis of the parent of a node if any, arg_finder.py:90-123 -/
def parentStep (t : Tree Dep Ref) (node : Ref) (h : Heap) : Except PyErr Heap :=
  match t.parent node with
  | some (dep, p) => analyzeParent t node dep p h
  | none => .ok h

/-- Analysis of a complement, arg_finder.py:132-150 (the two sets of complements are updated in `directStep`). -/
def analyzeCpl (t : Tree Dep Ref) (node parent : Ref) (mark cmark : Option Ref) (h : Heap) : Except PyErr Heap := do
  let h₁ ← analyzeMark t node parent mark h
  if cmark ≠ none ∧ (h₁.node parent).tag = .ADJ ∧ (h₁.node node).tag ∈ nounTags then
    return registerAdjs node parent h₁
  else return h₁

/-- State of the first loop: objects, `naked_cpls`, `marked_cpls`, arg_finder.py:85-86 -/
structure ArgState where
  heap : Heap
  naked : List Ref
  marked : List Ref

/-- One turn of the loop over direct dependencies, arg_finder.py:87-150 -/
def directStep (t : Tree Dep Ref) (s : ArgState) (node : Ref) : Except PyErr ArgState := do
  let h₁ ← parentStep t node s.heap
  let mark ← t.childVia node .MARK
  let cmark ← t.childVia node .CMARK
  let imark ← t.childVia node .IMARK
  let h₂ := if (t.children node).any fun c => c.1 = .NEG then h₁.upd node fun n => { n with isAff := false } else h₁
  match t.parent node with
  | some (.CPL, p) => do
    let h₃ ← analyzeCpl t node p mark cmark h₂
    return { heap := h₃,
             naked := if mark = none ∧ imark = none ∧ cmark = none then s.naked ++ [node] else s.naked,
             marked := if mark ≠ none then s.marked ++ [node] else s.marked }
  | _ => return { s with heap := h₂ }

/-- One turn of the loop over long-distance dependencies, arg_finder.py:152-166 -/
def longStep (t : Tree Dep Ref) (naked marked : List Ref) (h : Heap) (node : Ref) : Except PyErr Heap :=
  match t.parent node with
  | none => .ok h
  | some (_, p) =>
    if node ∈ marked ∧ (h.node node).tag = .VERB ∧ t.hasChildVia node .SUBJ = false ∧ (h.node p).tag = .VERB then do
      match ← t.childVia p .SUBJ with
      | some subj => return registerSubjs t node subj h
      | none => return h
    else if node ∈ naked ∧ (h.node p).tag ∈ nounTags ∧ t.hasChildVia node .OBJ = false then do
      match ← t.childVia node .SUBJ with
      | some subj => if (h.node subj).canon ∉ relativePronouns then return registerObjs t node p h else return h
      | none => return h
    else .ok h

/-- Aggregations, arg_finder.py:81-83 -/
def aggregStep (t : Tree Dep Ref) (h : Heap) (node : Ref) : Heap :=
  h.upd node fun n => { n with andCconjs := t.childrenVia node .AND, orCconjs := t.childrenVia node .OR }

/-- `ArgFinder.__call__`, arg_finder.py:78-166 -/
def findArgs (t : Tree Dep Ref) (nodes : List Ref) (h : Heap) : Except PyErr Heap := do
  let h₁ := nodes.foldl (aggregStep t) h
  let s ← nodes.foldlM (directStep t) { heap := h₁, naked := [], marked := [] }
  nodes.foldlM (longStep t s.naked s.marked) s.heap

end Model
