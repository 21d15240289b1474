import Verif.Model.Mutables

/-! Model of `scrappybara/utils/tree.py`. -/

namespace Model
open Py

/-- `Tree`, tree.py:4-12 -/
structure Tree (L N : Type) where
  root : N
  children' : Dict N (Dict L (List N)) := []
  parents : Dict N (L × N) := []

namespace Tree
variable {L N : Type} [DecidableEq L] [DecidableEq N]

/-- Arc iteration `(label, parent, child)`, tree.py:14-22 -/
def arcs (t : Tree L N) : List (L × N × N) := t.parents.map fun p => (p.2.1, p.2.2, p.1)

/-- `__len__`, tree.py:24-25 -/
def len (t : Tree L N) : Nat := 1 + t.parents.keys.length

/-- `register_child`, tree.py:27-30 -/
def registerChild (t : Tree L N) (label : L) (parent child : N) : Except PyErr (Tree L N) :=
  if parent ≠ child then
    .ok { t with
      children' := appendInDictDictList t.children' parent label child
      parents := t.parents.set child (label, parent) }
  else .error .assertion

/-- `nodes`, tree.py:32-34 -/
def nodes (t : Tree L N) : List N := t.root :: t.parents.keys

/-- `has_node`, tree.py:36-37 -/
def hasNode (t : Tree L N) (n : N) : Bool := t.children'.has n || t.parents.has n

/-- `parent`, tree.py:76-81 -/
def parent (t : Tree L N) (n : N) : Option (L × N) := t.parents.get? n

/-- `_recurse_climb` of `ancestors_via`, tree.py:46-52, nearest ancestor first; `none` = the fuel ran out, i.e. the
python recursion is deeper than the fuel (python's recursion limit is not modelled). -/
def climb (t : Tree L N) (label : L) : Nat → N → Option (List N)
  | 0, _ => none
  | fuel + 1, n =>
    match t.parent n with
    | none => some []
    | some (l, p) => if l = label then (climb t label fuel p).map (p :: ·) else some []

/-- `ancestors_via`, tree.py:39-56 -/
def ancestorsVia (t : Tree L N) (fuel : Nat) (n : N) (label : L) : Option (List N) :=
  (t.climb label fuel n).map List.reverse

/-- `children`, tree.py:95-100 -/
def children (t : Tree L N) (n : N) : List (L × N) :=
  match t.children'.get? n with
  | some e => e.flatMap fun p => p.2.map fun c => (p.1, c)
  | none => []

/-- `children_via`, tree.py:102-106 -/
def childrenVia (t : Tree L N) (n : N) (label : L) : List N :=
  match t.children'.get? n with
  | some e => match e.get? label with
    | some l => l
    | none => []
  | none => []

/-- `_recurse_add_descendants` of `descendants_via`, tree.py:64-71: the two `KeyError`s both mean "no child via label";
`none` = the fuel ran out. -/
def descend (t : Tree L N) (label : L) : Nat → N → Option (List N)
  | 0, _ => none
  | fuel + 1, n => (t.childrenVia n label).foldlM (fun acc c => (descend t label fuel c).map fun l => acc ++ c :: l) []

/-- `descendants_via`, tree.py:58-74 -/
def descendantsVia (t : Tree L N) (fuel : Nat) (n : N) (label : L) : Option (List N) := t.descend label fuel n

/-- `has_parent_via`, tree.py:83-87 -/
def hasParentVia (t : Tree L N) (n : N) (label : L) : Bool :=
  match t.parents.get? n with
  | some p => p.1 = label
  | none => false

/-- `has_parent_via_set`, tree.py:89-93 -/
def hasParentViaSet (t : Tree L N) (n : N) (labels : List L) : Bool :=
  match t.parents.get? n with
  | some p => p.1 ∈ labels
  | none => false

/-- `child_via`, tree.py:108-113; the lists of the dictionary are never empty (an empty one would be an IndexError). -/
def childVia (t : Tree L N) (n : N) (label : L) : Except PyErr (Option N) :=
  match t.children'.get? n with
  | some e => match e.get? label with
    | some (c :: _) => .ok (some c)
    | some [] => .error .index
    | none => .ok none
  | none => .ok none

/-- `has_child_via`, tree.py:115-119 -/
def hasChildVia (t : Tree L N) (n : N) (label : L) : Bool :=
  match t.children'.get? n with
  | some e => e.has label
  | none => false

/-- `has_child_via_set`, tree.py:121-125 -/
def hasChildViaSet (t : Tree L N) (n : N) (labels : List L) : Bool :=
  match t.children'.get? n with
  | some e => e.keys.any fun k => k ∈ labels
  | none => false

/-- `siblings`, tree.py:127-137; the lookup of the parent's children can also raise the caught `KeyError`. -/
def siblings (t : Tree L N) (n : N) : List (L × N) :=
  match t.parents.get? n with
  | some (_, p) => match t.children'.get? p with
    | some e => e.flatMap fun q => (q.2.filter fun c => c ≠ n).map fun c => (q.1, c)
    | none => []
  | none => []

end Tree

/-- A tree made by a history of `register_child` calls `(label, parent, child)`, first call first. -/
def buildTree {L N : Type} [DecidableEq L] [DecidableEq N] (root : N) (hist : List (L × N × N)) :
    Except PyErr (Tree L N) :=
  hist.foldlM (fun t a => t.registerChild a.1 a.2.1 a.2.2) { root := root }

end Model
