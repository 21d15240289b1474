import Verif.Model.Node
import Mathlib.Data.List.Sort

/-! Model of `scrappybara/syntax/chunker.py` and `scrappybara/syntax/fixer.py`. -/

namespace Model
open Py

/-- `_chunk_recursive`, chunker.py:11-14; `none` = the fuel ran out. -/
def chunkRec (cn : Dict Ref (List Ref)) : Nat → Ref → Option (List Ref)
  | 0, _ => none
  | fuel + 1, r => ((cn.get? r).getD []).foldlM (fun acc c => (chunkRec cn fuel c).map fun l => acc ++ c :: l) []

/-- `_chunk`, chunker.py:7-18; a recursion deeper than the number of keys is a cycle (`RecursionError`). `cfg.COMPOUND_JOIN`
is a space, config.py:25 -/
def chunkOf (h : Heap) (cn : Dict Ref (List Ref)) (r : Ref) : Except PyErr Str :=
  match chunkRec cn (cn.keys.length + 1) r with
  | none => .error .recursion
  | some l => .ok (join c!" "
      (((r :: l).insertionSort fun a b => (h.node a).idx ≤ (h.node b).idx).map fun n => (h.node n).lem))

/-- The noun is a compound of its parent, chunker.py:28-32 -/
def compoundParent (h : Heap) (t : Tree Dep Ref) (r : Ref) : Option Ref :=
  match t.parent r with
  | none => none
  | some (dep, p) =>
    if dep = .CPL ∧ t.hasChildViaSet r markerDeps = false ∧ (h.node r).idx < (h.node p).idx ∧ (h.node p).tag ∈ nounTags
    then some p else none

/-- One turn of the loop, chunker.py:27-34 -/
def compoundStep (h : Heap) (t : Tree Dep Ref) (acc : Dict Ref (List Ref) × List Ref) (r : Ref) :
    Dict Ref (List Ref) × List Ref :=
  match compoundParent h t r with
  | some p => (appendToDictList acc.1 p r, acc.2 ++ [r])
  | none => acc

/-- `compound_nouns` and `have_parent`, chunker.py:25-34 -/
def compounds (h : Heap) (t : Tree Dep Ref) (nodes : List Ref) : Dict Ref (List Ref) × List Ref :=
  (nodes.filter fun r => (h.node r).tag ∈ nounTags).foldl (compoundStep h t) ([], [])

/-- `Chunker.__call__`, chunker.py:23-36 -/
def chunker (h : Heap) (t : Tree Dep Ref) (nodes : List Ref) : Except PyErr Heap :=
  let c := compounds h t nodes
  (nodes.filter fun r => c.1.has r ∧ r ∉ c.2).foldlM (fun h r => do
    let s ← chunkOf h c.1 r
    return h.upd r fun n => { n with chunk := some s }) h

/-- `Fixer.__call__`, fixer.py:11-21: the new tag of a node. -/
def fixTag (adjs nouns : List Str) (h : Heap) (t : Tree Dep Ref) (r : Ref) : Tag :=
  let n := h.node r
  if t.children r = [] then
    match t.parent r with
    | none => n.tag
    | some (dep, p) =>
      if (dep = .CPL ∧ (h.node p).tag ∈ nounTags) ∨ dep ∈ propDeps then
        if n.lem ∈ adjs ∧ n.tag ∈ nounTags then .ADJ
        else if n.lem ∈ nouns ∧ n.tag = .ADJ then .NOUN
        else n.tag
      else n.tag
  else n.tag

/-- `Fixer.__call__` -/
def fixNode (adjs nouns : List Str) (t : Tree Dep Ref) (h : Heap) (r : Ref) : Heap :=
  h.upd r fun n => { n with tag := fixTag adjs nouns h t r }

/-- The loop over the nodes, logic_pipeline.py:61-62 -/
def fixAll (adjs nouns : List Str) (t : Tree Dep Ref) (h : Heap) (nodes : List Ref) : Heap :=
  nodes.foldl (fixNode adjs nouns t) h

end Model
