import Verif.Model.Node
import Mathlib.Data.List.Sort

/-! Model of `scrappybara/syntax/nodifier.py`. -/

namespace Model
open Py

/-- Working state of `Nodifier.__call__`: objects, `node_dict` and the black list, nodifier.py:23-24 -/
structure Nodif where
  heap : Heap
  dict : Dict Nat Ref
  bl : List Nat

/-- `node_dict[key] = node` for a new node. -/
def Nodif.put (s : Nodif) (key : Nat) (n : Node) : Nodif :=
  { s with heap := (s.heap.alloc n).1, dict := s.dict.set key (s.heap.alloc n).2 }

/-- `ancestors_via`; more steps than the tree has nodes means a cycle, where python raises `RecursionError`. -/
def ancestorsOrRaise (t : Tree Dep Nat) (idx : Nat) (dep : Dep) : Except PyErr (List Nat) :=
  match t.ancestorsVia t.len idx dep with
  | some l => .ok l
  | none => .error .recursion

/-- Detection of tokens without dependency, nodifier.py:26-28 -/
def nodepIdxs (tokens : List Str) (t : Tree Dep Nat) : List Nat :=
  (List.range tokens.length).filter fun i => !t.hasNode i

/-- One turn of the loop that flattens tokens, nodifier.py:31-40 -/
def flattenStep (lower : Str → Str) (tokens : List Str) (tags : List Tag) (t : Tree Dep Nat) (s : Nodif)
    (tok : Str × Nat) : Except PyErr Nodif :=
  if t.children tok.2 = [] then
    match t.parent tok.2 with
    | none => .ok s
    | some (dep, _) =>
      if dep = .FLAT then do
        let anc ← ancestorsOrRaise t tok.2 .FLAT
        let ancIdx ← index anc 0
        let texts ← anc.mapM fun (i : Nat) => index tokens (i : Int)
        let tag ← index tags (tok.2 : Int)
        return { s.put ancIdx (Node.new lower tok.2 (join c!" " (texts ++ [tok.1])) tag) with
          bl := s.bl ++ (tok.2 :: anc) }
      else .ok s
  else .ok s

/-- Particles of a node, nodifier.py:50-54 -/
def addParticle (lower : Str → Str) (tokens : List Str) (idx : Nat) (n : Node) (i : Nat) : Except PyErr Node := do
  let tok ← index tokens (i : Int)
  if i > idx then return { n with particles := n.particles ++ [lower tok] }
  else if lower tok = c!"to" then return { n with isInfTo := true }
  else return n

/-- One turn of the loop over verbs and adjectives with particles, nodifier.py:42-55 -/
def particleStep (lower : Str → Str) (tokens : List Str) (tags : List Tag) (t : Tree Dep Nat) (s : Nodif)
    (tok : Str × Nat) : Except PyErr Nodif :=
  let parts := ((t.children tok.2).filter fun c => c.1 = .PART).map Prod.snd
  if parts = [] then .ok s
  else do
    let tag ← index tags (tok.2 : Int)
    let n ← (parts.insertionSort (· ≤ ·)).foldlM (addParticle lower tokens tok.2) (Node.new lower tok.2 tok.1 tag)
    return { s.put tok.2 n with bl := s.bl ++ parts }

/-- One turn of the loop over the remaining tokens, nodifier.py:57-59 -/
def remainingStep (lower : Str → Str) (tags : List Tag) (s : Nodif) (tok : Str × Nat) : Except PyErr Nodif :=
  if s.dict.has tok.2 = false ∧ tok.2 ∉ s.bl then do
    let tag ← index tags (tok.2 : Int)
    return s.put tok.2 (Node.new lower tok.2 tok.1 tag)
  else .ok s

/-- The arcs registered in the new tree, in order, nodifier.py:62-65 -/
def nodeArcs (t : Tree Dep Nat) (dict : Dict Nat Ref) : List (Dep × Ref × Ref) :=
  dict.flatMap fun p => (t.children p.1).filterMap fun c => (dict.get? c.2).map fun r => (c.1, p.2, r)

/-- `Nodifier.__call__`, nodifier.py:13-69 -/
def nodify (lower : Str → Str) (tokens : List Str) (tags : List Tag) (tree : Option (Tree Dep Nat)) :
    Except PyErr (Heap × Dict Nat Ref × Option (Tree Dep Ref)) :=
  match tree with
  | none => .ok (Heap.empty, [], none)
  | some t =>
    if t.len = 1 then do
      let tok ← index tokens (t.root : Int)
      let tag ← index tags (t.root : Int)
      let (h, r) := Heap.empty.alloc (Node.new lower t.root tok tag)
      return (h, [(t.root, r)], some { root := r })
    else do
      let s₀ : Nodif := { heap := Heap.empty, dict := [], bl := nodepIdxs tokens t }
      let s₁ ← tokens.zipIdx.foldlM (flattenStep lower tokens tags t) s₀
      let s₂ ← tokens.zipIdx.foldlM (particleStep lower tokens tags t) s₁
      let s₃ ← tokens.zipIdx.foldlM (remainingStep lower tags) s₂
      let root ← s₃.dict.get t.root
      let nt ← buildTree root (nodeArcs t s₃.dict)
      let kept := s₃.dict.values.filter fun r => !nt.hasParentViaSet r functionalDeps
      return (s₃.heap, Dict.ofPairs (kept.map fun r => ((s₃.heap.node r).idx, r)), some nt)

end Model
