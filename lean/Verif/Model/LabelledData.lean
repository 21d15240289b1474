import Verif.Model.Parser

/-! Model of `scrappybara/syntax/labelled_data.py` (the sentence reader and the transition oracle). -/

namespace Model
open Py

/-- A token tuple without its word: tag, dependency and parent index (-1 = none). -/
abbrev TokenTuple := Tag × Dep × Int

/-- `sorted([a, b])` of two integers -/
def sorted2 (a : Int × Int) : Int × Int := if a.1 ≤ a.2 then a else (a.2, a.1)

/-- Lexicographic order of python lists of two elements. -/
def lexLe (a b : Int × Int) : Bool := a.1 < b.1 || (a.1 = b.1 && a.2 ≤ b.2)

/-- `_arcs_are_crossing`, labelled_data.py:23-25 -/
def arcsAreCrossing (a₁ a₂ : Int × Int) : Bool :=
  let s₁ := sorted2 a₁
  let s₂ := sorted2 a₂
  let (x, y) := if lexLe s₁ s₂ then (s₁, s₂) else (s₂, s₁)
  x.1 < y.1 && y.1 < x.2 && x.2 < y.2

/-- `LabelledSentence` after `__init__`, labelled_data.py:65-87. -/
structure LabelledSentence where
  tags : List Tag := []
  deps : List Dep := []
  tree : Option (Tree Dep Nat) := none

/-- The `register_child` calls made by `__init__`, labelled_data.py:80-87. -/
def goldArcs (tuples : List TokenTuple) : List Arc :=
  tuples.zipIdx.filterMap fun t =>
    if t.1.2.1 ≠ .ROOT ∧ t.1.2.1 ≠ .NODEP ∧ t.1.2.2 > -1 then some (t.1.2.1, t.1.2.2.toNat, t.2) else none

/-- Index of the first token labelled `ROOT`, labelled_data.py:73-77 -/
def goldRoot (tuples : List TokenTuple) : Option Nat :=
  (tuples.zipIdx.find? fun t => t.1.2.1 = .ROOT).map Prod.snd

/-- `LabelledSentence.__init__`, labelled_data.py:65-87: without a `ROOT` everything stays empty. -/
def LabelledSentence.new (tuples : List TokenTuple) : Except PyErr LabelledSentence :=
  match goldRoot tuples with
  | none => .ok {}
  | some r => do
    let tree ← buildTree r (goldArcs tuples)
    return { tags := tuples.map fun t => t.1, deps := tuples.map fun t => t.2.1, tree := some tree }

namespace LabelledSentence

/-- `self.tree.…` on a missing tree is an `AttributeError`. -/
def getTree (s : LabelledSentence) : Except PyErr (Tree Dep Nat) :=
  match s.tree with
  | some t => .ok t
  | none => .error .attribute

/-- `_is_parent`, labelled_data.py:104-109 -/
def isParent (s : LabelledSentence) (parent child : Nat) : Except PyErr Bool := do
  match (← s.getTree).parent child with
  | some (_, i) => return i = parent
  | none => return false

/-- `_has_arc_before`, labelled_data.py:111-123 -/
def hasArcBefore (s : LabelledSentence) (token maxIdx : Nat) : Except PyErr Bool := do
  let tree ← s.getTree
  let viaParent := match tree.parent token with
    | some (_, i) => decide (i < maxIdx)
    | none => false
  return viaParent || (tree.children token).any fun c => c.2 < maxIdx

/-- `have_crossing_arcs`, labelled_data.py:148-156; a token without parent that is not the root is a `TypeError`. -/
def haveCrossingArcs (s : LabelledSentence) (c₁ c₂ : Nat) : Except PyErr Bool := do
  let tree ← s.getTree
  if c₁ = tree.root ∨ c₂ = tree.root then return false
  match tree.parent c₁, tree.parent c₂ with
  | some (_, p₁), some (_, p₂) => return arcsAreCrossing ((p₁ : Int), (c₁ : Int)) ((p₂ : Int), (c₂ : Int))
  | _, _ => throw .type

/-- `valid_idxs`, labelled_data.py:136-143 -/
def validIdxs (s : LabelledSentence) : List Nat :=
  (s.deps.zipIdx.filter fun d => d.1 ≠ .NODEP).map Prod.snd

/-- The loop of `transitions`, labelled_data.py:174-188; `none` = the fuel ran out. The accumulated transitions are
`(idx_1, idx_2, transition)`; the stack has its top first. -/
def oracleLoop (s : LabelledSentence) :
    Nat → List Nat → List Nat → List (Nat × Nat × Trans) → Except PyErr (Option (List (Nat × Nat × Trans)))
  | _, _, [], acc => .ok (some acc)
  | 0, _, _ :: _, _ => .ok none
  | fuel + 1, [], b :: bs, acc => oracleLoop s fuel [b] bs acc
  | fuel + 1, t :: ts, b :: bs, acc => do
    if ← s.isParent b t then oracleLoop s fuel ts (b :: bs) (acc ++ [(t, b, .LEFT)])
    else if ← s.isParent t b then oracleLoop s fuel (b :: t :: ts) bs (acc ++ [(t, b, .RIGHT)])
    else if ← s.hasArcBefore b t then oracleLoop s fuel ts (b :: bs) (acc ++ [(t, b, .REDUCE)])
    else oracleLoop s fuel (b :: t :: ts) bs (acc ++ [(t, b, .SHIFT)])

/-- `transitions`, labelled_data.py:158-189 -/
def transitions (s : LabelledSentence) (fuel : Nat) : Except PyErr (Option (List (Nat × Nat × Trans))) :=
  match s.validIdxs with
  | [] => .ok (some [])
  | b :: bs => oracleLoop s fuel [b] bs []

end LabelledSentence
end Model
