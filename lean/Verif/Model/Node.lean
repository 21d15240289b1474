import Verif.Model.Enums
import Verif.Model.Tree
import Verif.Model.Text

/-! Model of `scrappybara/syntax/node.py` and `normalization/suffixes.py`. Node objects are compared by identity, so a
node is a reference into a heap. -/

namespace Model
open Py

/-- `Suffix`, suffixes.py:4-24 -/
inductive Suffix
  | THIRD_PERSON | PAST | PROGRESSIVE | PLURAL | COMPARATIVE | SUPERLATIVE
  deriving DecidableEq, Repr, Inhabited

/-- Identity of a node object. -/
abbrev Ref := Nat

/-- Attributes of a `Node`, node.py:7-42. `lem` is `lemma`, `exist` is `exists`. -/
structure Node where
  idx : Nat
  original : Str
  tag : Tag
  particles : List Str := []
  isInfTo : Bool := false
  standard : Str
  lem : Str
  suffix : Option Suffix := none
  chunk : Option Str := none
  canon : Str
  activeVerb : Option Str := none
  andCconjs : List Ref := []
  orCconjs : List Ref := []
  isAff : Bool := true
  subjs : List Ref := []
  objs : List Ref := []
  exist : List Ref := []
  props : List Ref := []
  iprops : List Ref := []
  iobjs : List Ref := []
  adjs : List Ref := []
  subjsVerbsIprops : List (Option Ref × Ref × Ref) := []
  copulasProps : List (Ref × Ref) := []
  ppsProps : List (Ref × Ref) := []
  agents : List Ref := []
  deriving DecidableEq

instance : Inhabited Node := ⟨{ idx := 0, original := [], tag := .PAD, standard := [], lem := [], canon := [] }⟩

/-- `Node(token_idx, text, tag)`, node.py:7-42; `lower` is `str.lower`. -/
def Node.new (lower : Str → Str) (idx : Nat) (text : Str) (tag : Tag) : Node :=
  { idx := idx, original := text, tag := tag, standard := lower text, lem := lower text, canon := lower text }

/-- `cconjs`, node.py:50-52 -/
def Node.cconjs (n : Node) : List Ref := n.andCconjs ++ n.orCconjs

/-- `cannot_be_transitive`, node.py:58-60 -/
def Node.cannotBeTransitive (n : Node) : Bool := !n.props.isEmpty || !n.iprops.isEmpty || !n.exist.isEmpty

/-- Node objects in memory: `next` is the next free reference. References are only made by `alloc`. -/
structure Heap where
  next : Nat
  node : Ref → Node

/-- No object yet. -/
def Heap.empty : Heap := { next := 0, node := fun _ => default }

/-- Creation of an object. -/
def Heap.alloc (h : Heap) (n : Node) : Heap × Ref :=
  ({ next := h.next + 1, node := fun r => if r = h.next then n else h.node r }, h.next)

/-- In-place change of an object. -/
def Heap.upd (h : Heap) (r : Ref) (f : Node → Node) : Heap :=
  { h with node := fun r' => if r' = r then f (h.node r) else h.node r' }

/-- `aggreg`, node.py:54-56 -/
def Heap.aggreg (h : Heap) (r : Ref) : List Ref := r :: ((h.node r).andCconjs ++ (h.node r).orCconjs)

end Model
