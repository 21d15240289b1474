import Verif.Model.Enums
import Verif.Model.Tree
import Verif.Model.Multithreading

/-! Model of `scrappybara/syntax/parser.py`. The neural networks are function parameters. -/

namespace Model
open Py

/-- An arc `(dep, parent_idx, child_idx)`. -/
abbrev Arc := Dep × Nat × Nat

/-- `_Parse`, parser.py:19-34. `mats` stands for the prediction materials (tag codes, dep codes, char codes, word
vectors) that are only handed to the transition model. The stack has its top first. -/
structure Parse (X : Type) where
  mats : X
  tags : List Tag
  deps : List Dep
  stack : List Nat
  buffer : List Nat
  arcs : List Arc
  deriving DecidableEq

namespace Parse
variable {X : Type}

/-- `__shift`, parser.py:42-43 -/
def shift (p : Parse X) : Except PyErr (Parse X) :=
  match p.buffer with
  | b :: bs => .ok { p with stack := b :: p.stack, buffer := bs }
  | [] => .error .index

/-- `__reduce`, parser.py:45-48 -/
def reduce (p : Parse X) : Except PyErr (Parse X) :=
  match p.stack with
  | [] => .error .index
  | _ :: s =>
    let p' := { p with stack := s }
    if s = [] then p'.shift else .ok p'

/-- `__pdep`, parser.py:36-40 -/
def pdep (p : Parse X) (child : Nat) : Except PyErr Dep := do
  let d ← index p.deps (child : Int)
  return if d = .ROOT then .SPLIT else d

/-- `_Parse.__init__`, parser.py:22-34: codes are decoded without the padding positions, tokens predicted `NODEP` stay
out of the buffer, the first token is shifted. -/
def new (mats : X) (seqLength : Nat) (tagCodes depCodes : List Nat) : Except PyErr (Parse X) := do
  let tags ← (slice tagCodes 1 ((seqLength : Int) - 1)).mapM Tag.ofCode
  let deps ← (slice depCodes 1 ((seqLength : Int) - 1)).mapM Dep.ofCode
  let buffer ← (List.range (seqLength - 2)).filterMapM fun (i : Nat) => do
    let d ← index deps (i : Int)
    return if d ≠ .NODEP then some i else none
  let p : Parse X := { mats := mats, tags := tags, deps := deps, stack := [], buffer := buffer, arcs := [] }
  if buffer ≠ [] then p.shift else return p

/-- `complete`, parser.py:50-52 -/
def complete (p : Parse X) : Bool := p.buffer.isEmpty

/-- `stack[-1]` -/
def top (p : Parse X) : Except PyErr Nat :=
  match p.stack with
  | t :: _ => .ok t
  | [] => .error .index

/-- `buffer[0]` -/
def front (p : Parse X) : Except PyErr Nat :=
  match p.buffer with
  | b :: _ => .ok b
  | [] => .error .index

/-- `register_transition`, parser.py:72-82 -/
def registerTransition (p : Parse X) : Trans → Except PyErr (Parse X)
  | .LEFT => do
    let t ← p.top
    let d ← p.pdep t
    let b ← p.front
    reduce { p with arcs := p.arcs ++ [(d, b, t)] }
  | .RIGHT => do
    let b ← p.front
    let d ← p.pdep b
    let t ← p.top
    shift { p with arcs := p.arcs ++ [(d, t, b)] }
  | .REDUCE => p.reduce
  | .SHIFT => p.shift

end Parse

/-- `_make_mask`, training_samples.py:58-61: `IndexError` beyond the padded length. -/
def makeMask (i : Nat) : Except PyErr (List Bool) :=
  if i < paddedSentLength then .ok ((List.replicate paddedSentLength false).set i true) else .error .index

/-- `make_masks`, training_samples.py:55-63 -/
def makeMasks (i j : Nat) : Except PyErr (List Bool × List Bool) := do
  return (← makeMask i, ← makeMask j)

/-- `mats`, parser.py:66-70 -/
def Parse.rowOf {X} (p : Parse X) : Except PyErr (X × List Bool × List Bool) := do
  let t ← p.top
  let b ← p.front
  let m ← makeMasks (t + 1) (b + 1)
  return (p.mats, m.1, m.2)

/-- `root`, parser.py:54-64: the smallest token that takes part in an arc and is never a child. -/
def rootOf (arcs : List Arc) : Option Nat :=
  ((arcs.flatMap fun a => [a.2.1, a.2.2]).filter fun i => decide (i ∉ arcs.map fun a => a.2.2)).min?

/-- `_build_tree`, parser.py:85-94 -/
def buildParseTree (arcs : List Arc) : Except PyErr (Option (Tree Dep Nat)) :=
  match rootOf arcs with
  | none => .ok none
  | some r => (buildTree r arcs).map some

/-- Registering a list of transitions on a parse, stopping when the parse is complete (parser.py:121-126
and 145-146 seen from one sentence). -/
def runTrans {X} (p : Parse X) : List Trans → Except PyErr (Parse X)
  | [] => .ok p
  | tr :: ts => if p.complete then .ok p else do
      let p' ← p.registerTransition tr
      runTrans p' ts

/-- Indexes of the incomplete parses, parser.py:121 and 126 -/
def incomplete {X} (ps : List (Parse X)) : List Nat :=
  (List.range ps.length).filter fun i => match ps[i]? with
    | some p => !p.complete
    | none => false

/-- `__predict_transitions`, parser.py:141-146, on the parses of the given indexes (python mutates the shared objects). -/
def predictTransitions {X} (model : List (X × List Bool × List Bool) → List Trans) (ps : List (Parse X))
    (idxs : List Nat) : Except PyErr (List (Parse X)) := do
  let rows ← idxs.mapM fun (i : Nat) => do (← index ps (i : Int)).rowOf
  (model rows).zipIdx.foldlM (fun ps tk => do
    let i ← index idxs (tk.2 : Int)
    let p ← index ps (i : Int)
    let p' ← p.registerTransition tk.1
    return ps.set i p') ps

/-- One round of the prediction loop, parser.py:123-126 -/
def predictRound {X} (model : List (X × List Bool × List Bool) → List Trans) (batchSize : Int)
    (ps : List (Parse X)) : Except PyErr (List (Parse X)) := do
  let batches ← makeBatches (incomplete ps) batchSize
  batches.foldlM (predictTransitions model) ps

/-- The prediction loop, parser.py:121-126; `none` = not finished after `fuel` rounds. -/
def predictLoop {X} (model : List (X × List Bool × List Bool) → List Trans) (batchSize : Int) :
    Nat → List (Parse X) → Except PyErr (Option (List (Parse X)))
  | fuel, ps =>
    if incomplete ps = [] then .ok (some ps)
    else match fuel with
      | 0 => .ok none
      | fuel + 1 => do
        let ps' ← predictRound model batchSize ps
        predictLoop model batchSize fuel ps'

/-- What the networks see of a sentence: `W` is the type of (char codes, word vectors). -/
structure Networks (W : Type) where
  tags : List W → List (List Nat)
  deps : List (List Nat) → List W → List (List Nat)
  trans : List (((List Nat × List Nat × W)) × List Bool × List Bool) → List Trans

/-- Parses of one batch of vectorised sentences, parser.py:114-119 -/
def batchParses {W} (nets : Networks W) (batch : List (Nat × W)) :
    Except PyErr (List (Parse (List Nat × List Nat × W))) := do
  let ws := batch.map Prod.snd
  let tagCodes := nets.tags ws
  let depCodes := nets.deps tagCodes ws
  batch.zipIdx.mapM fun (s : (Nat × W) × Nat) => do
    let tc ← index tagCodes (s.2 : Int)
    let dc ← index depCodes (s.2 : Int)
    Parse.new (tc, dc, s.1.2) s.1.1 tc dc

/-- Parameters of a `Parser`, parser.py:99-106, with the schedules of its two thread pools and a bound on the number of
prediction rounds. -/
structure ParserCfg where
  rounding : Rounding
  nbProcesses : Int
  batchSize : Int
  sched₁ : List Move
  sched₂ : List Move
  fuel : Nat

/-- `Parser.__call__`, parser.py:108-130; `none` = some schedule is incomplete or the fuel ran out. -/
def parserCall {W S} (cfg : ParserCfg) (vectorize : S → Except PyErr (Nat × W)) (nets : Networks W)
    (sentences : List S) : Except PyErr (Option (List (List Tag) × List (Option (Tree Dep Nat)))) := do
  match ← runMultithreads cfg.rounding sentences vectorize cfg.nbProcesses cfg.sched₁ with
  | none => return none
  | some mats =>
    let batches ← makeBatches mats cfg.batchSize
    let parses ← batches.mapM (batchParses nets)
    match ← predictLoop nets.trans cfg.batchSize cfg.fuel parses.flatten with
    | none => return none
    | some ps =>
      match ← runMultithreads cfg.rounding ps (fun p => buildParseTree p.arcs) cfg.nbProcesses cfg.sched₂ with
      | none => return none
      | some trees => return some (ps.map Parse.tags, trees)

end Model
