import Verif.Model.Networks

/-! Model of how the networks of `scrappybara/syntax/models.py` treat a batch, and of the parser calling them. The layers
themselves are arbitrary functions of one sentence; what is modelled is which sentence each score belongs to, and which
inputs a network refuses. For tags and dependencies, which are scored sentence by sentence, the steps in which keras goes
through a batch make no difference and are left out. -/

namespace Model
open Py

variable {F : Type} [LinearOrder F] {W H S X : Type}

/-- The layers of the three networks on one sentence: `fits` tells if characters and word vectors have the shapes and codes of
the inputs (models.py:31-33 and 74), `tagScores` and `depScores` are all layers of models.py:72-82 and 110-122, `states` the
layers up to the BiLSTM of models.py:155-171, and `scores` the dense layers of models.py:177-179. -/
structure Layers (F W H : Type) where
  fits : W → Bool
  tagScores : W → List (List F)
  depScores : List Nat → W → List (List F)
  states : List Nat → List Nat → W → List H
  scores : H → H → List F

/-- A row of `Input(shape=(cfg.PADDED_SENT_LENGTH,))` for an `Embedding` of `n` codes, models.py:112-115 -/
def codesFit (n : Nat) (codes : List Nat) : Bool := codes.length = paddedSentLength && codes.all (· < n)

/-- `PTagsModel.predict`, models.py:96-98 -/
def Layers.predictTags (L : Layers F W H) (ws : List W) : Except PyErr (List (List Nat)) :=
  if ws ≠ [] ∧ ws.all L.fits then predictSeqs (ws.map L.tagScores) else .error .value

/-- `PDepsModel.predict`, models.py:138-140 -/
def Layers.predictDeps (L : Layers F W H) (ts : List (List Nat)) (ws : List W) : Except PyErr (List (List Nat)) :=
  if ws ≠ [] ∧ ts.length = ws.length ∧ ts.all (codesFit 17) ∧ ws.all L.fits then predictSeqs (List.zipWith L.depScores ts ws)
  else .error .value

/-- `tf.boolean_mask(x, masks, axis=0)` of a batch of sequences: the marked states of all sequences, one after the other.
models.py:172-173 -/
def booleanMask (x : List (List H)) (masks : List (List Bool)) : List H :=
  (List.zipWith (fun seq mask => ((seq.zip mask).filter Prod.snd).map Prod.fst) x masks).flatten

/-- What the transition network accepts of one parse, models.py:157-166 -/
def Layers.rowFits (L : Layers F W H) (r : (List Nat × List Nat × W) × List Bool × List Bool) : Bool :=
  codesFit 17 r.1.1 && codesFit 25 r.1.2.1 && L.fits r.1.2.2 && r.2.1.length = paddedSentLength &&
    r.2.2.length = paddedSentLength

/-- The scores of the transition network in one step of keras, models.py:168-179: the marked states are concatenated in
pairs, which needs as many of both kinds. -/
def Layers.transStep (L : Layers F W H) (rows : List ((List Nat × List Nat × W) × List Bool × List Bool)) :
    Except PyErr (List (List F)) :=
  if rows.all L.rowFits then
    let x := rows.map fun r => L.states r.1.1 r.1.2.1 r.1.2.2
    let timestep1 := booleanMask x (rows.map fun r => r.2.1)
    let timestep2 := booleanMask x (rows.map fun r => r.2.2)
    if timestep1.length = timestep2.length then .ok (List.zipWith L.scores timestep1 timestep2) else .error .value
  else .error .value

/-- `self._model.predict` of the transition network, models.py:196-198: keras refuses an empty batch and otherwise goes
through it in steps of 32 parses, whose scores it puts one after the other. -/
def Layers.transScores (L : Layers F W H) (rows : List ((List Nat × List Nat × W) × List Bool × List Bool)) :
    Except PyErr (List (List F)) :=
  if rows = [] then .error .value
  else do
    let steps ← makeBatches rows 32
    let scores ← steps.mapM L.transStep
    return scores.flatten

/-- `Trans` from its code; comparing another code with the transitions selects none of the branches of
`register_transition`, an outcome that does not occur. transitions.py:8-11 -/
def Trans.ofCode : Nat → Except PyErr Trans
  | 0 => .ok .LEFT
  | 1 => .ok .RIGHT
  | 2 => .ok .REDUCE
  | 3 => .ok .SHIFT
  | _ => .error .value

/-- `TransModel.predict`, models.py:195-199 -/
def Layers.predictTrans (L : Layers F W H) (rows : List ((List Nat × List Nat × W) × List Bool × List Bool)) :
    Except PyErr (List Trans) := do
  let codes ← predictCodes (← L.transScores rows)
  codes.mapM Trans.ofCode

/-- The three `predict` methods, which may raise. -/
structure Predictors (W : Type) where
  tags : List W → Except PyErr (List (List Nat))
  deps : List (List Nat) → List W → Except PyErr (List (List Nat))
  trans : List ((List Nat × List Nat × W) × List Bool × List Bool) → Except PyErr (List Trans)

def Layers.predictors (L : Layers F W H) : Predictors W := ⟨L.predictTags, L.predictDeps, L.predictTrans⟩

namespace Raising

/-- `__predict_transitions`, parser.py:141-146 -/
def predictTransitions (model : List (X × List Bool × List Bool) → Except PyErr (List Trans)) (ps : List (Parse X))
    (idxs : List Nat) : Except PyErr (List (Parse X)) := do
  let rows ← idxs.mapM fun (i : Nat) => do (← index ps (i : Int)).rowOf
  let predictions ← model rows
  predictions.zipIdx.foldlM (fun ps tk => do
    let i ← index idxs (tk.2 : Int)
    let p ← index ps (i : Int)
    let p' ← p.registerTransition tk.1
    return ps.set i p') ps

/-- One round of the prediction loop, parser.py:123-126 -/
def predictRound (model : List (X × List Bool × List Bool) → Except PyErr (List Trans)) (batchSize : Int)
    (ps : List (Parse X)) : Except PyErr (List (Parse X)) := do
  let batches ← makeBatches (incomplete ps) batchSize
  batches.foldlM (predictTransitions model) ps

/-- The prediction loop, parser.py:121-126 -/
def predictLoop (model : List (X × List Bool × List Bool) → Except PyErr (List Trans)) (batchSize : Int) :
    Nat → List (Parse X) → Except PyErr (Option (List (Parse X)))
  | fuel, ps =>
    if incomplete ps = [] then .ok (some ps)
    else match fuel with
      | 0 => .ok none
      | fuel + 1 => do
        let ps' ← predictRound model batchSize ps
        predictLoop model batchSize fuel ps'

/-- Parses of one batch of vectorised sentences, parser.py:114-119 -/
def batchParses (P : Predictors W) (batch : List (Nat × W)) :
    Except PyErr (List (Parse (List Nat × List Nat × W))) := do
  let ws := batch.map Prod.snd
  let tagCodes ← P.tags ws
  let depCodes ← P.deps tagCodes ws
  batch.zipIdx.mapM fun (s : (Nat × W) × Nat) => do
    let tc ← index tagCodes (s.2 : Int)
    let dc ← index depCodes (s.2 : Int)
    Parse.new (tc, dc, s.1.2) s.1.1 tc dc

/-- `Parser.__call__`, parser.py:108-130, as `Model.parserCall` but with `predict` methods that may raise. -/
def parserCall (cfg : ParserCfg) (vectorize : S → Except PyErr (Nat × W)) (P : Predictors W)
    (sentences : List S) : Except PyErr (Option (List (List Tag) × List (Option (Tree Dep Nat)))) := do
  match ← runMultithreads cfg.rounding sentences vectorize cfg.nbProcesses cfg.sched₁ with
  | none => return none
  | some mats =>
    let batches ← makeBatches mats cfg.batchSize
    let parses ← batches.mapM (batchParses P)
    match ← predictLoop P.trans cfg.batchSize cfg.fuel parses.flatten with
    | none => return none
    | some ps =>
      match ← runMultithreads cfg.rounding ps (fun p => buildParseTree p.arcs) cfg.nbProcesses cfg.sched₂ with
      | none => return none
      | some trees => return some (ps.map Parse.tags, trees)

end Raising
end Model
