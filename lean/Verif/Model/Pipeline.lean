import Verif.Model.Parser
import Verif.Model.Nodifier
import Verif.Model.Chunker
import Verif.Model.ArgFinder
import Verif.Model.Semantics
import Verif.Model.Normalization
import Verif.Model.Preprocessing
import Verif.Model.TrainingSamples

/-! Model of `scrappybara/pipeline`: `logic_pipeline.py` and `pipeline.py`. -/

namespace Model
open Py

/-! ### logic_pipeline.py -/

/-- What `LogicPipeline.__init__` (logic_pipeline.py:22-41) loads: the lemmatizer holds the language model, the
adjectives and the irregular forms. `reversedPps` is lemma to past participle. -/
structure Logic where
  lower : Str → Str
  lemmatizer : Lemmatizer
  nouns : List Str
  reversedPps : Dict Str Str

/-- The past participle used by the tuple extractor, semantic_tuple_extractor.py:41; the tokens around are
`Tokenizer(None) = ['']`. `pastParticiple` never raises (`Props.C39_regular`). -/
def Logic.pp (c : Logic) (lem : Str) : Str :=
  match pastParticiple c.lemmatizer.lm [[]] c.reversedPps lem with
  | .ok s => s
  | .error _ => []

/-- One turn of the first loop over nodes, logic_pipeline.py:59-60 -/
def Logic.normalizeNode (c : Logic) (h : Heap) (r : Ref) : Except PyErr Heap := do
  let s ← standardize c.lemmatizer.lm (h.node r).standard
  let ls ← c.lemmatizer.call s (h.node r).tag
  return h.upd r fun n => { n with standard := s, lem := ls.1, suffix := ls.2 }

/-- One turn of the loop that canonicalizes, logic_pipeline.py:66 -/
def Logic.canonicalizeNode (c : Logic) (h : Heap) (r : Ref) : Except PyErr Heap := do
  let n ← canonicalize c.lemmatizer.call (h.node r)
  return h.upd r fun _ => n

/-- `__logic_process`, logic_pipeline.py:54-69. Without a tree there are no nodes (see `nodify`) and the tree is not
used; with nodes and no tree python would raise `AttributeError`. -/
def Logic.process (c : Logic) (pack : List Str × List Tag × Option (Tree Dep Nat) × Bool) :
    Except PyErr ((Heap × Dict Nat Ref) × List STuple) := do
  let (tokens, tags, idxTree, chunkCommonNouns) := pack
  let (h₀, dict, nodeTree) ← nodify c.lower tokens tags idxTree
  let nodes := dict.values
  match nodeTree with
  | none =>
    if nodes.isEmpty then
      let ts ← extractTuples c.pp h₀ nodes
      return ((h₀, dict), ts)
    else throw .attribute
  | some t =>
    let h₁ ← nodes.foldlM c.normalizeNode h₀
    let h₂ := fixAll c.lemmatizer.adjs c.nouns t h₁ nodes
    let h₃ ← if chunkCommonNouns then chunker h₂ t nodes else .ok h₂
    let h₄ ← nodes.foldlM c.canonicalizeNode h₃
    let h₅ ← findArgs t nodes h₄
    let ts ← extractTuples c.pp h₅ nodes
    return ((h₅, dict), ts)

/-- `zip(token_lists, tags, idx_trees, [chunk_common_nouns] * len(token_lists))`, logic_pipeline.py:46 -/
def sentPacks (tokenLists : List (List Str)) (tags : List (List Tag)) (idxTrees : List (Option (Tree Dep Nat)))
    (chunkCommonNouns : Bool) : List (List Str × List Tag × Option (Tree Dep Nat) × Bool) :=
  tokenLists.zip (tags.zip (idxTrees.zip (List.replicate tokenLists.length chunkCommonNouns)))

/-- `_logic_process`, logic_pipeline.py:43-52; `none` = the schedule is incomplete. Unzipping the results. -/
def Logic.processAll (c : Logic) (R : Rounding) (nbProcesses : Int) (sched : List Move) (tokenLists : List (List Str))
    (tags : List (List Tag)) (idxTrees : List (Option (Tree Dep Nat))) (chunkCommonNouns : Bool) :
    Except PyErr (Option (List (Heap × Dict Nat Ref) × List (List STuple))) := do
  match ← runMultithreads R (sentPacks tokenLists tags idxTrees chunkCommonNouns) c.process nbProcesses sched with
  | none => return none
  | some results => return some results.unzip

/-! ### pipeline.py -/

/-- `__splitters`, pipeline.py:21 -/
def splitters : List Str := [c!":", c!"\"", c!";", c!"(", c!")", c!"[", c!"]", c!"{", c!"}", c!"-"]

/-- `itertools.groupby(tokens, key)` for a boolean key: maximal runs with the same key. -/
def groupBy {α} (key : α → Bool) : List α → List (Bool × List α)
  | [] => []
  | x :: xs =>
    match groupBy key xs with
    | [] => [(key x, [x])]
    | (b, g) :: rest => if key x = b then (b, x :: g) :: rest else (key x, [x]) :: (b, g) :: rest

/-- One turn of the loop of `__split_tokens`, pipeline.py:71-75 -/
def splitLong (tokens : List Str) : List (List Str) :=
  if tokens.length > maxSentLength then
    ((groupBy (fun t => decide (t ∈ splitters)) tokens).filter fun g => !g.1).map Prod.snd
  else [tokens]

/-- `__split_tokens`, pipeline.py:67-77 -/
def splitTokens (tokenLists : List (List Str)) : List (List Str) :=
  (tokenLists.foldl (fun acc tokens => acc ++ splitLong tokens) []).filter fun tokens =>
    decide (tokens.length ≤ maxSentLength)

/-- `sent_ranges`, pipeline.py:42-47 -/
def sentRanges : Nat → List (List (List Str)) → List (Nat × Nat)
  | _, [] => []
  | total, g :: gs => (total, total + g.length) :: sentRanges (total + g.length) gs

/-- Regrouping by documents, pipeline.py:57-64 -/
def regroup (ranges : List (Nat × Nat)) (stupleLists : List (List STuple)) : List Document :=
  ranges.map fun r => ⟨(slice stupleLists (r.1 : Int) (r.2 : Int)).map Sentence.mk⟩

/-- A configured `Pipeline` (pipeline.py:23-34), with the schedules of its thread pools and a bound on the number of
prediction rounds. -/
structure PipelineCfg where
  rounding : Rounding
  nbCores : Int
  batchSize : Int
  schedSentencize : List Move
  schedSplit : List Move
  schedVectorize : List Move
  schedTrees : List Move
  fuel : Nat
  schedLogic : List Move

/-- The parser of the pipeline, pipeline.py:31 -/
def PipelineCfg.parser (cfg : PipelineCfg) : ParserCfg :=
  ⟨cfg.rounding, cfg.nbCores, cfg.batchSize, cfg.schedVectorize, cfg.schedTrees, cfg.fuel⟩

/-- `__process_tokens`, pipeline.py:79-83 -/
def processTokens {W} (cfg : PipelineCfg) (vectorize : List Str → Except PyErr (Nat × W)) (nets : Networks W)
    (c : Logic) (tokenLists : List (List Str)) (chunkCommonNouns : Bool) :
    Except PyErr (Option (List (Heap × Dict Nat Ref) × List (List STuple))) := do
  match ← parserCall cfg.parser vectorize nets tokenLists with
  | none => return none
  | some (tags, trees) => c.processAll cfg.rounding cfg.nbCores cfg.schedLogic tokenLists tags trees chunkCommonNouns

/-- `Pipeline.__call__`, pipeline.py:36-65; `none` = some schedule is incomplete or the fuel ran out. -/
def pipelineCall {W} (cfg : PipelineCfg) (sentencizer : Str → Except PyErr (List (List Str)))
    (vectorize : List Str → Except PyErr (Nat × W)) (nets : Networks W) (c : Logic) (texts : List Str)
    (chunkCommonNouns : Bool) : Except PyErr (Option (List Document)) := do
  match ← runMultithreads cfg.rounding texts sentencizer cfg.nbCores cfg.schedSentencize with
  | none => return none
  | some sentencized =>
    match ← runMultithreads cfg.rounding sentencized (fun t => .ok (splitTokens t)) cfg.nbCores cfg.schedSplit with
    | none => return none
    | some groups =>
      match ← processTokens cfg vectorize nets c groups.flatten chunkCommonNouns with
      | none => return none
      | some (_, stupleLists) => return some (regroup (sentRanges 0 groups) stupleLists)

end Model
