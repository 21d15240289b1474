import Verif.Model.Pipeline
import Verif.Model.TrainingData

/-! Model of the testing entry points of `scrappybara/pipeline`. -/

namespace Model
open Py

/-- `test_sample`, logic_pipeline.py:74-77, with the default number of processes; `none` = the schedule is incomplete.
When processing raises in the thread, there are no results to unzip and `stuples[0]` is an `IndexError`. -/
def testSample (c : Logic) (R : Rounding) (nbProcesses : Int) (sched : List Move) (tokenTuples : List RawTuple) :
    Except PyErr (Option (List STuple)) := do
  let g ← GoldSentence.read tokenTuples
  match ← c.processAll R nbProcesses sched [g.tokens] [g.sent.tags] [g.sent.tree] true with
  | none => return none
  | some (_, stuples) => return some (← index stuples 0)

section
variable {W : Type} (cfg : PipelineCfg) (vectorize : List Str → Except PyErr (Nat × W)) (nets : Networks W) (c : Logic)

/-- `__process_tokens`, pipeline.py:79-83, with all it returns: tags, trees, nodes and tuples. -/
def processTokensAll (tokenLists : List (List Str)) (chunkCommonNouns : Bool) :
    Except PyErr (Option (List (List Tag) × List (Option (Tree Dep Nat)) × List (Heap × Dict Nat Ref) ×
      List (List STuple))) := do
  match ← parserCall cfg.parser vectorize nets tokenLists with
  | none => return none
  | some (tags, trees) =>
    match ← c.processAll cfg.rounding cfg.nbCores cfg.schedLogic tokenLists tags trees chunkCommonNouns with
    | none => return none
    | some (nodes, stuples) => return some (tags, trees, nodes, stuples)

/-- What the testing functions say of a sentence. -/
structure Tested where
  tokens : List Str
  tags : List Tag
  tree : Option (Tree Dep Nat)
  nodes : Heap × Dict Nat Ref

/-- `_test_parse` on the sentences `tokens`, pipeline.py:94-95 -/
def testParseTokens (tokens : List (List Str)) : Except PyErr (Option Tested) := do
  match ← processTokensAll cfg vectorize nets c tokens true with
  | none => return none
  | some (tags, trees, nodes, _) =>
    return some ⟨← index tokens 0, ← index tags 0, ← index trees 0, ← index nodes 0⟩

/-- `_test_parse`, pipeline.py:88-95: the argument is a list of tokens or a string. Sentences are not resplit. -/
def testParse (sentencizer : Str → Except PyErr (List (List Str))) :
    List Str ⊕ Str → Except PyErr (Option Tested)
  | .inl tokens => testParseTokens cfg vectorize nets c [tokens]
  | .inr text => do
    let tokens ← sentencizer text
    testParseTokens cfg vectorize nets c tokens

/-- `_test_process`, pipeline.py:97-102: the tuples are extracted again from the nodes of every sentence. -/
def testProcess (sentencizer : Str → Except PyErr (List (List Str))) (text : Str) :
    Except PyErr (Option (Tested × List STuple)) := do
  let tokenLists ← sentencizer text
  match ← processTokensAll cfg vectorize nets c tokenLists true with
  | none => return none
  | some (tags, trees, nodes, _) =>
    let stuples ← nodes.mapM fun n => extractTuples c.pp n.1 n.2.values
    return some (⟨← index tokenLists 0, ← index tags 0, ← index trees 0, ← index nodes 0⟩, ← index stuples 0)

end
end Model
