import Verif.Model.Pipeline
import Verif.Model.Lexicon
import Verif.Model.Networks
import Verif.Model.Wordset

/-! Model of the constructors of `scrappybara/pipeline` and of the parser: what is made of the data files. -/

namespace Model
open Py

/-- The files below `scrappybara/data` that a `Pipeline` reads: contents of text files, and unpickled dictionaries. -/
structure DataFiles (α : Type) where
  grams1 : Str
  grams2 : Str
  preterits : Str
  pps : Str
  plurals : Str
  comparatives : Str
  superlatives : Str
  nouns : Str
  adjs : Str
  charset : Dict Char Nat
  wordVectors : Dict Str (List α)

/-- `LogicPipeline.__init__`, logic_pipeline.py:22-41; `lower` is `str.lower`. -/
def Logic.init {α} (lower : Str → Str) (lm : LM) (f : DataFiles α) : Except PyErr Logic := do
  let t ← Tables.load f.preterits f.pps f.plurals f.comparatives f.superlatives
  let nouns := loadSet f.nouns
  let adjs := loadSet f.adjs
  return ⟨lower, t.lemmatizer lower lm adjs, nouns, t.lemmaPP⟩

/-- `WORD_VECTOR_SIZE`, config.py:16 -/
def wordVectorSize : Nat := 100

/-- `Pipeline.__init__`, pipeline.py:23-34, with `Parser.__init__`, parser.py:99-106: the logic part and `vectorize_sentence`
with the loaded character set and word vectors (parser.py:132-133). The networks are loaded apart. -/
def pipelineInit {α} [Zero α] (R : Rounding) (log : ℚ → ℚ) (lower : Str → Str) (f : DataFiles α) :
    Except PyErr (Logic × (List Str → Except PyErr (Nat × List (List Nat) × List (List α)))) := do
  let lm ← LM.load R log [(1, f.grams1), (1, f.grams2)]
  let c ← Logic.init lower lm f
  let charset ← Charset.load f.charset
  return (c, vectorizeSentence charset.get (wordsetGet lower (List.replicate wordVectorSize 0) f.wordVectors))

end Model
