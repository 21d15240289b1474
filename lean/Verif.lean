import Verif.Lemmas.Aiming
import Verif.Lemmas.ArgFinder
import Verif.Lemmas.ArgOrder
import Verif.Lemmas.Blocks
import Verif.Lemmas.Builder
import Verif.Lemmas.Calling
import Verif.Lemmas.ChunkSentences
import Verif.Lemmas.ChunkTokens
import Verif.Lemmas.Chunker
import Verif.Lemmas.Chunking
import Verif.Lemmas.Clauses
import Verif.Lemmas.Conserve
import Verif.Lemmas.Copies
import Verif.Lemmas.Corpora
import Verif.Lemmas.Described
import Verif.Lemmas.English
import Verif.Lemmas.Exact
import Verif.Lemmas.ExactArgs
import Verif.Lemmas.ExactSaid
import Verif.Lemmas.Exactly
import Verif.Lemmas.Existing
import Verif.Lemmas.Files
import Verif.Lemmas.Flats
import Verif.Lemmas.Frequency
import Verif.Lemmas.FrequencyQuery
import Verif.Lemmas.FunctionWords
import Verif.Lemmas.Giving
import Verif.Lemmas.GivingList
import Verif.Lemmas.GoldParse
import Verif.Lemmas.Grounds
import Verif.Lemmas.Inflection
import Verif.Lemmas.Intending
import Verif.Lemmas.Irregular
import Verif.Lemmas.Iso
import Verif.Lemmas.Json
import Verif.Lemmas.LangModel
import Verif.Lemmas.Layers
import Verif.Lemmas.Lexicon
import Verif.Lemmas.LmFile
import Verif.Lemmas.LmQuery
import Verif.Lemmas.Mkn
import Verif.Lemmas.MknBounds
import Verif.Lemmas.MknCalc
import Verif.Lemmas.ModelLines
import Verif.Lemmas.Multithreading
import Verif.Lemmas.Mutables
import Verif.Lemmas.Ngrams
import Verif.Lemmas.NodeOrder
import Verif.Lemmas.Nodifier
import Verif.Lemmas.Normalization
import Verif.Lemmas.Nouns
import Verif.Lemmas.Oracle
import Verif.Lemmas.Paragraphs
import Verif.Lemmas.Parentheses
import Verif.Lemmas.ParseOrder
import Verif.Lemmas.Parser
import Verif.Lemmas.ParserCall
import Verif.Lemmas.Parts
import Verif.Lemmas.Passive
import Verif.Lemmas.Pilcrow
import Verif.Lemmas.Pipeline
import Verif.Lemmas.PlainWords
import Verif.Lemmas.Preprocessing
import Verif.Lemmas.PrintedCalm
import Verif.Lemmas.PrintedDots
import Verif.Lemmas.PrintedNoSplit
import Verif.Lemmas.PrintedRules
import Verif.Lemmas.PrintedSegment
import Verif.Lemmas.PrintedShape
import Verif.Lemmas.PrintedStages
import Verif.Lemmas.PrintedText
import Verif.Lemmas.PrintedTokens
import Verif.Lemmas.Prose
import Verif.Lemmas.Provenance
import Verif.Lemmas.Quotations
import Verif.Lemmas.Reach
import Verif.Lemmas.Regex
import Verif.Lemmas.Retoken
import Verif.Lemmas.Runs
import Verif.Lemmas.SameProcess
import Verif.Lemmas.SameTree
import Verif.Lemmas.Samples
import Verif.Lemmas.Segment
import Verif.Lemmas.Segments
import Verif.Lemmas.Semantics
import Verif.Lemmas.SentCall
import Verif.Lemmas.SentChars
import Verif.Lemmas.SentLines
import Verif.Lemmas.SentOrdinary
import Verif.Lemmas.SentPlain
import Verif.Lemmas.Sentencizer
import Verif.Lemmas.Shape
import Verif.Lemmas.Simple
import Verif.Lemmas.SimpleList
import Verif.Lemmas.Smoothers
import Verif.Lemmas.Sort
import Verif.Lemmas.Spellings
import Verif.Lemmas.Stages
import Verif.Lemmas.StagesProtect
import Verif.Lemmas.StagesRestore
import Verif.Lemmas.StagesSplit
import Verif.Lemmas.Standardizer
import Verif.Lemmas.Statements
import Verif.Lemmas.SubWords
import Verif.Lemmas.TestHelpers
import Verif.Lemmas.Text
import Verif.Lemmas.Tidy
import Verif.Lemmas.TokenWords
import Verif.Lemmas.Tracks
import Verif.Lemmas.Training
import Verif.Lemmas.TrainingData
import Verif.Lemmas.Tree
import Verif.Lemmas.TupleOrder
import Verif.Lemmas.Units
import Verif.Lemmas.Voice
import Verif.Lemmas.Wanting
import Verif.Lemmas.Wordings
import Verif.Lemmas.Words
import Verif.Model.ArgFinder
import Verif.Model.Assembly
import Verif.Model.Builder
import Verif.Model.Chunker
import Verif.Model.Enums
import Verif.Model.Files
import Verif.Model.LabelledData
import Verif.Model.LangModel
import Verif.Model.Layers
import Verif.Model.Lexicon
import Verif.Model.Multithreading
import Verif.Model.Mutables
import Verif.Model.Networks
import Verif.Model.Ngrams
import Verif.Model.Node
import Verif.Model.Nodifier
import Verif.Model.Normalization
import Verif.Model.Parser
import Verif.Model.Pipeline
import Verif.Model.Preprocessing
import Verif.Model.Semantics
import Verif.Model.Smoothers
import Verif.Model.Testing
import Verif.Model.Text
import Verif.Model.Training
import Verif.Model.TrainingData
import Verif.Model.TrainingSamples
import Verif.Model.Tree
import Verif.Model.Warnings
import Verif.Model.Wordset
import Verif.Props.Aiming
import Verif.Props.ArgFinder
import Verif.Props.ArgOrder
import Verif.Props.Assembly
import Verif.Props.Builder
import Verif.Props.Calling
import Verif.Props.CallingList
import Verif.Props.Chunker
import Verif.Props.Chunking
import Verif.Props.Clauses
import Verif.Props.Conservation
import Verif.Props.Copies
import Verif.Props.CopulaList
import Verif.Props.Corpora
import Verif.Props.Described
import Verif.Props.English
import Verif.Props.Exactly
import Verif.Props.Existing
import Verif.Props.Files
import Verif.Props.FlatNodes
import Verif.Props.Flats
import Verif.Props.Frequency
import Verif.Props.FunctionWords
import Verif.Props.Giving
import Verif.Props.GivingList
import Verif.Props.Grounds
import Verif.Props.Inflection
import Verif.Props.Intending
import Verif.Props.LabelledData
import Verif.Props.LangModel
import Verif.Props.Layers
import Verif.Props.Lemmatizer
import Verif.Props.Letters
import Verif.Props.Lexicon
import Verif.Props.LineDocs
import Verif.Props.Lines
import Verif.Props.Mkn
import Verif.Props.MknMass
import Verif.Props.Mle
import Verif.Props.ModelLines
import Verif.Props.Moved
import Verif.Props.Mutables
import Verif.Props.Networks
import Verif.Props.Ngrams
import Verif.Props.NodeOrder
import Verif.Props.Nodes
import Verif.Props.Normalization
import Verif.Props.Nouns
import Verif.Props.Paragraphs
import Verif.Props.Parser
import Verif.Props.Passive
import Verif.Props.Pipeline
import Verif.Props.Predicted
import Verif.Props.Preprocessing
import Verif.Props.Printed
import Verif.Props.Provenance
import Verif.Props.Retoken
import Verif.Props.Runs
import Verif.Props.SameTuples
import Verif.Props.Samples
import Verif.Props.Semantics
import Verif.Props.Sentences
import Verif.Props.Simple
import Verif.Props.SimpleList
import Verif.Props.Standard
import Verif.Props.Statements
import Verif.Props.TestHelpers
import Verif.Props.Text
import Verif.Props.Training
import Verif.Props.TrainingData
import Verif.Props.Tree
import Verif.Props.TupleOrder
import Verif.Props.Voice
import Verif.Props.Wanting
import Verif.Props.Warnings
import Verif.Props.Wordings
import Verif.Props.Wordset
import Verif.Py.Basic
import Verif.Py.Json
import Verif.Py.Regex
import Verif.Py.Sort
import Verif.Py.Str
import Verif.Spec.Aiming
import Verif.Spec.Alike
import Verif.Spec.ArgOrder
import Verif.Spec.Builder
import Verif.Spec.Calling
import Verif.Spec.Chunking
import Verif.Spec.Clauses
import Verif.Spec.Corpora
import Verif.Spec.Described
import Verif.Spec.English
import Verif.Spec.Exactly
import Verif.Spec.Existing
import Verif.Spec.Files
import Verif.Spec.Flats
import Verif.Spec.Frequency
import Verif.Spec.FunctionWords
import Verif.Spec.Giving
import Verif.Spec.Grounds
import Verif.Spec.Inflection
import Verif.Spec.Intending
import Verif.Spec.Json
import Verif.Spec.LangModel
import Verif.Spec.Ngrams
import Verif.Spec.NodeOrder
import Verif.Spec.Nodes
import Verif.Spec.Normalization
import Verif.Spec.Nouns
import Verif.Spec.Paragraphs
import Verif.Spec.Parser
import Verif.Spec.Passive
import Verif.Spec.Pipeline
import Verif.Spec.Preprocessing
import Verif.Spec.Printed
import Verif.Spec.Provenance
import Verif.Spec.Runs
import Verif.Spec.SameArcs
import Verif.Spec.Samples
import Verif.Spec.Semantics
import Verif.Spec.Simple
import Verif.Spec.SimpleList
import Verif.Spec.Smoothers
import Verif.Spec.Standard
import Verif.Spec.Statements
import Verif.Spec.Training
import Verif.Spec.Tree
import Verif.Spec.TupleOrder
import Verif.Spec.Utils
import Verif.Spec.Voice
import Verif.Spec.Wanting
import Verif.Spec.Wordings
import Verif.Tests.LangModel
import Verif.Tests.LogicPipeline
import Verif.Tests.Normalization
import Verif.Tests.Parsing
import Verif.Tests.Tables
import Verif.Tests.Tokenizer1
import Verif.Tests.Tokenizer2
import Verif.Tests.Tokenizer3
import Verif.Tests.Tokenizer4
