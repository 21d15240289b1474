import Verif.Model.LabelledData
import Verif.Model.TrainingSamples
import Verif.Py.Str

/-! Model of the sentence reader of `scrappybara/syntax/labelled_data.py` on tuples of names, and of the extraction of
training data. -/

namespace Model
open Py

/-- Member names of `Tag`, tags.py:5-33 -/
def Tag.name : Tag → Str
  | .PAD => c!"PAD" | .ADJ => c!"ADJ" | .PREP => c!"PREP" | .ADV => c!"ADV" | .MAT => c!"MAT" | .CONJ => c!"CONJ"
  | .DET => c!"DET" | .EXPR => c!"EXPR" | .NOUN => c!"NOUN" | .NUM => c!"NUM" | .FRAG => c!"FRAG"
  | .PRON => c!"PRON" | .PROPN => c!"PROPN" | .PUNCT => c!"PUNCT" | .VERB => c!"VERB" | .SYM => c!"SYM"
  | .THERE => c!"THERE"

/-- Member names of `Dep`, dependencies.py:5-43 -/
def Dep.name : Dep → Str
  | .PAD => c!"PAD" | .NODEP => c!"NODEP" | .ROOT => c!"ROOT" | .AND => c!"AND" | .ART => c!"ART" | .AUX => c!"AUX"
  | .CALLEE => c!"CALLEE" | .CMARK => c!"CMARK" | .CPL => c!"CPL" | .EXIST => c!"EXIST" | .FLAT => c!"FLAT"
  | .IMARK => c!"IMARK" | .INTJ => c!"INTJ" | .IOBJ => c!"IOBJ" | .IPROP => c!"IPROP" | .MARK => c!"MARK"
  | .MODAL => c!"MODAL" | .NEG => c!"NEG" | .OBJ => c!"OBJ" | .OR => c!"OR" | .ORPHAN => c!"ORPHAN"
  | .PART => c!"PART" | .PROP => c!"PROP" | .SPLIT => c!"SPLIT" | .SUBJ => c!"SUBJ"

/-- `Tag[name]`, `KeyError` for an unknown name. -/
def Tag.ofName (n : Str) : Except PyErr Tag :=
  match Tag.all.find? fun t => t.name = n with
  | some t => .ok t
  | none => .error .key

/-- `Dep[name]`, `KeyError` for an unknown name. -/
def Dep.ofName (n : Str) : Except PyErr Dep :=
  match Dep.all.find? fun d => d.name = n with
  | some d => .ok d
  | none => .error .key

/-- `transition.value`, transitions.py:8-11 -/
def Trans.code : Trans → Nat
  | .LEFT => 0 | .RIGHT => 1 | .REDUCE => 2 | .SHIFT => 3

/-- A token tuple: token, tag name, dependency name, parent index. -/
abbrev RawTuple := Str × Str × Str × Int

/-- A token with its labels. -/
abbrev WordTuple := Str × Tag × Dep × Int

/-- The first loop of `__init__`, labelled_data.py:73-77: index of the first token labelled `ROOT`. -/
def rawRoot : List RawTuple → Nat → Except PyErr (Option Nat)
  | [], _ => .ok none
  | t :: ts, i => do
    let d ← Dep.ofName t.2.2.1
    if d = .ROOT then return some i
    rawRoot ts (i + 1)

/-- A `LabelledSentence` with its tokens, labelled_data.py:65-71. -/
structure GoldSentence where
  tokens : List Str := []
  sent : LabelledSentence := {}

/-- The second loop of `__init__`, labelled_data.py:80-87, from token index `i` on. -/
def readTokens : List RawTuple → Nat → List Str → List Tag → List Dep → Tree Dep Nat → Except PyErr GoldSentence
  | [], _, tokens, tags, deps, tree => .ok ⟨tokens, ⟨tags, deps, some tree⟩⟩
  | (token, tag, dep, parent) :: ts, i, tokens, tags, deps, tree => do
    let d ← Dep.ofName dep
    let t ← Tag.ofName tag
    let tree' ← if d ≠ .ROOT ∧ d ≠ .NODEP ∧ parent > -1 then tree.registerChild d parent.toNat i else .ok tree
    readTokens ts (i + 1) (tokens ++ [token]) (tags ++ [t]) (deps ++ [d]) tree'

/-- `LabelledSentence.__init__`, labelled_data.py:65-87 -/
def GoldSentence.read (tuples : List RawTuple) : Except PyErr GoldSentence := do
  match ← rawRoot tuples 0 with
  | none => return {}
  | some r => readTokens tuples 0 [] [] [] { root := r }

/-- `sent.transitions`; the fuel suffices (C47_oracle_terminates). -/
def GoldSentence.transitions (g : GoldSentence) : Except PyErr (List (Nat × Nat × Trans)) := do
  return (← g.sent.transitions (2 * g.tokens.length)).getD []

/-- What `training_mats` holds: label ids, character codes, word vectors, masks or a transition code. -/
inductive Mat (α : Type)
  | ids (l : List Nat)
  | chars (m : List (List Nat))
  | vecs (m : List (List α))
  | mask (l : List Bool)
  | code (n : Nat)
  deriving DecidableEq, Repr

section
variable {α : Type} [Zero α] (code : Char → Nat) (vec : Str → List α)

/-- `PTagsSample(...).training_mats`, training_samples.py:90-98 -/
def ptagsMats (g : GoldSentence) : Except PyErr (List (Mat α)) := do
  let v ← vectorizeSentence code vec g.tokens
  let t ← tagIds g.sent.tags
  return [.chars v.2.1, .vecs v.2.2, .ids t]

/-- `PDepsSample(...).training_mats`, training_samples.py:101-110 -/
def pdepsMats (g : GoldSentence) : Except PyErr (List (Mat α)) := do
  let v ← vectorizeSentence code vec g.tokens
  let t ← tagIds g.sent.tags
  let d ← depIds g.sent.deps
  return [.ids t, .chars v.2.1, .vecs v.2.2, .ids d]

/-- `TransSample(...).training_mats`, training_samples.py:113-125 -/
def transMats (g : GoldSentence) (x : Nat × Nat × Trans) : Except PyErr (List (Mat α)) := do
  let s ← transSample code vec g.tokens g.sent.tags g.sent.deps x.1 x.2.1 x.2.2
  return [.ids s.1, .ids s.2.1, .chars s.2.2.1, .vecs s.2.2.2.1, .mask s.2.2.2.2.1, .mask s.2.2.2.2.2.1,
    .code (Trans.code s.2.2.2.2.2.2)]

/-- `random.shuffle` is a parameter; samples are represented by their `training_mats`. -/
abbrev Shuffle (α : Type) := List (List (Mat α)) → List (List (Mat α))

/-- `extract_ptags_training_data`, labelled_data.py:28-35 -/
def extractPtags (shuffle : Shuffle α) (lists : List (List RawTuple)) : Except PyErr (List (List (Mat α))) := do
  let sents ← lists.mapM GoldSentence.read
  let samples ← sents.mapM (ptagsMats code vec)
  return zipStar (shuffle samples)

/-- `extract_pdeps_training_data`, labelled_data.py:38-45 -/
def extractPdeps (shuffle : Shuffle α) (lists : List (List RawTuple)) : Except PyErr (List (List (Mat α))) := do
  let sents ← lists.mapM GoldSentence.read
  let samples ← sents.mapM (pdepsMats code vec)
  return zipStar (shuffle samples)

/-- The samples of one sentence, labelled_data.py:53-55 -/
def sentTransMats (g : GoldSentence) : Except PyErr (List (List (Mat α))) := do
  let ts ← g.transitions
  ts.mapM (transMats code vec g)

/-- `extract_trans_training_data`, labelled_data.py:48-59 -/
def extractTrans (shuffle : Shuffle α) (lists : List (List RawTuple)) : Except PyErr (List (List (Mat α))) := do
  let sents ← lists.mapM GoldSentence.read
  let samples ← sents.mapM (sentTransMats code vec)
  return zipStar (shuffle samples.flatten)

end
end Model
