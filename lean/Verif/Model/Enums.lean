import Verif.Py.Basic

/-! Enumerations of `scrappybara/syntax`: tags, dependencies, transitions; and the sizes of `scrappybara/config.py`. -/

namespace Model
open Py

/-- `Tag`, syntax/tags.py:5-33 -/
inductive Tag
  | PAD | ADJ | PREP | ADV | MAT | CONJ | DET | EXPR | NOUN | NUM | FRAG | PRON | PROPN | PUNCT | VERB | SYM | THERE
  deriving DecidableEq, Repr, Inhabited

/-- Members of `Tag` in code order. -/
def Tag.all : List Tag :=
  [.PAD, .ADJ, .PREP, .ADV, .MAT, .CONJ, .DET, .EXPR, .NOUN, .NUM, .FRAG, .PRON, .PROPN, .PUNCT, .VERB, .SYM, .THERE]

/-- `Tag(code)`, `ValueError` for an unknown code. -/
def Tag.ofCode (n : Nat) : Except PyErr Tag :=
  match Tag.all[n]? with
  | some t => .ok t
  | none => .error .value

/-- `tag.value` -/
def Tag.code (t : Tag) : Nat := Tag.all.idxOf t

/-- `NOUN_TAGS`, syntax/tags.py:38 -/
def nounTags : List Tag := [.NOUN, .PROPN, .PRON, .SYM, .NUM]
/-- `PROP_TAGS`, syntax/tags.py:39 -/
def propTags : List Tag := nounTags ++ [.ADJ]

/-- `Dep`, syntax/dependencies.py:5-43 -/
inductive Dep
  | PAD | NODEP | ROOT | AND | ART | AUX | CALLEE | CMARK | CPL | EXIST | FLAT | IMARK | INTJ | IOBJ | IPROP | MARK
  | MODAL | NEG | OBJ | OR | ORPHAN | PART | PROP | SPLIT | SUBJ
  deriving DecidableEq, Repr, Inhabited

/-- Members of `Dep` in code order. -/
def Dep.all : List Dep :=
  [.PAD, .NODEP, .ROOT, .AND, .ART, .AUX, .CALLEE, .CMARK, .CPL, .EXIST, .FLAT, .IMARK, .INTJ, .IOBJ, .IPROP, .MARK,
   .MODAL, .NEG, .OBJ, .OR, .ORPHAN, .PART, .PROP, .SPLIT, .SUBJ]

/-- `Dep(code)`, `ValueError` for an unknown code. -/
def Dep.ofCode (n : Nat) : Except PyErr Dep :=
  match Dep.all[n]? with
  | some t => .ok t
  | none => .error .value

/-- `dep.value` -/
def Dep.code (t : Dep) : Nat := Dep.all.idxOf t

/-- `MARKER_DEPS`, dependencies.py:49 -/
def markerDeps : List Dep := [.MARK, .CMARK, .IMARK]
/-- `PROP_DEPS`, dependencies.py:50 -/
def propDeps : List Dep := [.PROP, .IPROP]
/-- `VERB_ARG_DEPS`, dependencies.py:53 -/
def verbArgDeps : List Dep := [.EXIST, .SUBJ, .OBJ, .IOBJ, .PROP, .IPROP]
/-- `VERB_ARG_2_PLUS_DEPS`, dependencies.py:54 -/
def verbArg2PlusDeps : List Dep := [.EXIST, .OBJ, .IOBJ, .PROP, .IPROP]
/-- `VERB_CHILD_DEPS`, dependencies.py:55 -/
def verbChildDeps : List Dep := verbArgDeps ++ [.AUX, .MODAL]
/-- `FUNCTIONAL_DEPS`, dependencies.py:58 -/
def functionalDeps : List Dep := [.ART, .AUX, .CMARK, .NEG, .INTJ, .MARK, .IMARK, .PART, .MODAL]

/-- `Trans`, syntax/transitions.py:5-11 -/
inductive Trans
  | LEFT | RIGHT | REDUCE | SHIFT
  deriving DecidableEq, Repr, Inhabited

/-- `MAX_SENT_LENGTH`, config.py:15 -/
def maxSentLength : Nat := 50
/-- `PADDED_SENT_LENGTH`, config.py:18 -/
def paddedSentLength : Nat := maxSentLength + 2
/-- `MAX_WORD_LENGTH`, config.py:14 -/
def maxWordLength : Nat := 20
/-- `PADDED_WORD_LENGTH`, config.py:19 -/
def paddedWordLength : Nat := maxWordLength + 2

end Model
