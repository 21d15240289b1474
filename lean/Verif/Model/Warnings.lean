import Verif.Model.LabelledData
import Verif.Py.Json

/-! Model of the warnings of `LabelledSentence` and of `is_leaf`, `scrappybara/syntax/labelled_data.py`. -/

namespace Model
open Py

/-- The dictionary `__warnings`: token index => comments with the tokens in focus, labelled_data.py:67. The lists are
values here: python keeps a reference to the list of the caller. -/
abbrev Warnings := Dict Int (List (Str × List Int))

/-- `register_warning`, labelled_data.py:125-127 -/
def Warnings.register (w : Warnings) (token : Int) (comment : Str) (focus : List Int) : Warnings :=
  appendToDictList w token (comment, focus)

/-- The dictionary `{'comment': comment, 'focusIdxs': focus_idxs}`, labelled_data.py:126 -/
def warningValue (x : Str × List Int) : Json :=
  .obj [(c!"comment", .str x.1), (c!"focusIdxs", .arr (x.2.map .int))]

/-- `warnings_json`, labelled_data.py:129-134; integer keys are written as strings. -/
def Warnings.json (w : Warnings) : Option Str :=
  if w.isEmpty then none
  else some (Json.dumps (.obj (w.map fun x => (Json.intRepr x.1, .arr (x.2.map warningValue)))))

/-- `is_leaf`, labelled_data.py:145-146 -/
def LabelledSentence.isLeaf (s : LabelledSentence) (idx : Nat) : Except PyErr Bool := do
  let tree ← s.getTree
  return (tree.children idx).isEmpty

end Model
