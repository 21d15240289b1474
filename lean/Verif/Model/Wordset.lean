import Verif.Model.TrainingSamples
import Verif.Model.LangModel

/-! Model of `scrappybara/syntax/wordset.py`. A pickled dictionary is the dictionary; `toFloat` reads a number as
`np.float32` does (`ValueError` if it is none). -/

namespace Model
open Py

section
variable {α : Type} (toFloat : Str → Except PyErr α) (lm : LM)

/-- One turn of the loop of `save`, wordset.py:34-38 -/
def wordsetLine (d : Dict Str (List α)) (line : Str) : Except PyErr (Dict Str (List α)) := do
  let values := splitWs line
  let word ← index values 0
  let wordvec := sliceFrom values 1
  if lm.hasNgram word 1 then
    let v ← wordvec.mapM toFloat
    return d.set word v
  else return d

/-- `Wordset.save`, wordset.py:29-39: the dictionary that is saved, for the content of the file of vectors. -/
def wordsetSave (content : Str) : Except PyErr (Dict Str (List α)) := (fileLines content).foldlM (wordsetLine toFloat lm) []

end

/-- `Wordset.__len__`, wordset.py:15-16 -/
def wordsetLen {α} (d : Dict Str (List α)) : Nat := d.length + 1

end Model
