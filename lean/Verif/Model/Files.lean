import Verif.Model.LangModel

/-! Model of the loaders of `scrappybara/utils/files.py`. A file is the text it decodes to. -/

namespace Model
open Py

/-- `load_set_from_txt_file`, files.py:38-41. A set is the list of its elements, possibly repeated. -/
def loadSet (content : Str) : List Str := (fileLines content).map strip

/-- `key, value` unpacked from a list, files.py:47 -/
def unpackPair : List Str → Except PyErr (Str × Str)
  | [key, value] => .ok (key, value)
  | _ => .error .value

/-- `load_dict_from_txt_file`, files.py:44-47 -/
def loadDict (content : Str) : Except PyErr (Dict Str Str) := do
  let rows := (fileLines content).map fun line => splitOn (strip line) '\t'
  let pairs ← rows.mapM unpackPair
  return Dict.ofPairs pairs

end Model
