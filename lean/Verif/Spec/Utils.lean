import Verif.Py.Basic

/-! Specifications for the utility functions, independent of the model. -/

namespace Spec
open Py

/-- What a worker contributes when `process` may raise: all its results, or nothing at all. -/
def sliceResults {α β} (process : α → Except PyErr β) (l : List α) : List β :=
  match l.mapM process with
  | .ok ys => ys
  | .error _ => []

end Spec
