import Verif.Model.Parser
import Verif.Model.TrainingData
import Mathlib.Order.Defs.LinearOrder

/-! Model of the `predict` methods of `scrappybara/syntax/models.py`: from the scores of the networks to codes. The scores
are an arbitrary function of the inputs; they are compared, nothing else. -/

namespace Model
open Py

variable {F : Type} [LinearOrder F] {W : Type}

/-- The running best of `np.argmax`: index of the next score, best index, best score. -/
def argmaxFrom : Nat → Nat → F → List F → Nat
  | _, best, _, [] => best
  | i, best, m, x :: xs => if m < x then argmaxFrom (i + 1) i x xs else argmaxFrom (i + 1) best m xs

/-- `np.argmax` of a vector; `ValueError` if it is empty. -/
def argmax : List F → Except PyErr Nat
  | [] => .error .value
  | x :: xs => .ok (argmaxFrom 1 0 x xs)

/-- `[[np.argmax(probas) for probas in seq] for seq in seqs]`, models.py:95 and 139 -/
def predictSeqs (seqs : List (List (List F))) : Except PyErr (List (List Nat)) := seqs.mapM fun seq => seq.mapM argmax

/-- `[np.argmax(probas) for probas in batch_probas]`, models.py:199 -/
def predictCodes (probas : List (List F)) : Except PyErr (List Nat) := probas.mapM argmax

/-- The scores returned by `self._model.predict` of `PTagsModel`, `PDepsModel` and `TransModel`. -/
structure ScoreNets (F W : Type) where
  tags : List W → List (List (List F))
  deps : List (List Nat) → List W → List (List (List F))
  trans : List ((List Nat × List Nat × W) × List Bool × List Bool) → List (List F)

end Model
