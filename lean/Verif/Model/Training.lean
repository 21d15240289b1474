import Verif.Py.Basic
import Mathlib.Data.Rat.Defs
import Mathlib.Algebra.Order.Ring.Rat

/-! Model of `_SentenceModel._learn`, scrappybara/syntax/models.py:45-55, with the parts of Keras it relies on: the loop of
`Model.fit` over the epochs and the callback `EarlyStopping`.  What an epoch does to the weights and the accuracies it
gives are arbitrary; accuracies are rationals. -/

namespace Model
open Py

/-- What Keras computes.  `during e w` is the accuracy logged while epoch `e` starts from the weights `w`; `heldOut w` is
the accuracy of the weights `w` on the part held out; `restoresAtEnd` tells the versions of Keras (3) that set the best
weights at the end of every training from those (2) that do it only when they stop early. -/
structure Trainer (W : Type) where
  epoch : Nat → W → W
  during : Nat → W → ℚ
  heldOut : W → ℚ
  restoresAtEnd : Bool

/-- The arguments of `EarlyStopping`; `mode` is `max` or `min`, and the other arguments have their default values. -/
structure Stopper where
  monitor : Str
  modeMax : Bool
  patience : Nat
  restoreBest : Bool

/-- The state of a training: the weights of the network, those of `EarlyStopping` (the best value is infinite before the
first epoch), and the logs of the epochs. -/
structure TrainState (W : Type) where
  weights : W
  best : Option ℚ
  wait : Nat
  bestWeights : Option W
  stop : Bool
  history : List (Dict Str ℚ)

variable {W : Type}

/-- The logs of an epoch: the held out accuracy is there if something is held out. -/
def Trainer.logs (t : Trainer W) (split : ℚ) (e : Nat) (before after : W) : Dict Str ℚ :=
  (c!"accuracy", t.during e before) :: if split = 0 then [] else [(c!"val_accuracy", t.heldOut after)]

/-- `monitor_op(current - min_delta, self.best)` of `EarlyStopping`, with `min_delta=0` -/
def Stopper.improves (s : Stopper) (current : ℚ) : Option ℚ → Bool
  | none => true
  | some best => if s.modeMax then decide (best < current) else decide (current < best)

/-- `EarlyStopping.on_epoch_end` -/
def Stopper.epochEnd (s : Stopper) (logs : Dict Str ℚ) (st : TrainState W) : TrainState W :=
  match Dict.get? logs s.monitor with
  | none => st
  | some current =>
    if s.improves current st.best then
      { st with
        best := some current
        wait := 0
        bestWeights := if s.restoreBest then some st.weights else st.bestWeights }
    else
      let st := { st with wait := st.wait + 1 }
      if s.patience ≤ st.wait then
        { st with
          stop := true
          weights := if s.restoreBest then st.bestWeights.getD st.weights else st.weights }
      else st

/-- One epoch of `fit`, with its callbacks `EarlyStopping` and `History`. -/
def Trainer.step (t : Trainer W) (s : Stopper) (split : ℚ) (e : Nat) (st : TrainState W) : TrainState W :=
  let after := t.epoch e st.weights
  let logs := t.logs split e st.weights after
  s.epochEnd logs { st with
    weights := after
    history := st.history ++ [logs] }

/-- The epochs of `fit`: the number of those to come, and the next one. -/
def Trainer.epochs (t : Trainer W) (s : Stopper) (split : ℚ) : Nat → Nat → TrainState W → TrainState W
  | 0, _, st => st
  | n + 1, e, st =>
    let st := t.step s split e st
    if st.stop then st else t.epochs s split n (e + 1) st

/-- `fit` -/
def Trainer.fit (t : Trainer W) (s : Stopper) (split : ℚ) (epochs : Nat) (w : W) : TrainState W :=
  let st := t.epochs s split epochs 0 ⟨w, none, 0, none, false, []⟩
  if t.restoresAtEnd && s.restoreBest then { st with weights := st.bestWeights.getD st.weights } else st

/-- `max` of a list of numbers; `ValueError` if it is empty. -/
def maxOf : List ℚ → Except PyErr ℚ
  | [] => .error .value
  | x :: xs => .ok (xs.foldl (fun m x => if m < x then x else m) x)

/-- `history.history[metric]`: the values of a metric, epoch after epoch; `KeyError` if no epoch has logged it. -/
def metricValues (history : List (Dict Str ℚ)) (metric : Str) : Except PyErr (List ℚ) :=
  match history.filterMap fun logs => Dict.get? logs metric with
  | [] => .error .key
  | vs => .ok vs

/-- `_learn`, models.py:45-55: the value returned and the weights left in the network. -/
def Trainer.learn (t : Trainer W) (patience epochs : Nat) (split : ℚ) (w : W) : Except PyErr (ℚ × W) := do
  let metric := if split ≠ 0 then c!"val_accuracy" else c!"accuracy"
  let st := t.fit ⟨metric, true, patience, true⟩ split epochs w
  let values ← metricValues st.history metric
  let m ← maxOf values
  return (m * 100, st.weights)

end Model
