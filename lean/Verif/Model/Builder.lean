import Verif.Model.Smoothers
import Verif.Model.LangModel

/-! Model of `scrappybara/langmodel/language_model_builder.py`: the constructor and the whole of `__call__`. -/

namespace Model
open Py

/-- The exceptions of the constructor: `ArgumentValueError` and `ModifiedKneserNeyMinOrderError`,
language_model_builder.py:13-16 -/
inductive BuilderErr
  | argumentValue
  | minOrder
  deriving DecidableEq, Repr

/-- The smoother classes, language_model_builder.py:30-33 -/
inductive SmootherClass
  | mkn
  | mle
  deriving DecidableEq, Repr

/-- A `LanguageModelBuilder`, language_model_builder.py:27-34. A negative order or number of processes behaves like 0:
the ranges over them are empty, and `Pool` refuses both. -/
structure Builder where
  maxOrder : Nat
  smoother : SmootherClass
  nbProcesses : Nat
  deriving DecidableEq, Repr

/-- `__smoothing_methods`, language_model_builder.py:20 -/
def smoothingMethods : List Str := [c!"modified_kneser_ney", c!"maximum_likelihood_estimation"]

/-- `LanguageModelBuilder.__init__`, language_model_builder.py:22-34 -/
def Builder.new (maxOrder : Int) (smoothing : Str) (nbProcesses : Int) : Except BuilderErr Builder :=
  if smoothing ∉ smoothingMethods then .error .argumentValue
  else if smoothing = c!"modified_kneser_ney" ∧ maxOrder < 2 then .error .minOrder
  else .ok ⟨maxOrder.toNat, if smoothing = c!"modified_kneser_ney" then .mkn else .mle, nbProcesses.toNat⟩

/-- `self.__smoother(store.ngrams, self.__max_order, self.__nb_processes)()`, language_model_builder.py:61 -/
def Builder.smooth (b : Builder) (R : Rounding) (ngrams : List Ngram) (sched : Nat → List Move) :
    Except PyErr (Option (Dict Nat (List Ngram))) :=
  match b.smoother with
  | .mkn => mknSmooth R ngrams b.maxOrder b.nbProcesses sched
  | .mle => mleSmooth R ngrams b.maxOrder b.nbProcesses sched

/-- What is written of an n-gram. Comparing the probability `None` is a `TypeError`; `inf` and `nan`, which do not arise
(C21, C25), would be written out by python and are an error here. language_model_builder.py:71-73 -/
def Ngram.entry (g : Ngram) : Except PyErr Entry :=
  match g.proba with
  | none => .error .type
  | some none => .error .value
  | some (some p) => .ok ⟨g.text, g.count, p⟩

/-- The file of an order, language_model_builder.py:65 and 68-73 -/
def orderFile (d : Dict Nat (List Ngram)) (order : Nat) : Except PyErr Str := do
  let es ← ((Dict.get? d order).getD []).mapM Ngram.entry
  return writeNgramFile es

/-- `LanguageModelBuilder.__call__`, language_model_builder.py:36-66: the contents of the files of the orders `1, 2, …`;
`none` = some calculation has not returned or the fuel ran out. -/
def Builder.call {T} (b : Builder) (R : Rounding) (sentencize : T → Except PyErr (List (List Str))) (fuel : Nat)
    (texts : List T) (sched : Nat → List Move) : Except PyErr (Option (List Str)) := do
  match ← readTexts sentencize b.maxOrder b.nbProcesses fuel texts [] with
  | none => return none
  | some store =>
    match ← b.smooth R (Dict.values store) sched with
    | none => return none
    | some d =>
      let files ← ((List.range b.maxOrder).map (· + 1)).mapM (orderFile d)
      return some files

end Model
