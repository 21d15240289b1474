import Verif.Spec.Ngrams
import Verif.Spec.Smoothers
import Verif.Py.Str

/-! Specification vocabulary for building a language model, independent of the model. -/

namespace Spec
open Py

/-- Every n-gram text of order `n` of a corpus, in reading order. -/
def orderTexts (n : Nat) (texts : List (List (List Str))) : List Str := texts.flatMap (ngramTexts n)

/-- The distinct n-grams of orders `1..N` of a corpus with their numbers of occurrences. -/
def corpusVocab (N : Nat) (texts : List (List (List Str))) : Vocab :=
  (distinctInOrder (corpusTexts N texts)).map fun t => (splitWs t, (corpusTexts N texts).count t)

/-- The probability modified Kneser-Ney smoothing gives to an n-gram. -/
def Vocab.mkn (V : Vocab) (words : List Str) : ℚ := if words.length = 1 then V.pCont words else V.pTop words

end Spec
