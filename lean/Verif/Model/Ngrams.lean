import Verif.Py.Str
import Verif.Model.Text
import Verif.Model.Mutables

/-! Model of `scrappybara/langmodel/ngrams_extraction.py`, `ngram.py`, `ngram_store.py` and the reading loop of
`language_model_builder.py`. -/

namespace Model
open Py

/-- `str.lower` on ASCII letters and blanks: the only strings it is applied to in `extract_ngrams`. -/
def lowerAscii (c : Char) : Char := if 'A' ≤ c ∧ c ≤ 'Z' then Char.ofNat (c.toNat + 32) else c

/-- `_valid_ngram_token`, ngrams_extraction.py:4-13 -/
def validNgramToken (token : Str) : Except PyErr Bool :=
  if token.isEmpty then .ok false
  else if token = c!"I" then .ok true
  else do
    let up ← startsWithUppercaseLetter token
    return !(!hasOnlyLetters token || up)

/-- `_valid_tokens`, ngrams_extraction.py:16-17: the list is built in full before `all`. -/
def validTokens (tokens : List Str) : Except PyErr Bool := do
  let bs ← tokens.mapM validNgramToken
  return bs.all id

/-- `zip(*[items[i:] for i in range(n)])`, ngrams_extraction.py:27 and token_context.py:11 -/
def slideWindow {α} (items : List α) (n : Nat) : List (List α) :=
  zipStar ((List.range n).map fun i : Nat => sliceFrom items (i : Int))

/-- The texts added for one sentence, ngrams_extraction.py:24-29 -/
def sentenceNgrams (tokens : List Str) (order : Nat) : Except PyErr (List Str) := do
  let windows := if order = 1 then tokens.map fun t => [t] else slideWindow tokens order
  let kept ← filterE validTokens windows
  return (kept.map fun w => join c!" " w).map fun t => t.map lowerAscii

/-- `extract_ngrams`, ngrams_extraction.py:20-30 -/
def extractNgrams (tokenLists : List (List Str)) (order : Nat) : Except PyErr (List Str) := do
  let ls ← tokenLists.mapM fun l => sentenceNgrams l order
  return ls.flatten

/-- A number in a numpy array of floats under exact arithmetic; `none` is `inf` or `nan`. -/
abbrev Num := Option ℚ

/-- An `Ngram` object; `proba` is `None` until assigned. `logp` is not modelled. ngram.py:14-19 -/
structure Ngram where
  text : Str
  count : Nat := 1
  proba : Option Num := none
  deriving DecidableEq

/-- `Ngram.tokens`, ngram.py:16 -/
def Ngram.tokens (g : Ngram) : List Str := splitWs g.text

/-- `Ngram.order`, ngram.py:40-41 -/
def Ngram.order (g : Ngram) : Nat := g.tokens.length

/-- `Ngram.last_token`, ngram.py:47-48 -/
def Ngram.lastToken (g : Ngram) : Except PyErr Str := index g.tokens (-1)

/-- `Ngram.without_last_token`, ngram.py:51-53 -/
def Ngram.withoutLastToken (g : Ngram) : Except PyErr Str :=
  if g.order > 1 then .ok (join c!" " (sliceTo g.tokens (-1))) else .error .assertion

/-- `Ngram.wc_last_token`, ngram.py:56-58 -/
def Ngram.wcLastToken (g : Ngram) : Except PyErr Str := do
  let w ← g.withoutLastToken
  return join c!" " [w, c!"•"]

/-- `Ngram.prepend_wc`, ngram.py:61-63 -/
def Ngram.prependWc (g : Ngram) : Str := join c!" " [c!"•", g.text]

/-- `Ngram.continuous_ngram`, ngram.py:66-69 -/
def Ngram.continuousNgram (g : Ngram) : Except PyErr Str := do
  let w ← g.wcLastToken
  return join c!" " [c!"•", w]

/-- `Ngram.lower_order`, ngram.py:71-74 -/
def Ngram.lowerOrder (g : Ngram) (order : Nat) : Except PyErr Str :=
  if 0 < order ∧ order < g.order then .ok (join c!" " (sliceFrom g.tokens ((g.order : Int) - order)))
  else .error .assertion

/-- The dictionary of an `NgramStore`, ngram_store.py:8 -/
abbrev Store := Dict Str Ngram

/-- `NgramStore.make_ngram`, ngram_store.py:17-25. The object is shared, so counting up is visible in the store. -/
def makeNgram (s : Store) (text : Str) : Store :=
  match Dict.get? s text with
  | some g => Dict.set s text { g with count := g.count + 1 }
  | none => Dict.set s text { text := text }

/-- Adding the n-grams of one text, language_model_builder.py:55-57 -/
def addText (maxOrder : Nat) (s : Store) (sents : List (List Str)) : Except PyErr Store :=
  (List.range maxOrder).foldlM (fun s n => do
    let gs ← extractNgrams sents (n + 1)
    return gs.foldl makeNgram s) s

/-- The loop reading the iterator, language_model_builder.py:43-58, started with `fuel` rounds; `none` when they do not
suffice. `Pool(0)` is a `ValueError`. `Pool.map` keeps the order and re-raises the first error. -/
def readTexts {T} (sentencize : T → Except PyErr (List (List Str))) (maxOrder nbProcesses : Nat) :
    Nat → List T → Store → Except PyErr (Option Store)
  | 0, _, _ => .ok none
  | fuel + 1, iter, store => do
    let batch := iter.take nbProcesses
    let consumed := decide (iter.length < nbProcesses)
    if nbProcesses = 0 then .error .value
    else do
      let textsTokens ← batch.mapM sentencize
      let store ← textsTokens.foldlM (addText maxOrder) store
      if consumed then .ok (some store)
      else readTexts sentencize maxOrder nbProcesses fuel (iter.drop nbProcesses) store

end Model
