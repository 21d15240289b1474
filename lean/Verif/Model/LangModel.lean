import Verif.Py.Sort
import Verif.Py.Str
import Verif.Model.Text
import Verif.Model.Mutables
import Verif.Model.Ngrams

/-! scrappybara/langmodel/language_model.py, token_context.py and the writing part of language_model_builder.py.
Probabilities are rationals, rounded by a `Rounding` where a decimal is read; `math.log` is a parameter. -/

namespace Model
open Py

/-! ### token_context.py -/

/-- `TokenContext`, token_context.py:1-7 -/
structure TokenContext where
  token : Str
  before : List Str
  after : List Str

/-- `TokenContext.left_ngram`, token_context.py:13-15 -/
def TokenContext.leftNgram (c : TokenContext) : List Str := c.before ++ [c.token]

/-- `TokenContext.right_ngram`, token_context.py:17-19 -/
def TokenContext.rightNgram (c : TokenContext) : List Str := [c.token] ++ c.after

/-- `TokenContext.candidates`, token_context.py:21-28 -/
def TokenContext.candidates (c : TokenContext) (order : Int) : Except PyErr (List Str) :=
  if order > 1 then
    let exploringRange := order - 1
    let before := sliceFrom c.before ((c.before.length : Int) - exploringRange)
    let after := sliceTo c.after exploringRange
    .ok ((slideWindow (before ++ [c.token] ++ after) order.toNat).map (join c!" "))
  else .error .assertion

/-! ### Writing, language_model_builder.py -/

/-- An n-gram with a probability that is a number: text, count, probability. -/
structure Entry where
  text : Str
  count : Nat
  proba : ℚ
  deriving DecidableEq

/-- `round(x)` to an integer, half to even, for `x ≥ 0`; what `%.17f` does after scaling by `10^17`. -/
def roundHalfEven (x : ℚ) : Nat :=
  let f := ⌊x⌋.toNat
  let r := x - f
  if r < 1 / 2 then f else if 1 / 2 < r then f + 1 else if f % 2 = 0 then f else f + 1

/-- `n` decimal digits of `m`, leading zeros included. -/
def fixedDigits : Nat → Nat → Str
  | 0, _ => []
  | n + 1, m => fixedDigits n (m / 10) ++ [Nat.digitChar (m % 10)]

/-- `'%.17f' % p` for `p ≥ 0` -/
def format17 (p : ℚ) : Str :=
  let k := roundHalfEven (p * 10 ^ 17)
  natRepr (k / 10 ^ 17) ++ c!"." ++ fixedDigits 17 (k % 10 ^ 17)

/-- One line of the file, language_model_builder.py:73 -/
def writeLine (e : Entry) : Str := e.text ++ c!"\t" ++ natRepr e.count ++ c!"\t" ++ format17 e.proba ++ c!"\n"

/-- `__write_ngram_file`: the content of the file, language_model_builder.py:67-73. `Ngram` only defines `__gt__`, by
probability. -/
def writeNgramFile (ngrams : List Entry) : Str :=
  (((sortDesc Entry.proba ngrams).filter fun e => 0 < e.proba).map writeLine).flatten

/-! ### Reading, language_model.py -/

/-- Text mode: `\r\n` and `\r` are read as `\n`. -/
def universalNewlines : Str → Str
  | [] => []
  | '\r' :: '\n' :: t => '\n' :: universalNewlines t
  | '\r' :: t => '\n' :: universalNewlines t
  | c :: t => c :: universalNewlines t

/-- Auxiliary for `fileLines`: characters of the current line in reverse. -/
def fileLinesAux : Str → Str → List Str
  | [], cur => if cur.isEmpty then [] else [cur.reverse]
  | c :: t, cur => if c = '\n' then (c :: cur).reverse :: fileLinesAux t [] else fileLinesAux t (c :: cur)

/-- Iterating over a text file: its lines, each with its line feed. -/
def fileLines (t : Str) : List Str := fileLinesAux (universalNewlines t) []

/-- Sign and rest of a numeral. -/
def signed : Str → Bool × Str
  | '-' :: t => (true, t)
  | '+' :: t => (false, t)
  | t => (false, t)

/-- `int(text)` for decimal numerals; `ValueError` otherwise. Underscores and non-ASCII digits are not modelled. -/
def parseInt (t : Str) : Except PyErr Int :=
  let s := signed (strip t)
  if !s.2.isEmpty && s.2.all Char.isDigit then
    let n : Int := Nat.ofDigitChars 10 s.2 0
    .ok (if s.1 then -n else n)
  else .error .value

/-- The exact value of a decimal numeral with at most one point; `none` when it is not one. -/
def decimalValue (t : Str) : Option ℚ :=
  match splitOn t '.' with
  | [a] => if !a.isEmpty && a.all Char.isDigit then some (Nat.ofDigitChars 10 a 0) else none
  | [a, b] =>
    if !(a ++ b).isEmpty && (a ++ b).all Char.isDigit then some (Nat.ofDigitChars 10 (a ++ b) 0 / 10 ^ b.length) else none
  | _ => none

/-- `float(text)` for decimal numerals; `ValueError` otherwise. Exponents, `inf` and `nan` are not modelled. -/
def parseFloat (R : Rounding) (t : Str) : Except PyErr ℚ :=
  let s := signed (strip t)
  match decimalValue s.2 with
  | some v => .ok (if s.1 then -(R.fl v) else R.fl v)
  | none => .error .value

/-- What is known about an n-gram: count, probability, log-probability. -/
abbrev Details := Int × ℚ × WithBot ℚ

/-- `math.log`, `ValueError` when not positive; `log` gives its value. -/
def mathLog (log : ℚ → ℚ) (p : ℚ) : Except PyErr (WithBot ℚ) :=
  if 0 < p then .ok (log p) else .error .value

/-- One line of a model file, language_model.py:26-30 -/
def loadLine (R : Rounding) (log : ℚ → ℚ) (minCount : Int) (d : Dict Str Details) (line : Str) :
    Except PyErr (Dict Str Details) :=
  match splitOn line '\t' with
  | [text, count, proba] => do
    let n ← parseInt count
    if minCount ≤ n then do
      let p ← parseFloat R proba
      let l ← mathLog log p
      return Dict.set d text (n, p, l)
    else .ok d
  | _ => .error .value

/-- One file, language_model.py:25-30 -/
def loadFile (R : Rounding) (log : ℚ → ℚ) (d : Dict Str Details) (f : Int × Str) : Except PyErr (Dict Str Details) :=
  (fileLines f.2).foldlM (loadLine R log f.1) d

/-- `LanguageModel`, language_model.py:11-39 -/
structure LM where
  maxOrder : Nat
  details : Dict Str Details
  nextTokens : Dict Str (List (Str × ℚ))

/-- An n-gram in the dictionary of continuations, language_model.py:34-37 -/
def addNext (d : Dict Str (List (Str × ℚ))) (e : Str × Details) : Dict Str (List (Str × ℚ)) :=
  let tokens := splitWs e.1
  match tokens.getLast? with
  | some last => if tokens.length > 1 then appendToDictList d (join c!" " (sliceTo tokens (-1))) (last, e.2.2.1) else d
  | none => d

/-- `LanguageModel(*min_counts)`, language_model.py:11-39; the files of the orders `1, 2, …` with their minimum
counts. -/
def LM.load (R : Rounding) (log : ℚ → ℚ) (files : List (Int × Str)) : Except PyErr LM := do
  let details ← files.foldlM (loadFile R log) []
  let next := if files.length > 1 then details.foldl addNext [] else []
  return { maxOrder := files.length, details := details
           nextTokens := next.map fun e => (e.1, sortDesc Prod.snd e.2) }

/-- `__len__`, language_model.py:41-42 -/
def LM.len (m : LM) : Nat := m.details.length

/-- `__contains__`, language_model.py:44-45 -/
def LM.contains (m : LM) (g : Str) : Bool := Dict.has m.details g

/-- Details of an n-gram, those of an unknown one by default, language_model.py:20,49,109 -/
def LM.detailsOf (m : LM) (g : Str) : Details := (Dict.get? m.details g).getD (0, 0, ⊥)

/-- `__logp`, language_model.py:47-49 -/
def LM.logp (m : LM) (g : Str) : WithBot ℚ := (m.detailsOf g).2.2

/-- The entry of one order in `__logps`, language_model.py:57-61 -/
def LM.logpOrder (m : LM) (c : TokenContext) (order : Nat) : Except PyErr (WithBot ℚ) := do
  let cands ← c.candidates order
  if cands.isEmpty then .ok ⊥
  else pyMax (fun a b => decide (a < b)) (cands.map m.logp)

/-- `range(max_order, 1, -1)`, language_model.py:56 -/
def ordersDown (n : Nat) : List Nat := ((List.range (n - 1)).map (· + 2)).reverse

/-- `__logps`, language_model.py:51-63 -/
def LM.logps (m : LM) (c : TokenContext) : Except PyErr (List (WithBot ℚ)) := do
  let ps ← (ordersDown m.maxOrder).mapM (m.logpOrder c)
  return ps ++ [m.logp c.token]

/-- `top_ngrams`, language_model.py:65-71 -/
def LM.topNgrams (m : LM) (order : Int) (limit : Option Int) : List (Str × Int × ℚ) :=
  let ngrams := (m.details.filter fun e => ((splitWs e.1).length : Int) = order).map fun e => (e.1, e.2.1, e.2.2.1)
  sliceLimit (sortDesc (fun e => e.2.2) ngrams) limit

/-- The loop of `next_word`, language_model.py:75-79 -/
def LM.nextLoop (m : LM) (tokens : List Str) (limit : Option Int) : List Nat → List (Str × ℚ)
  | [] => []
  | i :: is =>
    match Dict.get m.nextTokens (join c!" " (sliceFrom tokens (-(i : Int)))) with
    | .ok l => sliceLimit l limit
    | .error _ => m.nextLoop tokens limit is

/-- `next_word`, language_model.py:73-80, after tokenization. -/
def LM.nextWord (m : LM) (tokens : List Str) (limit : Option Int) : List (Str × ℚ) :=
  m.nextLoop tokens limit (((List.range (m.maxOrder - 1)).map (· + 1)).reverse)

/-- `best_token`, language_model.py:82-95, with the tokens of the context. -/
def LM.bestToken (m : LM) (tokens before after : List Str) : Except PyErr (Option Str) :=
  if tokens.any m.contains then do
    let vectors ← tokens.mapM fun t => m.logps { token := t, before := before, after := after }
    let tprobas : Dict (List (WithBot ℚ)) Nat := Dict.ofPairs vectors.zipIdx
    let best ← pyMax tupleLt (Dict.keys tprobas)
    let idx ← Dict.get tprobas best
    let t ← index tokens (idx : Int)
    return some t
  else .ok none

/-- `best_ngram`, language_model.py:97-105 -/
def LM.bestNgram (m : LM) (ngrams : List Str) : Except PyErr (Option Str) :=
  if ngrams.any m.contains then do
    let x ← index (sortDesc Prod.snd (ngrams.map fun g => (g, m.logp g))) 0
    return some x.1
  else .ok none

/-- `has_ngram`, language_model.py:107-110 -/
def LM.hasNgram (m : LM) (g : Str) (minCount : Int) : Bool :=
  if minCount < 1 then false else decide (minCount ≤ (m.detailsOf g).1)

end Model
