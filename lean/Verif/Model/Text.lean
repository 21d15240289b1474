import Verif.Py.Basic
import Mathlib.Data.Rat.Floor

/-! Model of `scrappybara/utils/text.py`, `maths.py` and `timer.py`. -/

namespace Model
open Py

/-- `xnor`, maths.py:1-6 -/
def xnor (bools : List Bool) : Except PyErr Bool := do
  let a ← index bools 0
  let b ← index bools 1
  return (sliceFrom bools 2).foldl (fun r x => r == x) (a == b)

/-- `LETTERS`, text.py:3 -/
def letters : List Char := c!"abcdefghijklmnopqrstuvwxyz"
/-- `CONSONANTS`, text.py:4 -/
def consonants : List Char := c!"qwrtpsdfghjklzxcvbnm"
/-- `VOWELS`, text.py:5 -/
def vowels : List Char := c!"eyuioa"
/-- `UPPERCASE_LETTERS`, text.py:8 -/
def uppercaseLetters : List Char := c!"ABCDEFGHIJKLMNOPQRSTUVWXYZ"

/-- `starts_with_uppercase_letter`, text.py:18-19 -/
def startsWithUppercaseLetter (t : Str) : Except PyErr Bool := do return (← index t 0) ∈ uppercaseLetters

/-- `ends_with_consonant`, text.py:22-23 -/
def endsWithConsonant (t : Str) : Except PyErr Bool := do return (← index t (-1)) ∈ consonants

/-- The class `[a-zA-Z]`. -/
def isAsciiLetter (c : Char) : Bool := ('a' ≤ c && c ≤ 'z') || ('A' ≤ c && c ≤ 'Z')

/-- `has_only_letters`, text.py:26-27: `re.fullmatch('[a-zA-Z]+', token)`. -/
def hasOnlyLetters (t : Str) : Bool := !t.isEmpty && t.all isAsciiLetter

/-- `has_only_lowercase_letters`, text.py:30-31: the same regular expression. -/
def hasOnlyLowercaseLetters (t : Str) : Bool := !t.isEmpty && t.all isAsciiLetter

/-- `str.endswith` -/
def endsWith (t e : Str) : Bool := e.isSuffixOf t
/-- `str.startswith` -/
def startsWith (t e : Str) : Bool := e.isPrefixOf t

/-- `token_start`, text.py:34-40. `token[:-len(ending)]` with an empty ending is `token[:0]`. -/
def tokenStart (token ending : Str) (startMinLength : Int) : Option Str :=
  if endsWith token ending && token.length > ending.length then
    let start := sliceTo token (-(ending.length : Int))
    if (start.length : Int) ≥ startMinLength then some start else none
  else none

/-- Auxiliary for `splitOn1`: characters of the current piece in reverse. -/
def splitOnAux (sep : Char) : Str → Str → List Str
  | [], cur => [cur.reverse]
  | c :: cs, cur => if c = sep then cur.reverse :: splitOnAux sep cs [] else splitOnAux sep cs (c :: cur)

/-- `text.split(sep)` for a one-character separator. -/
def splitOn (t : Str) (sep : Char) : List Str := splitOnAux sep t []

/-- `sep.join(parts)` -/
def join (sep : Str) : List Str → Str
  | [] => []
  | [x] => x
  | x :: y :: l => x ++ sep ++ join sep (y :: l)

/-- `token_prefix`, text.py:43-52; `prefixes` is the set in its iteration order. -/
def tokenPrefix (token : Str) (prefixes : List Str) : Option (Str × Str) :=
  match splitOn token '-' with
  | [a, b] => some (a ++ ['-'], b)
  | _ => (prefixes.find? fun p => startsWith token p).map fun p => (p, sliceFrom token (p.length : Int))

/-- `vowel_double_consonant_endings`, text.py:55-62: the `IndexError` of `token[-3]` is caught. -/
def vowelDoubleConsonantEndings (token : Str) : Option (List Str) :=
  let r : Except PyErr (Option (List Str)) := do
    let a ← index token (-3)
    if a ∈ vowels then
      let b ← index token (-2)
      if b ∈ consonants then
        let c ← index token (-1)
        if b = c then return some [[c], [c, c]]
    return none
  match r with
  | .ok v => v
  | .error _ => none

/-- `functionalize`, text.py:70-72; arguments are already strings or `None`. -/
def functionalize (fname : Str) (args : List (Option Str)) : Str :=
  fname ++ c!"(" ++ join c!", " (args.filterMap id) ++ c!")"

/-- `defunctionalize`, text.py:75-77: unpacking a split of a length other than 2 is a `ValueError`. -/
def defunctionalize (marked : Str) : Except PyErr (Str × Str) :=
  match splitOn marked '(' with
  | [f, a] => .ok (f, sliceTo a (-1))
  | _ => .error .value

/-- `associate`, text.py:80-81 -/
def associate (args : List (Option Str)) : Str := join c!"ǁ" (args.filterMap id)

/-- `dissociate`, text.py:84-89 -/
def dissociate (text : Str) : Option (Str × Str) :=
  match splitOn text 'ǁ' with
  | [a, b] => some (a, b)
  | _ => none

/-- `attach_attributes`, text.py:92-93 -/
def attachAttributes (token : Str) (attrs : List (Option Str)) : Str := join c!"»" (token :: attrs.filterMap id)

/-- `detach_attributes`, text.py:96-97 -/
def detachAttributes (text : Str) : List Str := splitOn text '»'

/-- Decimal digits of a natural number (`'%d'`). -/
def natRepr (n : Nat) : Str := Nat.toDigits 10 n

/-- `'%02d'` -/
def pad2 (n : Nat) : Str := if n < 10 then '0' :: natRepr n else natRepr n

/-- python `divmod(x, 60)` on non-negative numbers: quotient (an integral float) and remainder. -/
def divmod60 (x : ℚ) : ℚ × ℚ := ((⌊x / 60⌋ : ℤ), x - 60 * (⌊x / 60⌋ : ℤ))

/-- `_time_string`, timer.py:4-8; `'%d'` truncates; durations are non-negative, exact arithmetic. -/
def timeString (t : ℚ) : Str :=
  let (minutes, seconds) := divmod60 t
  let (hours, minutes) := divmod60 minutes
  natRepr ⌊hours⌋.toNat ++ c!":" ++ pad2 ⌊minutes⌋.toNat ++ c!":" ++ pad2 ⌊seconds⌋.toNat

/-- State of `Timer`: start time and laps (exact arithmetic), timer.py:17-19 -/
structure Timer where
  startTime : ℚ
  laps : List ℚ

/-- `Timer()`, at clock reading `t0`; timer.py:17-19 -/
def Timer.new (t0 : ℚ) : Timer := { startTime := t0, laps := [0] }

/-- `_new_lap` with the two clock readings it makes, timer.py:21-25 -/
def Timer.newLap (t : Timer) (now now' : ℚ) : Timer × ℚ :=
  ({ startTime := now', laps := t.laps ++ [now - t.startTime] }, now - t.startTime)

/-- `lap_time`, timer.py:27-29 -/
def Timer.lapTime (t : Timer) (now now' : ℚ) : Timer × Str :=
  let (t', l) := t.newLap now now'
  (t', timeString l)

/-- `total_time`, timer.py:31-34 -/
def Timer.totalTime (t : Timer) (now now' : ℚ) : Timer × Str :=
  let (t', _) := t.newLap now now'
  (t', timeString t'.laps.sum)

end Model
