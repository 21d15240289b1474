import Verif.Py.Basic

/-! Specification vocabulary for the vectors of a sentence. -/

namespace Spec
open Py

/-- The last `n` elements of a list. -/
def lastN {α} (n : Nat) (l : List α) : List α := l.drop (l.length - n)

/-- The list completed with a value up to a length. -/
def padTo {α} (n : Nat) (z : α) (l : List α) : List α := l ++ List.replicate (n - l.length) z

/-- What the network should see of the characters of a word: start mark, last 20 characters, end mark, completed
with zeros up to 22. -/
def wordRow (code : Char → Nat) (w : Str) : List Nat := padTo 22 0 ((['†'] ++ lastN 20 w ++ ['‡']).map code)

/-- The rows of a sentence: start token, tokens, end token. -/
def sentRows (tokens : List Str) : List Str := [['ʃ', 'ʃ', 'ʃ']] ++ tokens ++ [['ʄ', 'ʄ', 'ʄ']]

/-- The mask of length `n` that is true at `i` only. -/
def oneHot (n i : Nat) : List Bool := (List.range n).map fun k => decide (k = i)

/-- Label ids of the 52 rows of a sentence: padding id, the ids of the tokens, padding ids. -/
def labelRow (ids : List Nat) : List Nat := padTo 52 0 ([0] ++ ids ++ [0])

/-- Character codes of the 52 rows of a sentence. -/
def charMatrix (code : Char → Nat) (tokens : List Str) : List (List Nat) :=
  padTo 52 (List.replicate 22 0) ((sentRows tokens).map (wordRow code))

/-- Word vectors of the 52 rows of a sentence. -/
def vecMatrix {α} [Zero α] (D : Nat) (vec : Str → List α) (tokens : List Str) : List (List α) :=
  padTo 52 (List.replicate D 0) ((sentRows tokens).map vec)

end Spec
