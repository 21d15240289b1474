import Verif.Spec.Preprocessing
import Verif.Py.Regex

/-! Ordinary printed sentences: words with contractions, brackets, quotation marks and punctuation. -/

namespace Spec
open Py

/-- Abbreviations that keep their dot. -/
def abbreviations : List Str := [c!"m", c!"mr", c!"mrs", c!"ms", c!"sr", c!"dr", c!"prof", c!"rev", c!"gov", c!"sen", c!"rep",
  c!"lt", c!"sgt", c!"ave", c!"st", c!"ed", c!"feat"]

/-- Endings that are contracted with the word before. -/
def contractions : List Str := [c!"n't", c!"'re", c!"'ll", c!"'ve", c!"'m", c!"'d", c!"'s"]

/-- A word as it is printed: (he'll), for example. -/
structure Printed where
  /-- brackets and quotation marks before the word -/
  opening : Str
  /-- the word -/
  stem : Str
  /-- a contraction -/
  tail : Str
  /-- brackets and quotation marks directly after the word -/
  inner : Str
  /-- a punctuation mark -/
  mark : Str
  /-- brackets and quotation marks after the punctuation mark -/
  outer : Str

namespace Printed

/-- How it looks. -/
def text (p : Printed) : Str := p.opening ++ (p.stem ++ (p.tail ++ (p.inner ++ (p.mark ++ p.outer))))

/-- Every character on its own. -/
def singles (s : Str) : List Str := s.map fun c => [c]

/-- The tokens. -/
def tokens (p : Printed) : List Str :=
  singles p.opening ++ (splitCannot p.stem ++ ((if p.tail = [] then [] else [p.tail]) ++
    (singles p.inner ++ (singles p.mark ++ singles p.outer))))

/-- Ordinary words. -/
structure Ordinary (db : CharDB) (p : Printed) : Prop where
  opening : ∀ c ∈ p.opening, c ∈ ['(', '[', '{', '"']
  opening_chain : p.opening.IsChain (· ≠ ·)
  stem_ne : p.stem ≠ []
  stem : ∀ c ∈ p.stem, db.word c = true ∧ c ≠ '_'
  tail : p.tail = [] ∨ p.tail.map Char.toLower ∈ contractions
  inner : ∀ c ∈ p.inner, c ∈ [')', ']', '}', '"']
  inner_chain : p.inner.IsChain (· ≠ ·)
  mark : p.mark ∈ [[], [','], [';'], ['!'], ['?'], ['.']]
  outer : ∀ c ∈ p.outer, c ∈ [')', ']', '}', '"']
  outer_chain : p.outer.IsChain (· ≠ ·)
  /-- without a punctuation mark nothing comes after it -/
  outer_mark : p.mark = [] → p.outer = []
  /-- no smileys -/
  smiley : p.mark = [';'] → p.outer.head? ≠ some ')'
  /-- no feet and inches, and no contractions of numbers -/
  measure : p.tail ≠ [] ∨ '"' ∈ p.inner ∨ '"' ∈ p.outer → ∀ c, p.stem.getLast? = some c → db.digit c = false
  /-- "cannotn't" is not a word -/
  cannot : p.tail.map Char.toLower = c!"n't" → p.stem.map Char.toLower ≠ c!"cannot"
  /-- a dot does not come after an abbreviation, a single letter or "I'm" -/
  dot : p.mark = ['.'] → p.inner = [] → p.tail.map Char.toLower ≠ c!"'m" ∧
    (p.tail = [] → 2 ≤ p.stem.length ∧ p.stem.map foldCase ∉ abbreviations)

end Printed

/-- After a dot and white space, no small letter, no digit and no punctuation mark. -/
def DotBefore (db : CharDB) (w v : Str) : Prop :=
  w.getLast? = some '.' → ∀ c, v.head? = some c → ¬ ('a' ≤ c ∧ c ≤ 'z') ∧ db.digit c = false ∧ c ∉ [',', ';', '?', '!']

/-- What stands between white space. -/
inductive Piece where
  | word (p : Printed)
  /-- a mark on its own -/
  | mark (c : Char)

namespace Piece

def text : Piece → Str
  | word p => p.text
  | mark c => [c]

def tokens : Piece → List Str
  | word p => p.tokens
  | mark c => [[c]]

def Ordinary (db : CharDB) : Piece → Prop
  | word p => p.Ordinary db
  | mark c => c ∈ [',', ';', '!', '?', '.', '(', ')', '[', ']', '{', '}', '"']

end Piece

end Spec
