import Verif.Spec.Printed

/-! The sentences of ordinary printed text with quotations and parentheses. -/

namespace Spec
open Py

/-- The full stop, the exclamation mark and the question mark. -/
def finalMarks : List Str := [['.'], ['!'], ['?']]

/-- Units are grouped into sentences: a sentence ends after a unit that ends it. -/
def sentencesOf {α : Type} (ends : α → Bool) : List α → List (List α)
  | [] => []
  | x :: xs =>
    if ends x then [x] :: sentencesOf ends xs
    else match sentencesOf ends xs with
      | [] => [[x]]
      | s :: ss => (x :: s) :: ss

/-- A word, or a quotation with a punctuation mark after it. -/
inductive Phrase where
  | word (p : Printed)
  | quote (ps : List Printed) (mark : Str)

/-- The text ends with a full stop. -/
def stops (ps : List Printed) : Bool := (ps.getLast?.map Printed.text).any fun w => w.getLast? = some '.'

namespace Phrase

def text : Phrase → Str
  | word p => p.text
  | quote ps mark => '"' :: (List.intercalate c!" " (ps.map Printed.text) ++ '"' :: mark)

def tokens : Phrase → List Str
  | word p => p.tokens
  | quote ps mark => [c!"\""] ++ (ps.flatMap Printed.tokens ++ ([c!"\""] ++ Printed.singles mark))

/-- Words end a sentence with their mark; so do quotations, or with a full stop before the closing quotation mark. -/
def ends : Phrase → Bool
  | word p => p.mark ∈ finalMarks
  | quote ps mark => mark ∈ finalMarks ∨ stops ps

/-- Ordinary words without parentheses and quotation marks; quotations of ordinary words. -/
def Ordinary (db : CharDB) : Phrase → Prop
  | word p => p.Ordinary db ∧ ∀ c ∈ ['"', '(', ')'], c ∉ p.text
  | quote ps mark => ps ≠ [] ∧ (∀ p ∈ ps, p.Ordinary db ∧ '"' ∉ p.text) ∧ (ps.map Printed.text).IsChain (DotBefore db) ∧
      mark ∈ [[], [','], [';'], ['!'], ['?'], ['.']] ∧ (stops ps → mark = [])

end Phrase

/-- A phrase, or phrases in parentheses with a punctuation mark after them. -/
inductive Chunk where
  | phrase (x : Phrase)
  | paren (xs : List Phrase) (mark : Str)

namespace Chunk

def text : Chunk → Str
  | phrase x => x.text
  | paren xs mark => '(' :: (List.intercalate c!" " (xs.map Phrase.text) ++ ')' :: mark)

def tokens : Chunk → List Str
  | phrase x => x.tokens
  | paren xs mark => [c!"("] ++ (xs.flatMap Phrase.tokens ++ ([c!")"] ++ Printed.singles mark))

/-- Nothing within parentheses ends a sentence. -/
def ends : Chunk → Bool
  | phrase x => x.ends
  | paren _ mark => mark ∈ finalMarks

/-- Brackets are closed before the end of a sentence; in parentheses, no quotation has a full stop before the closing quotation
mark. -/
def Ordinary (db : CharDB) : Chunk → Prop
  | phrase x => x.Ordinary db ∧ ∀ p, x = .word p → p.mark ∈ finalMarks → p.outer = []
  | paren xs mark => xs ≠ [] ∧ (∀ x ∈ xs, x.Ordinary db ∧ ∀ ps m, x = .quote ps m → stops ps = false) ∧
      (xs.map Phrase.text).IsChain (DotBefore db) ∧ mark ∈ [[], [','], [';'], ['!'], ['?'], ['.']]

end Chunk

/-- A line of phrases and parentheses. -/
structure Paragraph (db : CharDB) (line : Str) (xs : List Chunk) : Prop where
  words : splitWs line = splitWs (List.intercalate c!" " (xs.map Chunk.text))
  not_empty : xs ≠ []
  ordinary : ∀ x ∈ xs, x.Ordinary db
  chain : (xs.map Chunk.text).IsChain (DotBefore db)

end Spec
