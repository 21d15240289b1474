import Verif.Model.Parser
import Verif.Model.Text

/-! Model of `scrappybara/syntax/training_samples.py`, `charset.py`, `wordset.py` and `tagger.py`. Arrays are lists; word
vectors are lists over any type with a zero. -/

namespace Model
open Py

/-! ### charset.py -/

/-- `Charset` after `load`, charset.py:5-26 -/
structure Charset where
  charCode : Dict Char Nat
  unkCode : Nat

/-- `__len__`, charset.py:12-13 -/
def Charset.len (c : Charset) : Nat := c.charCode.length + 1

/-- `__getitem__`, charset.py:15-20 -/
def Charset.get (c : Charset) (ch : Char) : Nat := (c.charCode.get? ch).getD c.unkCode

/-- `load`, charset.py:22-25: `max` of an empty dictionary is a `ValueError`. -/
def Charset.load (file : Dict Char Nat) : Except PyErr Charset :=
  match file.values.max? with
  | some m => .ok { charCode := file, unkCode := m + 1 }
  | none => .error .value

/-- `DIGITS`, text.py:9 -/
def digits : List Char := c!"0123456789"

/-- The characters of `save`, charset.py:29-31, without repetitions. -/
def charsetChars : List Char :=
  (letters ++ uppercaseLetters ++ digits ++ c!"`~!@#$£€%^&*()-_=+[{]}\\|;:'\",<.>/?" ++ c!"†‡ʃʄ").eraseDups

/-- `{char: idx for idx, char in enumerate(chars)}`, charset.py:32, for the iteration order `chars` of the set. -/
def Charset.codes (chars : List Char) : Dict Char Nat := Dict.ofPairs chars.zipIdx

/-! ### wordset.py -/

/-- `Wordset.__getitem__`, wordset.py:18-23; `lower` is `str.lower`. -/
def wordsetGet {α} (lower : Str → Str) (zeroVector : List α) (d : Dict Str (List α)) (w : Str) : List α :=
  (d.get? (lower w)).getD zeroVector

/-! ### training_samples.py -/

/-- `_pad_array`, training_samples.py:8-13: assigning a longer array is a `ValueError`. -/
def padArray (array : List Nat) (dim : Nat) : Except PyErr (List Nat) :=
  let a := sliceFrom array (-(dim : Int))
  if a.length ≤ dim then .ok (a ++ List.replicate (dim - a.length) 0) else .error .value

/-- `_fill_columns`, training_samples.py:16-22 -/
def fillColumns (matrix : List (List Nat)) (dim : Nat) : Except PyErr (List (List Nat)) :=
  matrix.mapM fun a => padArray a dim

/-- `_pad_char_codes`, training_samples.py:25-30 -/
def padCharCodes (matrix : List (List Nat)) : Except PyErr (List (List Nat)) := do
  let empty ← fillColumns (List.replicate (paddedSentLength - matrix.length) []) paddedWordLength
  let padded ← fillColumns (sliceTo matrix (paddedSentLength : Int)) paddedWordLength
  return padded ++ empty

/-- `_pad_word_vectors`, training_samples.py:33-39; a row beyond the padded length is an `IndexError`. -/
def padWordVectors {α} [Zero α] (matrix : List (List α)) : Except PyErr (List (List α)) :=
  match matrix with
  | [] => .error .index
  | first :: _ =>
    if matrix.all fun a => a.length = first.length then
      if matrix.length ≤ paddedSentLength then
        .ok (matrix ++ List.replicate (paddedSentLength - matrix.length) (List.replicate first.length 0))
      else .error .index
    else .error .assertion

/-- `_encode_chars`, training_samples.py:42-46 -/
def encodeChars (code : Char → Nat) (token : Str) : List Nat :=
  let t := if token.length > maxWordLength then sliceFrom token ((token.length : Int) - (maxWordLength : Int)) else token
  (c!"†" ++ t ++ c!"‡").map code

/-- `vectorize_sentence`, training_samples.py:67-74 -/
def vectorizeSentence {α} [Zero α] (code : Char → Nat) (vec : Str → List α) (tokens : List Str) :
    Except PyErr (Nat × List (List Nat) × List (List α)) := do
  if tokens.length > maxSentLength then throw .sentenceTooLong
  let ts := [c!"ʃʃʃ"] ++ tokens ++ [c!"ʄʄʄ"]
  let cc ← padCharCodes (ts.map (encodeChars code))
  let wv ← padWordVectors (ts.map vec)
  return (ts.length, cc, wv)

/-- `_tag_ids`, training_samples.py:82-84 -/
def tagIds (tags : List Tag) : Except PyErr (List Nat) :=
  padArray ([Tag.PAD.code] ++ tags.map Tag.code ++ [Tag.PAD.code]) paddedSentLength

/-- `_dep_ids`, training_samples.py:86-88 -/
def depIds (deps : List Dep) : Except PyErr (List Nat) :=
  padArray ([Dep.PAD.code] ++ deps.map Dep.code ++ [Dep.PAD.code]) paddedSentLength

/-- `TransSample`, training_samples.py:115-128: all materials of one transition sample. -/
def transSample {α} [Zero α] (code : Char → Nat) (vec : Str → List α) (tokens : List Str) (tags : List Tag)
    (deps : List Dep) (i₁ i₂ : Nat) (tr : Trans) :
    Except PyErr (List Nat × List Nat × List (List Nat) × List (List α) × List Bool × List Bool × Trans) := do
  let v ← vectorizeSentence code vec tokens
  let t ← tagIds tags
  let d ← depIds deps
  let m ← makeMasks (i₁ + 1) (i₂ + 1)
  return (t, d, v.2.1, v.2.2, m.1, m.2, tr)

/-! ### tagger.py -/

/-- `Tagger.tag`, tagger.py:21-25; unpacking `zip(*[])` is a `ValueError`. `W` is the type of (char codes, word
vectors). -/
def taggerTag {W S} (vectorize : S → Except PyErr (Nat × W)) (model : List W → List (List Nat)) (sentences : List S) :
    Except PyErr (List (List Tag)) := do
  let data ← sentences.mapM vectorize
  if data = [] then throw .value
  let codes := model (data.map Prod.snd)
  (data.map Prod.fst).zipIdx.mapM fun (s : Nat × Nat) => do
    let row ← index codes (s.2 : Int)
    (slice row 1 ((s.1 : Int) + 1)).mapM Tag.ofCode

end Model
