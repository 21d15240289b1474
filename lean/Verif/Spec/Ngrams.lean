import Verif.Py.Basic
import Mathlib.Data.List.Dedup

/-! Specification vocabulary for n-gram counting, independent of the model. -/

namespace Spec
open Py

/-- All windows of `n` consecutive items, left to right. -/
def windows {α} (n : Nat) (l : List α) : List (List α) :=
  (List.range (l.length + 1 - n)).map fun k => (l.drop k).take n

/-- A token that may occur in an n-gram: `I`, or ASCII letters not starting with a capital. -/
def PlainWord (t : Str) : Prop :=
  t = ['I'] ∨ (t ≠ [] ∧ (∀ c ∈ t, c.isAlpha = true) ∧ ∀ c, t.head? = some c → c.isUpper = false)

instance (t : Str) : Decidable (PlainWord t) := by
  unfold PlainWord
  have : Decidable (∀ c, t.head? = some c → c.isUpper = false) := by
    cases h : t.head? with
    | none => exact isTrue (by simp)
    | some c => exact decidable_of_iff (c.isUpper = false) (by simp)
  infer_instance

/-- The text of a window: words separated by one blank, lower-cased. -/
def windowText (w : List Str) : Str := (List.intercalate [' '] w).map Char.toLower

/-- The n-gram texts of a text (list of sentences), sentence by sentence. -/
def ngramTexts (n : Nat) (sents : List (List Str)) : List Str :=
  sents.flatMap fun l => ((windows n l).filter fun w => ∀ t ∈ w, PlainWord t).map windowText

/-- Every n-gram text of a corpus, for orders `1..N`, in reading order. -/
def corpusTexts (N : Nat) (texts : List (List (List Str))) : List Str :=
  texts.flatMap fun sents => (List.range N).flatMap fun n => ngramTexts (n + 1) sents

end Spec

namespace Spec
open Py

/-- The distinct items of a list in order of first occurrence. -/
def distinctInOrder {α} [DecidableEq α] (l : List α) : List α := l.reverse.dedup.reverse

end Spec
