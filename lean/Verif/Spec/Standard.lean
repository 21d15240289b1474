import Verif.Spec.Normalization

/-! The standard spelling of a word. -/

namespace Spec
open Py

/-- No alternative of the family is known. -/
def Spelling.Undecided (f : Spelling) (known : Str → Bool) (token : Str) : Prop :=
  ∀ s m e, f.Cut token s m e → ∀ g ∈ f.ngrams s m e, known g = false

/-- `a e` does not occur in the word, or the word is too short, or it is not known, with and without `a`. -/
def LigatureUndecided (a : Char) (known : Str → Bool) (token : Str) : Prop :=
  5 ≤ token.length → [a, 'e'] <:+: token → ∀ u, Replaced a 'e' ['e'] token u → known u = false ∧ known token = false

/-- The standard spelling of a word: words that are often seen are kept; the first family that decides respells it, in the order
`-our`, `-ise`, `-ce`, `-ogue`, `-ell-`, `ae`, `oe`. -/
inductive Standard (known : Str → Bool) (logp : Str → WithBot ℚ) (often : Str → Bool) (token : Str) : Str → Prop
  | often : often token = true → Standard known logp often token token
  | family (pre : List Spelling) (f : Spelling) (post : List Spelling) (out : Str) : often token = false →
      spellings = pre ++ f :: post → (∀ g ∈ pre, g.Undecided known token) → f.Respelled known logp token out →
      Standard known logp often token out
  | ae (out : Str) : often token = false → (∀ f ∈ spellings, f.Undecided known token) → Ligature 'a' known logp token out →
      Standard known logp often token out
  | oe (out : Str) : often token = false → (∀ f ∈ spellings, f.Undecided known token) → LigatureUndecided 'a' known token →
      Ligature 'o' known logp token out → Standard known logp often token out
  | kept : often token = false → (∀ f ∈ spellings, f.Undecided known token) → LigatureUndecided 'a' known token →
      LigatureUndecided 'o' known token → Standard known logp often token token

/-- The start of a word in `-ce` or `-se` ends neither with `i` nor with `y`. -/
def NotIze (s : Str) : Prop := ∀ c, s.getLast? = some c → ¬ SameLetter 'i' c ∧ ¬ SameLetter 'y' c

/-- A family decides on a word cut in three: some alternative is known, and no earlier family is concerned. -/
def Spelling.Decides (f : Spelling) (known : Str → Bool) (token s m e : Str) : Prop :=
  f ∈ spellings ∧ f.Cut token s m e ∧ (∃ g ∈ f.ngrams s m e, known g = true) ∧ (f.middles = [c!"c", c!"s"] → NotIze s)

end Spec
