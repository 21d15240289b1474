import Verif.Spec.LangModel

/-! Specification vocabulary for standardization, independent of the model. -/

namespace Spec
open Py

/-- `c` is the lower-case ASCII letter `p`, its capital, or one of the four other characters that a case-insensitive
regular expression takes for `i`, `s` or `k`. -/
def SameLetter (p c : Char) : Prop :=
  c = p ∨ ('A' ≤ c ∧ c ≤ 'Z' ∧ c.toNat + 32 = p.toNat) ∨ (p = 'i' ∧ (c = '\u0130' ∨ c = '\u0131')) ∨
    (p = 's' ∧ c = '\u017F') ∨ (p = 'k' ∧ c = '\u212A')

/-- `text` spells `word`, ignoring case. -/
def Spells (word text : Str) : Prop := List.Forall₂ SameLetter word text

/-- A family of spellings: the spellings of its middle, the endings that may follow, the alternatives for the middle and
what follows the middle in the n-grams that decide. -/
structure Spelling where
  middles : List Str
  endings : List Str
  alts : Str → List Str
  tail : Str → Str

/-- A token of a family, cut in three; its start has three letters or more. -/
structure Spelling.Cut (f : Spelling) (token s m e : Str) : Prop where
  append : token = s ++ m ++ e
  letters : ∀ c ∈ s, ∃ p, 'a' ≤ p ∧ p ≤ 'z' ∧ SameLetter p c
  long : 3 ≤ s.length
  middle : ∃ l ∈ f.middles, Spells l m
  ending : ∃ l ∈ f.endings, Spells l e

/-- The n-grams that decide for a cut. -/
def Spelling.ngrams (f : Spelling) (s m e : Str) : List Str := (f.alts m).map fun x => s ++ x ++ f.tail e

/-- `out` is the token with the middle respelled to the most probable alternative, which is known. -/
def Spelling.Respelled (f : Spelling) (known : Str → Bool) (logp : Str → WithBot ℚ) (token out : Str) : Prop :=
  ∃ s m e x, f.Cut token s m e ∧ x ∈ f.alts m ∧ out = s ++ x ++ e ∧ known (s ++ x ++ f.tail e) = true ∧
    FirstMax logp (f.ngrams s m e) (s ++ x ++ f.tail e)

/-- colour or color -/
def spellingOr : Spelling :=
  ⟨[c!"our", c!"or"], [c!"ing", c!"ed", c!"s", c!""], fun _ => [c!"or", c!"our"], fun _ => []⟩
/-- standardise or standardize, analyse or analyze -/
def spellingIze : Spelling :=
  ⟨[c!"ys", c!"yz", c!"is", c!"iz"], [c!"ations", c!"ation", c!"ers", c!"er", c!"ing", c!"ed", c!"es", c!"e"],
   fun m => [m.take 1 ++ c!"z", m.take 1 ++ c!"s"], fun _ => c!"e"⟩
/-- defence or defense -/
def spellingCe : Spelling :=
  ⟨[c!"c", c!"s"], [c!"ives", c!"ive", c!"es", c!"e"], fun _ => [c!"s", c!"c"], fun _ => c!"e"⟩
/-- catalog or catalogue -/
def spellingOgue : Spelling :=
  ⟨[c!"og", c!"ogue"], [c!"s", c!""], fun _ => [c!"og", c!"ogue"], fun _ => []⟩
/-- traveled or travelled -/
def spellingEl : Spelling :=
  ⟨[c!"el", c!"ell"], [c!"ing", c!"ers", c!"ed", c!"er"], fun _ => [c!"el", c!"ell"], fun e => e⟩

def spellings : List Spelling := [spellingOr, spellingIze, spellingCe, spellingOgue, spellingEl]

/-- Every occurrence of the characters `a b` replaced. -/
inductive Replaced (a b : Char) (new : Str) : Str → Str → Prop
  | done (t : Str) : ¬ [a, b] <:+: t → Replaced a b new t t
  | step (p t u : Str) : ¬ [a, b] <:+: p → Replaced a b new t u → Replaced a b new (p ++ [a, b] ++ t) (p ++ new ++ u)

/-- leukaemia or leukemia, oestrogen or estrogen: `a e` or `o e` written `e` everywhere in a token of five characters or
more, or kept, whichever the model finds more probable. -/
def Ligature (a : Char) (known : Str → Bool) (logp : Str → WithBot ℚ) (token out : Str) : Prop :=
  5 ≤ token.length ∧ [a, 'e'] <:+: token ∧ ∃ u, Replaced a 'e' ['e'] token u ∧ known out = true ∧
    FirstMax logp [u, token] out

end Spec
