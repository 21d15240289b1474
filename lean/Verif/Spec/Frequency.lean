import Verif.Spec.Builder
import Verif.Spec.LangModel

/-! Specification vocabulary for answers by frequency, independent of the model. -/

namespace Spec
open Py

/-- The distinct items of a list that occur at least `least` times in it, in order of first occurrence. -/
def enough (l : List Str) (least : Int) : List Str := (distinctInOrder l).filter fun t => decide (least ≤ (l.count t : Int))

/-- `out` lists the items that occur at least `least` times, the most frequent ones first, equally frequent ones in order
of first occurrence. -/
def ByFrequency (l : List Str) (least : Int) (out : List Str) : Prop := StableDesc (fun t => l.count t) (enough l least) out

/-- Every word that comes after the words `ctx` in the texts, in reading order and in lower case. -/
def followers (ctx : List Str) (texts : List (List (List Str))) : List Str :=
  texts.flatMap fun sents => sents.flatMap fun l =>
    ((windows (ctx.length + 1) l).filter fun w =>
      (∀ t ∈ w, PlainWord t) ∧ w.dropLast.map (List.map Char.toLower) = ctx).map fun w =>
        ((w.getLast?).getD []).map Char.toLower

/-- How often an n-gram of order `n` occurs in the texts, 0 when that is less than `least`. -/
def seen (n : Nat) (least : Int) (texts : List (List (List Str))) (t : Str) : Nat :=
  if least ≤ ((orderTexts n texts).count t : Int) then (orderTexts n texts).count t else 0

/-- What the texts say for a token in a context: for the orders `N, …, 2` how often the most frequent n-gram of that
order around the token was seen, then how often the token itself was. -/
def support (leasts : List Int) (texts : List (List (List Str))) (before after : List Str) (t : Str) : List Nat :=
  ((List.range (leasts.length - 1)).map fun k =>
    (((windowsAround (leasts.length - k) (before ++ [t] ++ after) before.length).map fun w =>
      seen (leasts.length - k) (leasts.getD (leasts.length - k - 1) 0) texts (List.intercalate c!" " w)).foldr max 0)) ++
  [seen 1 (leasts.getD 0 0) texts t]

end Spec
