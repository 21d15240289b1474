import Verif.Py.Basic
import Mathlib.Order.WithBot
import Mathlib.Data.Rat.Defs
import Mathlib.Algebra.Order.Ring.Unbundled.Rat

/-! Specification vocabulary for the language model, independent of the model. -/

namespace Spec
open Py

/-- `out` is `l` in descending order of key, items of equal key in their original order. -/
structure StableDesc {α κ} [LinearOrder κ] (key : α → κ) (l out : List α) : Prop where
  perm : out.Perm l
  sorted : out.Pairwise fun a b => key b ≤ key a
  stable : ∀ v, out.filter (fun a => decide (key a = v)) = l.filter fun a => decide (key a = v)

/-- `r` is the first item of `l` among those with the greatest key. -/
def FirstMax {α κ} [LinearOrder κ] (key : α → κ) (l : List α) (r : α) : Prop :=
  ∃ pre post, l = pre ++ r :: post ∧ (∀ x ∈ pre, key x < key r) ∧ ∀ x ∈ post, key x ≤ key r

/-- The value of the last pair for a key. -/
def lastFor {κ ν} [DecidableEq κ] (rows : List (κ × ν)) (k : κ) : Option ν :=
  ((rows.filter fun r => r.1 = k).getLast?).map Prod.snd

/-- The windows of `n` consecutive words of a text that contain position `i`, left to right. -/
def windowsAround (n : Nat) (words : List Str) (i : Nat) : List (List Str) :=
  ((List.range (words.length + 1 - n)).filter fun k => k ≤ i ∧ i < k + n).map fun k => (words.drop k).take n

/-- The greatest of a list of log-probabilities, `-inf` when it is empty. -/
def best (l : List (WithBot ℚ)) : WithBot ℚ := l.foldr max ⊥

/-- Comparison of vectors of the same length: equal, or smaller at the first difference. -/
def LexLe {κ} [LinearOrder κ] (a b : List κ) : Prop :=
  a = b ∨ ∃ pre x y as bs, a = pre ++ x :: as ∧ b = pre ++ y :: bs ∧ x < y

/-- The last `i` items of a list, all of them when there are fewer. -/
def suffixN {α} (i : Nat) (l : List α) : List α := l.drop (l.length - i)

/-- Cut to a limit: no limit, the first `k` items, or all but the last `k` ones for a limit `-k`. -/
def Cut {α} (l : List α) : Option Int → List α → Prop
  | none, out => out = l
  | some k, out => (0 ≤ k ∧ out = l.take k.toNat) ∨ (k < 0 ∧ out = l.take (l.length - (-k).toNat))

end Spec
