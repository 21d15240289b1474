import Mathlib.Order.WithBot
import Mathlib.Data.Rat.Defs
import Mathlib.Algebra.Order.Ring.Unbundled.Rat
import Verif.Py.Basic

/-! Python sorting and tuple comparison. -/

namespace Py

/-- Insertion of an item before the items with a key that is not greater. -/
def insertDesc {α κ} [LinearOrder κ] (key : α → κ) (x : α) : List α → List α
  | [] => [x]
  | y :: l => if key y ≤ key x then x :: y :: l else y :: insertDesc key x l

/-- `sorted(l, key=key, reverse=True)`: descending, items with equal keys in their original order. -/
def sortDesc {α κ} [LinearOrder κ] (key : α → κ) (l : List α) : List α := l.foldr (insertDesc key) []

/-- `a < b` on tuples: lexicographic. -/
def tupleLt {κ} [LinearOrder κ] : List κ → List κ → Bool
  | _, [] => false
  | [], _ :: _ => true
  | a :: as, b :: bs => if a = b then tupleLt as bs else decide (a < b)

/-- `max(l)` for a comparison: the first item that no later one exceeds; `ValueError` on an empty list. -/
def pyMax {α} (lt : α → α → Bool) : List α → Except PyErr α
  | [] => .error .value
  | x :: l => .ok (l.foldl (fun m y => if lt m y then y else m) x)

/-- `l[:limit]` where `limit` may be `None`. -/
def sliceLimit {α} (l : List α) : Option Int → List α
  | none => l
  | some k => sliceTo l k

end Py
