import Verif.Py.Basic
import Verif.Model.Multithreading
import Mathlib.Algebra.BigOperators.Group.List.Basic
import Mathlib.Data.Rat.Defs

/-! Specification vocabulary for the probability estimators, independent of the smoothers' code.
A vocabulary is a list of distinct n-grams (lists of words) with their counts. -/

namespace Spec
open Py Model

/-- A call driven by one thread schedule per order: whatever the schedules it does not raise, what it returns
satisfies `P`, and any schedules can be continued so that it returns. -/
def Returns {α} (call : (Nat → List Move) → Except PyErr (Option α)) (P : α → Prop) : Prop :=
  (∀ sched : Nat → List Move, call sched = .ok none ∨ ∃ a, call sched = .ok (some a) ∧ P a) ∧
  (∀ sched : Nat → List Move, ∃ more : Nat → List Move, ∃ a, call (fun o => sched o ++ more o) = .ok (some a))

/-- n-grams with counts. -/
abbrev Vocab := List (List Str × Nat)

/-- Count of an n-gram; 0 when unknown. -/
def Vocab.count (V : Vocab) (ts : List Str) : Nat := ((V.find? fun e => e.1 = ts).map Prod.snd).getD 0

/-- Number of n-grams of order `n` with count `c`. -/
def Vocab.nCount (V : Vocab) (n c : Nat) : Nat := V.countP fun e => e.1.length = n ∧ e.2 = c

/-- Number of n-grams `• ts`: one word followed by `ts`. -/
def Vocab.before (V : Vocab) (ts : List Str) : Nat :=
  V.countP fun e => e.1.length = ts.length + 1 ∧ e.1.drop 1 = ts

/-- Number of n-grams `• ts •`. -/
def Vocab.around (V : Vocab) (ts : List Str) : Nat :=
  V.countP fun e => e.1.length = ts.length + 2 ∧ (e.1.drop 1).take ts.length = ts

/-- Number of n-grams `ts •` whose count satisfies `P`. -/
def Vocab.after (V : Vocab) (ts : List Str) (P : Nat → Bool) : Nat :=
  V.countP fun e => e.1.length = ts.length + 1 ∧ e.1.take ts.length = ts ∧ P e.2 = true

/-- Number of distinct n-grams of order `n`. -/
def Vocab.types (V : Vocab) (n : Nat) : Nat := V.countP fun e => e.1.length = n

/-- `Y = n1 / (n1 + 2 n2)` -/
def Vocab.Y (V : Vocab) (n : Nat) : ℚ := V.nCount n 1 / (V.nCount n 1 + 2 * V.nCount n 2)
/-- Discount of n-grams seen once. -/
def Vocab.D1 (V : Vocab) (n : Nat) : ℚ := 1 - 2 * V.Y n * V.nCount n 2 / V.nCount n 1
/-- Discount of n-grams seen twice. -/
def Vocab.D2 (V : Vocab) (n : Nat) : ℚ := 2 - 3 * V.Y n * V.nCount n 3 / V.nCount n 2
/-- Discount of n-grams seen more often. -/
def Vocab.D3 (V : Vocab) (n : Nat) : ℚ := 3 - 4 * V.Y n * V.nCount n 4 / V.nCount n 3

/-- `D(c)` for order `n`. -/
def Vocab.D (V : Vocab) (n : Nat) : Nat → ℚ
  | 0 => 0
  | 1 => V.D1 n
  | 2 => V.D2 n
  | _ => V.D3 n

/-- Numerator of the backoff weight of a context for order `n`. -/
def Vocab.backoff (V : Vocab) (n : Nat) (ctx : List Str) : ℚ :=
  V.after ctx (· == 1) * V.D1 n + V.after ctx (· == 2) * V.D2 n + V.after ctx (fun c => c ≠ 1 ∧ c ≠ 2) * V.D3 n

/-- Lower order (continuation) probability of the last word of `ts` after the others. -/
def Vocab.pCont (V : Vocab) : List Str → ℚ
  | [] => 0
  | [w] => V.before [w] / V.types 2
  | w :: v :: ts =>
    let gram := w :: v :: ts
    let n := gram.length
    max (V.before gram - V.D (n + 1) (V.before gram)) 0 / V.around gram.dropLast +
      V.backoff n gram.dropLast / V.around gram.dropLast * V.pCont (v :: ts)

/-- Highest order probability of an n-gram of at least two words. -/
def Vocab.pTop (V : Vocab) (gram : List Str) : ℚ :=
  max (V.count gram - V.D gram.length (V.count gram)) 0 / V.count gram.dropLast +
    V.backoff gram.length gram.dropLast / V.count gram.dropLast * V.pCont gram.tail

/-- Some order `2..N` lacks n-grams of count 1, 2, 3 or 4. -/
def Vocab.Poor (V : Vocab) (N : Nat) : Prop :=
  ∃ n, 2 ≤ n ∧ n ≤ N ∧ ∃ c, 1 ≤ c ∧ c ≤ 4 ∧ ∀ e ∈ V, ¬ (e.1.length = n ∧ e.2 = c)

end Spec
