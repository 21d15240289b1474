import Verif.Py.Basic

/-! More python string primitives: white space, `split()`, `strip()`, `zip`. -/

namespace Py

/-- White space as understood by `str.split()`, `str.strip()` and `str.isspace()`. -/
def isSpace (c : Char) : Bool :=
  let n := c.toNat
  (9 ≤ n && n ≤ 13) || (28 ≤ n && n ≤ 32) || n == 0x85 || n == 0xA0 || n == 0x1680 || (0x2000 ≤ n && n ≤ 0x200A) ||
    n == 0x2028 || n == 0x2029 || n == 0x202F || n == 0x205F || n == 0x3000

/-- Auxiliary for `splitWs`: characters of the current word in reverse. -/
def splitWsAux : Str → Str → List Str
  | [], cur => if cur.isEmpty then [] else [cur.reverse]
  | c :: cs, cur =>
    if isSpace c then (if cur.isEmpty then splitWsAux cs [] else cur.reverse :: splitWsAux cs [])
    else splitWsAux cs (c :: cur)

/-- `text.split()` -/
def splitWs (t : Str) : List Str := splitWsAux t []

/-- `text.strip()` -/
def strip (t : Str) : Str := ((t.dropWhile isSpace).reverse.dropWhile isSpace).reverse

/-- Rounds of `zip`: as long as no iterator is exhausted, the tuple of the next items. -/
def zipStarAux {α} : Nat → List (List α) → List (List α)
  | 0, _ => []
  | k + 1, ls =>
    if ls.all (fun l => !l.isEmpty) then ls.filterMap List.head? :: zipStarAux k (ls.map List.tail) else []

/-- `list(zip(*lists))`; `zip()` is empty. -/
def zipStar {α} (ls : List (List α)) : List (List α) :=
  match ls with
  | [] => []
  | l :: _ => zipStarAux l.length ls

/-- `[x for x in l if f(x)]` with a condition that may raise. -/
def filterE {α} (f : α → Except PyErr Bool) : List α → Except PyErr (List α)
  | [] => .ok []
  | x :: l => do
    let b ← f x
    let r ← filterE f l
    return if b then x :: r else r

/-! ### Counters -/

/-- `collections.Counter`: a missing key counts 0. -/
abbrev Counter (κ : Type) := Dict κ Nat

/-- `counter[k]` (does not insert). -/
def Counter.get0 {κ} [DecidableEq κ] (d : Counter κ) (k : κ) : Nat := (Dict.get? d k).getD 0

/-- `counter[k] += 1` -/
def Counter.incr {κ} [DecidableEq κ] (d : Counter κ) (k : κ) : Counter κ := Dict.set d k (Counter.get0 d k + 1)

end Py
