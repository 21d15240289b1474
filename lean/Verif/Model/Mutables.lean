import Verif.Py.Basic
import Mathlib.Data.Rat.Floor

/-! Model of `scrappybara/utils/mutables.py`. -/

namespace Model
open Py

/-- Floating point rounding as used by numpy's `linspace` (binary64): monotone, exact on integers up to 2^53, with
relative error at most 2^-53. `Rounding.exact` is exact arithmetic. -/
structure Rounding where
  fl : ℚ → ℚ
  mono : ∀ {x y : ℚ}, x ≤ y → fl x ≤ fl y
  nat : ∀ n : ℕ, n ≤ 2 ^ 53 → fl n = n
  err : ∀ x : ℚ, 0 ≤ x → |fl x - x| ≤ x / 2 ^ 53

/-- Exact arithmetic. -/
def Rounding.exact : Rounding where
  fl := id
  mono := id
  nat := fun _ _ => rfl
  err := fun x hx => by
    simp only [id, sub_self, abs_zero]
    exact div_nonneg hx (by norm_num)

/-- python `int(x)` on a float: truncation toward zero. -/
def pyInt (x : ℚ) : Int := if 0 ≤ x then ⌊x⌋ else ⌈x⌉

/-- Element `i` of `np.linspace(0, n, num=k + 1)`: `i * step` with `step = n / k`, both rounded; the last element is
`n` itself. mutables.py:10 -/
def linspaceMark (R : Rounding) (n k i : ℕ) : ℚ :=
  if i = k then n else R.fl (i * R.fl (n / k))

/-- `divide_list`, mutables.py:4-15 -/
def divideList {α} (R : Rounding) (items : List α) (nbLists : Int) : Except PyErr (List (List α)) :=
  if 0 < nbLists then
    let k := nbLists.toNat
    if k ≤ items.length then
      .ok ((List.range k).map fun i =>
        slice items (pyInt (linspaceMark R items.length k i)) (pyInt (linspaceMark R items.length k (i + 1))))
    else
      .ok (items.map fun x => [x])
  else .error .assertion

/-- python `range(0, n, step)`: `ValueError` for step 0, empty for a negative step (as `0 ≤ n`). -/
def pyRange (n : ℕ) (step : Int) : Except PyErr (List Int) :=
  if step = 0 then .error .value
  else if step < 0 then .ok []
  else .ok ((List.range ((n + step.toNat - 1) / step.toNat)).map fun i : Nat => (i : Int) * step)

/-- `make_batches`, mutables.py:18-19 -/
def makeBatches {α} (items : List α) (n : Int) : Except PyErr (List (List α)) := do
  let starts ← pyRange items.length n
  return starts.map fun i => slice items i (i + n)

/-- `append_to_dict_list`, mutables.py:22-27 -/
def appendToDictList {κ ι} [DecidableEq κ] (d : Dict κ (List ι)) (k : κ) (x : ι) : Dict κ (List ι) :=
  match d.get? k with
  | some l => d.set k (l ++ [x])
  | none => d.set k [x]

/-- `append_in_dict_dict_list`, mutables.py:38-46 -/
def appendInDictDictList {κ₁ κ₂ ι} [DecidableEq κ₁] [DecidableEq κ₂] (d : Dict κ₁ (Dict κ₂ (List ι)))
    (k₁ : κ₁) (k₂ : κ₂) (x : ι) : Dict κ₁ (Dict κ₂ (List ι)) :=
  match d.get? k₁ with
  | some e =>
    match e.get? k₂ with
    | some l => d.set k₁ (e.set k₂ (l ++ [x]))
    | none => d.set k₁ (e.set k₂ [x])
  | none => d.set k₁ [(k₂, [x])]

/-- `reverse_dict`, mutables.py:49-50 -/
def reverseDict {κ ν} [DecidableEq ν] (d : Dict κ ν) : Dict ν κ :=
  Dict.ofPairs (d.map fun p => (p.2, p.1))

end Model
