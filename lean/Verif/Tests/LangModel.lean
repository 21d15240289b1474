import Verif.Model.Testing
import Verif.Model.Builder
import Verif.Model.LangModel

/-! The tests of `/repo/tests/test_token_context.py`, `test_mkn_smoother.py` and `test_language_model_builder.py`,
evaluated in the model. Written by `tools/gen_tests.py`. -/

namespace Tests
open Py Model

/-- `test_1` of `test_token_context.py` -/
example : (⟨c!"F3", [c!"L1", c!"L2"], [c!"R4", c!"R5"]⟩ : TokenContext).candidates 1 = .error .assertion := by
  decide +kernel

/-- `test_1` of `test_token_context.py` -/
example : (⟨c!"F3", [c!"L1", c!"L2"], [c!"R4", c!"R5"]⟩ : TokenContext).candidates 3 = .ok [c!"L1 L2 F3", c!"L2 F3 R4", c!"F3 R4 R5"] := by
  decide +kernel

/-- `test_1` of `test_token_context.py` -/
example : (⟨c!"F3", [c!"L1", c!"L2"], [c!"R4", c!"R5"]⟩ : TokenContext).candidates 2 = .ok [c!"L2 F3", c!"F3 R4"] := by
  decide +kernel

/-- `test_2` of `test_token_context.py` -/
example : (⟨c!"F3", [c!"L1", c!"L2"], [c!"R4"]⟩ : TokenContext).candidates 3 = .ok [c!"L1 L2 F3", c!"L2 F3 R4"] := by
  decide +kernel

/-- `test_2` of `test_token_context.py` -/
example : (⟨c!"F3", [c!"L1", c!"L2"], [c!"R4"]⟩ : TokenContext).candidates 2 = .ok [c!"L2 F3", c!"F3 R4"] := by
  decide +kernel

/-- `test_3` of `test_token_context.py` -/
example : (⟨c!"F3", [c!"L2"], [c!"R4"]⟩ : TokenContext).candidates 3 = .ok [c!"L2 F3 R4"] := by
  decide +kernel

/-- `test_3` of `test_token_context.py` -/
example : (⟨c!"F3", [c!"L2"], [c!"R4"]⟩ : TokenContext).candidates 2 = .ok [c!"L2 F3", c!"F3 R4"] := by
  decide +kernel

/-- `test_4` of `test_token_context.py` -/
example : (⟨c!"F3", [], []⟩ : TokenContext).candidates 3 = .ok [] := by
  decide +kernel

/-- `test_4` of `test_token_context.py` -/
example : (⟨c!"F3", [], []⟩ : TokenContext).candidates 2 = .ok [] := by
  decide +kernel

/-- The corpus of `test_mkn_smoother.py`. -/
def corpus : List (List Str) :=
  [[c!"this", c!"is", c!"a", c!"list", c!"containing", c!"the", c!"tallest", c!"buildings", c!"in", c!"blobby", c!"land", c!"."],
    [c!"the", c!"classic", c!"pyramid", c!"is", c!"the", c!"tallest", c!"building", c!"in", c!"blobby", c!"land", c!"."],
    [c!"the", c!"classic", c!"hotel", c!"is", c!"the", c!"tallest", c!"tower", c!"in", c!"blobby", c!"land", c!"."],
    [c!"the", c!"classic", c!"tower", c!"is", c!"the", c!"lowest", c!"tower", c!"in", c!"blobby", c!"land", c!"."],
    [c!"the", c!"pyramid", c!"is", c!"the", c!"tallest", c!"tower", c!"in", c!"blobby", c!"!"],
    [c!"this", c!"is", c!"the", c!"classic", c!"pyramid", c!"."],
    [c!"this", c!"is", c!"a", c!"hotel", c!"list", c!"."]]

/-- The store after `make_ngram` for the 1-grams, 2-grams and 3-grams of every text. -/
def corpusStore : Except PyErr Store := corpus.foldlM (fun s t => addText 3 s [t]) []

/-- `assertAlmostEqual`: the difference rounds to 0 at 7 decimals. -/
def Almost (expected found : ℚ) : Prop := 2 * 10 ^ 7 * |expected - found| ≤ 1

instance (a b : ℚ) : Decidable (Almost a b) := by unfold Almost; infer_instance

/-- The smoother of the test. -/
def smoother : Except PyErr Mkn := do
  let store ← corpusStore
  mknInit (store.map Prod.snd) 3

/-- The order has no discounts: `KeyError`. -/
def Undiscounted (order : Nat) : Prop :=
  match smoother with
  | .ok m => (match Dict.get m.disc order with | .error _ => True | .ok _ => False)
  | .error _ => False

instance (order : Nat) : Decidable (Undiscounted order) := by
  unfold Undiscounted; split <;> first | (split <;> infer_instance) | infer_instance

/-- No discounts for order 1. -/
example : Undiscounted 1 := by decide +kernel

/-- The three discounts of an order are almost the given ones. -/
def Discounted (order : Nat) (d1 d2 d3 : ℚ) : Prop :=
  match smoother >>= fun m => Dict.get m.disc order with
  | .ok d => Almost d1 d.d1 ∧ Almost d2 d.d2 ∧ Almost d3 d.d3
  | .error _ => False

instance (order : Nat) (d1 d2 d3 : ℚ) : Decidable (Discounted order d1 d2 d3) := by
  unfold Discounted; split <;> infer_instance

/-- Discounts of order 2. -/
example : Discounted 2 (mkRat 6666666667 (10 ^ 10)) (mkRat 10000000000 (10 ^ 10)) (mkRat (-10000000000) (10 ^ 10)) := by
  decide +kernel

/-- Discounts of order 3. -/
example : Discounted 3 (mkRat 7142857143 (10 ^ 10)) (mkRat 1142857143 (10 ^ 9)) (mkRat 1571428571 (10 ^ 9)) := by
  decide +kernel

/-- A single worker takes the task, runs it and stops. -/
def alone : List Move := [.main] ++ List.replicate 3 (.worker 0) ++ [.main, .main]

/-- The n-grams of an order with their probabilities, with one process. -/
def smoothed (order : Nat) : Except PyErr (Option (List (Str × Num))) := do
  let m ← smoother
  let u ← m.calcUnigramProbas Rounding.exact 1 alone
  match u with
  | none => return none
  | some (ps, uni) => do
    let r ← (if order = 1 then .ok (some ps) else m.calcHigherOrderProbas Rounding.exact 1 alone uni order)
    return r.map fun l => (((Dict.get? m.counts.lm order).getD []).map Ngram.text).zip l

/-- As many probabilities as expected, and those of the given n-grams are almost the given ones. -/
def Smoothed (order size : Nat) (expected : List (Str × ℚ)) : Prop :=
  match smoothed order with
  | .ok (some l) => l.length = size ∧ ∀ e ∈ expected, ∃ p ∈ l, p.1 = e.1 ∧ ∃ v ∈ p.2.toList, Almost e.2 v
  | _ => False

instance (order size : Nat) (expected : List (Str × ℚ)) : Decidable (Smoothed order size expected) := by
  unfold Smoothed; split <;> infer_instance

/-- Probabilities of order 1. -/
example : Smoothed 1 17
    [(c!"the", (mkRat 74074074 (10 ^ 9))), (c!"is", (mkRat 148148148 (10 ^ 9))), (c!"in", (mkRat 111111111 (10 ^ 9))), (c!"blobby",
      (mkRat 37037037 (10 ^ 9))), (c!"tallest", (mkRat 37037037 (10 ^ 9))), (c!"land", (mkRat 37037037 (10 ^ 9))),
      (c!"classic", (mkRat 37037037 (10 ^ 9))), (c!"tower", (mkRat 111111111 (10 ^ 9))), (c!"this", (mkRat 0 (10 ^ 1))),
      (c!"pyramid", (mkRat 74074074 (10 ^ 9))), (c!"a", (mkRat 37037037 (10 ^ 9))), (c!"list", (mkRat 74074074 (10 ^ 9))),
      (c!"hotel", (mkRat 74074074 (10 ^ 9))), (c!"containing", (mkRat 37037037 (10 ^ 9))), (c!"buildings",
      (mkRat 37037037 (10 ^ 9))), (c!"building", (mkRat 37037037 (10 ^ 9))), (c!"lowest", (mkRat 37037037 (10 ^ 9)))] := by
  decide +kernel

/-- Probabilities of order 2. -/
example : Smoothed 2 27
    [(c!"in blobby", (mkRat 119259259 (10 ^ 8))), (c!"is the", (mkRat 85714286 (10 ^ 8))), (c!"the tallest",
      (mkRat 49753086 (10 ^ 8))), (c!"blobby land", (mkRat 99259259 (10 ^ 8))), (c!"the classic", (mkRat 49753086 (10 ^ 8))),
      (c!"this is", (mkRat 128395062 (10 ^ 8))), (c!"tower in", (mkRat 99074074 (10 ^ 8))), (c!"is a",
      (mkRat 14285714 (10 ^ 8))), (c!"classic pyramid", (mkRat 29320988 (10 ^ 8))), (c!"pyramid is",
      (mkRat 38271605 (10 ^ 8))), (c!"tallest tower", (mkRat 31481481 (10 ^ 8))), (c!"a list", (mkRat 21604938 (10 ^ 8))),
      (c!"list containing", (mkRat 17901235 (10 ^ 8))), (c!"containing the", (mkRat 38271605 (10 ^ 8))),
      (c!"tallest buildings", (mkRat 10493827 (10 ^ 8))), (c!"buildings in", (mkRat 40740741 (10 ^ 8))), (c!"tallest building",
      (mkRat 10493827 (10 ^ 8))), (c!"building in", (mkRat 40740741 (10 ^ 8))), (c!"classic hotel", (mkRat 12654321 (10 ^ 8))),
      (c!"hotel is", (mkRat 26543210 (10 ^ 8))), (c!"classic tower", (mkRat 14814815 (10 ^ 8))), (c!"tower is",
      (mkRat 7098765 (10 ^ 8))), (c!"the lowest", (mkRat 3086420 (10 ^ 8))), (c!"lowest tower", (mkRat 40740741 (10 ^ 8))),
      (c!"the pyramid", (mkRat 2839506 (10 ^ 8))), (c!"a hotel", (mkRat 21604938 (10 ^ 8))), (c!"hotel list",
      (mkRat 21604938 (10 ^ 8)))] := by
  decide +kernel

/-- Probabilities of order 3. -/
example : Smoothed 3 33
    [(c!"in blobby land", (mkRat 56386999 (10 ^ 8))), (c!"is the tallest", (mkRat 41058201 (10 ^ 8))), (c!"tower in blobby",
      (mkRat 71915680 (10 ^ 8))), (c!"this is a", (mkRat 32108844 (10 ^ 8))), (c!"the classic pyramid",
      (mkRat 31254724 (10 ^ 8))), (c!"pyramid is the", (mkRat 70612245 (10 ^ 8))), (c!"the tallest tower",
      (mkRat 33106576 (10 ^ 8))), (c!"tallest tower in", (mkRat 58478206 (10 ^ 8))), (c!"is a list",
      (mkRat 28017133 (10 ^ 8))), (c!"a list containing", (mkRat 50743260 (10 ^ 8))), (c!"list containing the",
      (mkRat 52506929 (10 ^ 8))), (c!"containing the tallest", (mkRat 43436634 (10 ^ 8))), (c!"the tallest buildings",
      (mkRat 15117158 (10 ^ 8))), (c!"tallest buildings in", (mkRat 54270597 (10 ^ 8))), (c!"buildings in blobby",
      (mkRat 61703200 (10 ^ 8))), (c!"classic pyramid is", (mkRat 32237339 (10 ^ 8))), (c!"the tallest building",
      (mkRat 15117158 (10 ^ 8))), (c!"tallest building in", (mkRat 54270597 (10 ^ 8))), (c!"building in blobby",
      (mkRat 61703200 (10 ^ 8))), (c!"the classic hotel", (mkRat 16969010 (10 ^ 8))), (c!"classic hotel is",
      (mkRat 45830184 (10 ^ 8))), (c!"hotel is the", (mkRat 63265306 (10 ^ 8))), (c!"the classic tower",
      (mkRat 18820862 (10 ^ 8))), (c!"classic tower is", (mkRat 34198371 (10 ^ 8))), (c!"tower is the",
      (mkRat 63265306 (10 ^ 8))), (c!"is the lowest", (mkRat 9629630 (10 ^ 8))), (c!"the lowest tower",
      (mkRat 54270597 (10 ^ 8))), (c!"lowest tower in", (mkRat 48097758 (10 ^ 8))), (c!"the pyramid is",
      (mkRat 64474679 (10 ^ 8))), (c!"this is the", (mkRat 39591837 (10 ^ 8))), (c!"is the classic", (mkRat 9629630 (10 ^ 8))),
      (c!"is a hotel", (mkRat 28017133 (10 ^ 8))), (c!"a hotel list", (mkRat 42302847 (10 ^ 8)))] := by
  decide +kernel

/-- `test_mkn_min_order_error` of `test_language_model_builder.py` -/
example : Builder.new 1 c!"modified_kneser_ney" 1 = .error .minOrder := by
  decide +kernel

end Tests
