import Verif.Model.Mutables
import Mathlib.Tactic.Linarith
import Mathlib.Tactic.FieldSimp
import Mathlib.Tactic.Positivity
import Mathlib.Tactic.Ring
import Mathlib.Algebra.Order.Floor.Semifield

/-! Helper lemmas on slices, `linspace` marks and batches. -/

namespace Py

theorem clampIdx_nat (n a : Nat) : clampIdx n (a : Int) = min a n := by
  simp [clampIdx]

theorem slice_nat {α} (l : List α) (a b : Nat) : slice l (a : Int) (b : Int) = (l.take b).drop a := by
  simp only [slice, clampIdx_nat]
  rcases Nat.le_total b l.length with hb | hb
  · rcases Nat.le_total a l.length with ha | ha
    · simp [hb, ha]
    · rw [Nat.min_eq_right ha, Nat.min_eq_left hb, List.drop_eq_nil_of_le (by simp [hb]),
        List.drop_eq_nil_of_le (by simp; omega)]
  · rw [Nat.min_eq_right hb, List.take_of_length_le hb, List.take_of_length_le (Nat.le_refl _)]
    rcases Nat.le_total a l.length with ha | ha
    · simp [ha]
    · rw [Nat.min_eq_right ha, List.drop_eq_nil_of_le ha, List.drop_eq_nil_of_le (Nat.le_refl _)]

theorem sliceFrom_nat {α} (l : List α) (a : Nat) : sliceFrom l (a : Int) = l.drop a := by
  simp only [sliceFrom, clampIdx_nat]
  rcases Nat.le_total a l.length with ha | ha
  · simp [ha]
  · rw [Nat.min_eq_right ha, List.drop_eq_nil_of_le ha, List.drop_eq_nil_of_le (Nat.le_refl _)]

theorem sliceTo_nat {α} (l : List α) (a : Nat) : sliceTo l (a : Int) = l.take a := by
  simp only [sliceTo, clampIdx_nat]
  rcases Nat.le_total a l.length with ha | ha
  · simp [ha]
  · rw [Nat.min_eq_right ha, List.take_of_length_le ha, List.take_of_length_le (Nat.le_refl _)]

theorem take_append_drop_take {α} (l : List α) {a b : Nat} (h : a ≤ b) :
    l.take a ++ (l.take b).drop a = l.take b := by
  have : l.take a = (l.take b).take a := by rw [List.take_take, Nat.min_eq_left h]
  rw [this, List.take_append_drop]

end Py

namespace Model
open Py

theorem pyInt_of_nonneg {x : ℚ} (h : 0 ≤ x) : pyInt x = ((⌊x⌋₊ : ℕ) : ℤ) := by
  simp [pyInt, h, Int.natCast_floor_eq_floor h]

/-- Flattening consecutive slices between monotone marks starting at 0. -/
theorem flatten_slices {α} (l : List α) (m : ℕ → ℕ) (h0 : m 0 = 0) :
    ∀ k, (∀ i < k, m i ≤ m (i + 1)) →
      ((List.range k).map fun i => (l.take (m (i + 1))).drop (m i)).flatten = l.take (m k) := by
  intro k
  induction k with
  | zero => intro _; simp [h0]
  | succ k ih =>
    intro hm
    rw [List.range_succ, List.map_append, List.flatten_append, ih (fun i hi => hm i (by omega))]
    simp only [List.map_cons, List.map_nil, List.flatten_cons, List.flatten_nil, List.append_nil]
    exact take_append_drop_take l (hm k (by omega))

namespace Rounding

theorem fl_zero (R : Rounding) : R.fl 0 = 0 := by
  have := R.nat 0 (by norm_num)
  simpa using this

theorem fl_nonneg (R : Rounding) {x : ℚ} (h : 0 ≤ x) : 0 ≤ R.fl x := by
  have := R.mono h
  rwa [R.fl_zero] at this

end Rounding

/-- The integer mark used by `divide_list`. -/
def mark (R : Rounding) (n k i : ℕ) : ℕ := ⌊linspaceMark R n k i⌋₊

theorem linspaceMark_nonneg (R : Rounding) (n k i : ℕ) : 0 ≤ linspaceMark R n k i := by
  unfold linspaceMark
  split
  · positivity
  · exact R.fl_nonneg (mul_nonneg (by positivity) (R.fl_nonneg (by positivity)))

theorem pyInt_linspaceMark (R : Rounding) (n k i : ℕ) : pyInt (linspaceMark R n k i) = (mark R n k i : ℤ) :=
  pyInt_of_nonneg (linspaceMark_nonneg R n k i)

theorem mark_zero (R : Rounding) (n : ℕ) {k : ℕ} (hk : 0 < k) : mark R n k 0 = 0 := by
  have : (0 : ℕ) ≠ k := by omega
  simp [mark, linspaceMark, this, R.fl_zero]

theorem mark_last (R : Rounding) (n k : ℕ) : mark R n k k = n := by
  simp [mark, linspaceMark]

theorem mark_mono (R : Rounding) (n k i : ℕ) (h : i + 1 < k) : mark R n k i ≤ mark R n k (i + 1) := by
  have h1 : i ≠ k := by omega
  have h2 : i + 1 ≠ k := by omega
  simp only [mark, linspaceMark, h1, h2, if_false]
  apply Nat.floor_mono
  apply R.mono
  apply mul_le_mul_of_nonneg_right
  · push_cast; linarith
  · exact R.fl_nonneg (by positivity)

theorem divideList_eq {α} (R : Rounding) (items : List α) {k : ℕ} (hk : 0 < k) (hn : k ≤ items.length) :
    divideList R items k = .ok ((List.range k).map fun i =>
      (items.take (mark R items.length k (i + 1))).drop (mark R items.length k i)) := by
  have h : (0 : ℤ) < (k : ℤ) := by exact_mod_cast hk
  simp only [divideList, h, if_true, Int.toNat_natCast, hn, pyInt_linspaceMark, slice_nat]

theorem divideList_flatten {α} (R : Rounding) (items : List α) {k : ℕ} (hk : 0 < k) (hn : k ≤ items.length) :
    ((List.range k).map fun i =>
      (items.take (mark R items.length k (i + 1))).drop (mark R items.length k i)).flatten = items := by
  set n := items.length with hnn
  obtain ⟨j, rfl⟩ : ∃ j, k = j + 1 := ⟨k - 1, by omega⟩
  rw [List.range_succ, List.map_append, List.flatten_append,
    flatten_slices items (mark R n (j + 1)) (mark_zero R n hk) j (fun i hi => mark_mono R n _ i (by omega))]
  simp only [List.map_cons, List.map_nil, List.flatten_cons, List.flatten_nil, List.append_nil, mark_last]
  rcases Nat.le_total (mark R n (j + 1) j) n with h | h
  · rw [take_append_drop_take items h, List.take_of_length_le (by omega)]
  · rw [List.take_of_length_le (by omega), List.drop_eq_nil_of_le (by simp; omega), List.append_nil]

theorem mark_exact (n k i : ℕ) (hk : 0 < k) : mark Rounding.exact n k i = i * n / k := by
  by_cases h : i = k
  · subst h
    rw [mark_last, Nat.mul_div_cancel_left _ hk]
  · simp only [mark, linspaceMark, h, if_false, Rounding.exact, id]
    rw [← mul_div_assoc]
    have : ((i : ℚ) * n / k) = ((i * n : ℕ) : ℚ) / (k : ℚ) := by push_cast; ring
    rw [this, Nat.floor_div_eq_div]

/-- Error of a mark with binary64-like rounding. -/
theorem linspaceMark_err (R : Rounding) (n k i : ℕ) (hk : 0 < k) (hi : i ≤ k) :
    |linspaceMark R n k i - i * n / k| ≤ 3 * n / 2 ^ 53 := by
  have hkq : (0 : ℚ) < k := by exact_mod_cast hk
  unfold linspaceMark
  split
  · rename_i h
    subst h
    rw [mul_div_cancel_left₀ _ (ne_of_gt hkq), sub_self, abs_zero]
    positivity
  · set x : ℚ := (n : ℚ) / k with hx
    have hx0 : 0 ≤ x := by positivity
    have e1 := R.err x hx0
    have hs0 := R.fl_nonneg hx0
    set s := R.fl x with hs
    have hi0 : (0 : ℚ) ≤ i := by positivity
    have his : (0 : ℚ) ≤ i * s := mul_nonneg hi0 hs0
    have e2 := R.err (i * s) his
    have hin : (i : ℚ) * x ≤ n := by
      have hik : (i : ℚ) ≤ k := by exact_mod_cast hi
      calc (i : ℚ) * x ≤ k * x := mul_le_mul_of_nonneg_right hik hx0
        _ = n := by rw [hx]; field_simp
    have hsplit : R.fl (i * s) - i * n / k = (R.fl (i * s) - i * s) + i * (s - x) := by rw [hx]; ring
    rw [hsplit]
    have hsx : s ≤ 2 * x := by
      have := (abs_le.mp e1).2
      have : x / 2 ^ 53 ≤ x := div_le_self hx0 (by norm_num)
      linarith
    calc |(R.fl (i * s) - i * s) + i * (s - x)| ≤ |R.fl (i * s) - i * s| + |i * (s - x)| := abs_add_le _ _
      _ ≤ i * s / 2 ^ 53 + i * (x / 2 ^ 53) := by
          apply add_le_add e2
          rw [abs_mul, abs_of_nonneg hi0]
          exact mul_le_mul_of_nonneg_left e1 hi0
      _ ≤ 3 * n / 2 ^ 53 := by
          have h1 : (i : ℚ) * s ≤ 2 * n := by
            calc (i : ℚ) * s ≤ i * (2 * x) := mul_le_mul_of_nonneg_left hsx hi0
              _ = 2 * (i * x) := by ring
              _ ≤ 2 * n := by linarith
          rw [← mul_div_assoc, ← add_div]
          apply div_le_div_of_nonneg_right _ (by norm_num)
          linarith

/-- The integer mark is the exact one, or one less when the exact mark is an integer. -/
theorem mark_near (R : Rounding) (n k i : ℕ) (hk : 0 < k) (hi : i ≤ k) (hsmall : 3 * n * k < 2 ^ 53) :
    mark R n k i ≤ i * n / k ∧ i * n ≤ k * (mark R n k i) + k ∧
      (¬ k ∣ i * n → mark R n k i = i * n / k) := by
  have hkq : (0 : ℚ) < k := by exact_mod_cast hk
  have herr := linspaceMark_err R n k i hk hi
  have h0 := linspaceMark_nonneg R n k i
  set y := linspaceMark R n k i with hy
  have hm : mark R n k i = ⌊y⌋₊ := rfl
  rw [hm]
  have hd : 3 * (n : ℚ) / 2 ^ 53 < 1 / k := by
    rw [div_lt_div_iff₀ (by norm_num) hkq]
    have : (3 * n * k : ℚ) < 2 ^ 53 := by exact_mod_cast hsmall
    linarith
  have hlt : |y - i * n / k| < 1 / k := lt_of_le_of_lt herr hd
  obtain ⟨hl, hr⟩ := abs_lt.mp hlt
  -- q = i*n/k, r = remainder
  have hdm := Nat.div_add_mod (i * n) k
  have hmod := Nat.mod_lt (i * n) hk
  set q := i * n / k with hq
  set r := i * n % k with hrr
  have hval : (i : ℚ) * n / k = q + r / k := by
    have : ((i * n : ℕ) : ℚ) = k * q + r := by rw [← hdm]; push_cast; ring
    rw [show (i : ℚ) * n = ((i * n : ℕ) : ℚ) by push_cast; ring, this]
    field_simp
  have hy1 : y < q + 1 := by
    have : (r : ℚ) + 1 ≤ k := by exact_mod_cast hmod
    have h2 : (r : ℚ) / k + 1 / k ≤ 1 := by
      rw [← add_div, div_le_one hkq]; exact this
    rw [hval] at hr
    linarith
  have hle : ⌊y⌋₊ ≤ q := by
    have : ⌊y⌋₊ < q + 1 := by
      rw [Nat.floor_lt h0]; exact_mod_cast hy1
    omega
  have hfl : y < ⌊y⌋₊ + 1 := Nat.lt_floor_add_one y
  refine ⟨hle, ?_, ?_⟩
  · have h3 : (i : ℚ) * n / k < ⌊y⌋₊ + 1 + 1 / k := by linarith
    have h4 : (i : ℚ) * n < k * (⌊y⌋₊ + 1) + 1 := by
      rw [div_lt_iff₀ hkq] at h3
      have : (⌊y⌋₊ + 1 + 1 / (k : ℚ)) * k = k * (⌊y⌋₊ + 1) + 1 := by field_simp
      linarith
    have h5 : i * n < k * (⌊y⌋₊ + 1) + 1 := by exact_mod_cast h4
    have : k * (⌊y⌋₊ + 1) = k * ⌊y⌋₊ + k := by ring
    omega
  · intro hnd
    have hr1 : 1 ≤ r := by
      rcases Nat.eq_zero_or_pos r with h | h
      · exact absurd (Nat.dvd_of_mod_eq_zero h) hnd
      · exact h
    have hy2 : (q : ℚ) ≤ y := by
      have : (1 : ℚ) / k ≤ r / k := by
        apply div_le_div_of_nonneg_right _ (le_of_lt hkq)
        exact_mod_cast hr1
      rw [hval] at hl
      linarith
    exact le_antisymm hle (Nat.le_floor hy2)

theorem mark_of_dvd (R : Rounding) (n k i : ℕ) (hk : 0 < k) (hi : i ≤ k) (hd : k ∣ n) (hn : n ≤ 2 ^ 53) :
    mark R n k i = i * (n / k) := by
  obtain ⟨q, rfl⟩ := hd
  rw [Nat.mul_div_cancel_left _ hk]
  by_cases h : i = k
  · subst h; rw [mark_last]
  · simp only [mark, linspaceMark, h, if_false]
    have hkq : (k : ℚ) ≠ 0 := by positivity
    have h1 : ((k * q : ℕ) : ℚ) / k = q := by push_cast; field_simp
    have hq : q ≤ 2 ^ 53 := le_trans (Nat.le_mul_of_pos_left q hk) hn
    have hiq : i * q ≤ 2 ^ 53 := le_trans (Nat.mul_le_mul_right q hi) hn
    rw [h1, R.nat q hq, ← Nat.cast_mul, R.nat _ hiq, Nat.floor_natCast]

/-! ### Batches -/

theorem makeBatches_eq {α} (items : List α) {n : ℕ} (hn : 0 < n) :
    makeBatches items n = .ok ((List.range ((items.length + n - 1) / n)).map fun i =>
      (items.take (i * n + n)).drop (i * n)) := by
  have h0 : ¬ ((n : ℤ) = 0) := by omega
  have h1 : ¬ ((n : ℤ) < 0) := by omega
  simp only [makeBatches, pyRange, h0, h1, if_false, Int.toNat_natCast, bind, Except.bind, pure, Except.pure,
    List.map_map]
  congr 1
  apply List.map_congr_left
  intro i _
  simp only [Function.comp]
  have := slice_nat items (i * n) (i * n + n)
  push_cast at this
  exact this

theorem ceilDiv_mul_ge (len n : ℕ) (hn : 0 < n) : len ≤ (len + n - 1) / n * n := by
  have := Nat.div_add_mod (len + n - 1) n
  have h2 := Nat.mod_lt (len + n - 1) hn
  have : n * ((len + n - 1) / n) = (len + n - 1) / n * n := Nat.mul_comm _ _
  omega

theorem makeBatches_flatten {α} (items : List α) {n : ℕ} (hn : 0 < n) :
    ((List.range ((items.length + n - 1) / n)).map fun i => (items.take (i * n + n)).drop (i * n)).flatten
      = items := by
  have h := flatten_slices items (fun i => i * n) (by simp) ((items.length + n - 1) / n)
    (fun i _ => Nat.mul_le_mul_right n (by omega))
  simp only [Nat.add_mul, Nat.one_mul] at h
  rw [h, List.take_of_length_le (ceilDiv_mul_ge _ _ hn)]

end Model
