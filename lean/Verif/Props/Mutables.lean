import Verif.Lemmas.Multithreading

/-! Properties C01 - C05: list division, batches and threads. -/

namespace Props
open Py Model Spec

/-- C01: for every list, every positive number of parts and every rounding, the call succeeds and the parts
concatenate back to the list. -/
theorem C01_divide_list_partition {α} (R : Rounding) (items : List α) (k : Int) (hk : 0 < k) :
    ∃ parts, divideList R items k = .ok parts ∧ parts.flatten = items := by
  obtain ⟨k, rfl⟩ := Int.eq_ofNat_of_zero_le (le_of_lt hk)
  have hk' : 0 < k := by omega
  by_cases hn : k ≤ items.length
  · exact ⟨_, divideList_eq R items hk' hn, divideList_flatten R items hk' hn⟩
  · refine ⟨items.map fun x => [x], ?_, ?_⟩
    · simp [divideList, hk', hn]
    · exact List.flatMap_singleton' items

example : divideList Rounding.exact [1, 2, 3, 4, 5, 6, 7] 3 = .ok [[1, 2], [3, 4], [5, 6, 7]] := by decide +kernel

/-- C02: `k` parts when `1 ≤ k ≤ len`; with exact arithmetic every part has `len / k` or `len / k + 1` items, so no
part is empty and any two differ by at most one. -/
theorem C02_divide_list_balanced {α} (items : List α) (k : ℕ) (hk : 0 < k) (hn : k ≤ items.length) :
    ∃ parts, divideList Rounding.exact items k = .ok parts ∧ parts.length = k ∧
      (∀ p ∈ parts, p ≠ []) ∧ (∀ p ∈ parts, ∀ q ∈ parts, p.length ≤ q.length + 1) := by
  refine ⟨_, divideList_eq _ items hk hn, by simp, ?_⟩
  have key : ∀ p ∈ (List.range k).map (fun i => (items.take (mark Rounding.exact items.length k (i + 1))).drop
      (mark Rounding.exact items.length k i)),
      items.length / k ≤ p.length ∧ p.length ≤ items.length / k + 1 := by
    intro p hp
    obtain ⟨i, hi, rfl⟩ := List.mem_map.mp hp
    rw [List.mem_range] at hi
    simp only [mark_exact _ _ _ hk, List.length_drop, List.length_take]
    set n := items.length
    have e1 : (i + 1) * n / k ≤ n := Nat.div_le_of_le_mul (Nat.mul_le_mul_right n hi)
    rw [Nat.min_eq_left e1]
    have d1 := Nat.div_add_mod ((i + 1) * n) k
    have d2 := Nat.div_add_mod (i * n) k
    have d3 := Nat.div_add_mod n k
    have m1 := Nat.mod_lt ((i + 1) * n) hk
    have m2 := Nat.mod_lt (i * n) hk
    have m3 := Nat.mod_lt n hk
    have e : (i + 1) * n = i * n + n := by ring
    rw [e] at d1 m1 ⊢
    set A := (i * n + n) / k
    set B := i * n / k
    set C := n / k
    clear_value A B C
    have hA : k * A < k * (B + C + 2) := by
      have : k * (B + C + 2) = k * B + k * C + 2 * k := by ring
      omega
    have hB : k * (B + C) < k * (A + 1) := by
      have h1 : k * (B + C) = k * B + k * C := by ring
      have h2 : k * (A + 1) = k * A + k := by ring
      omega
    have hA' := Nat.lt_of_mul_lt_mul_left hA
    have hB' := Nat.lt_of_mul_lt_mul_left hB
    omega
  have hpos : 0 < items.length / k := Nat.div_pos hn hk
  constructor
  · intro p hp h
    have := (key p hp).1
    rw [h] at this
    simp at this
    omega
  · intro p hp q hq
    have := (key p hp).2
    have := (key q hq).1
    omega

example : (0 : ℕ) < 3 ∧ 3 ≤ [1, 2, 3, 4, 5, 6, 7].length := by decide

/-- C02 with floating point: for every binary64-like rounding there are `k` parts, none empty, whose sizes are at most
one below and two above `len / k` (lists of practical size: `3 * len * k < 2^53`). -/
theorem C02_divide_list_float {α} (R : Rounding) (items : List α) (k : ℕ) (hk : 0 < k) (hn : k ≤ items.length)
    (hsmall : 3 * items.length * k < 2 ^ 53) :
    ∃ parts, divideList R items k = .ok parts ∧ parts.length = k ∧
      (∀ p ∈ parts, p ≠ [] ∧ items.length / k ≤ p.length + 1 ∧ p.length ≤ items.length / k + 2) := by
  refine ⟨_, divideList_eq _ items hk hn, by simp, ?_⟩
  intro p hp
  obtain ⟨i, hi, rfl⟩ := List.mem_map.mp hp
  rw [List.mem_range] at hi
  set n := items.length with hnl
  have hn53 : n ≤ 2 ^ 53 := by
    have : n * 1 ≤ n * k := Nat.mul_le_mul_left n hk
    have : 3 * n * k = 3 * (n * k) := by ring
    omega
  obtain ⟨a1, a2, a3⟩ := mark_near R n k i hk (by omega) hsmall
  obtain ⟨b1, b2, b3⟩ := mark_near R n k (i + 1) hk (by omega) hsmall
  have e1 : (i + 1) * n / k ≤ n := Nat.div_le_of_le_mul (Nat.mul_le_mul_right n hi)
  have hlen : ((items.take (mark R n k (i + 1))).drop (mark R n k i)).length
      = mark R n k (i + 1) - mark R n k i := by
    rw [List.length_drop, List.length_take, Nat.min_eq_left (by omega)]
  have hq : 0 < n / k := Nat.div_pos hn hk
  suffices n / k ≤ (mark R n k (i + 1) - mark R n k i) + 1 ∧ (mark R n k (i + 1) - mark R n k i) ≤ n / k + 2 ∧
      0 < mark R n k (i + 1) - mark R n k i by
    refine ⟨?_, by omega, by omega⟩
    intro h
    rw [h] at hlen
    simp at hlen
    omega
  by_cases hd : k ∣ n
  · have m1 := mark_of_dvd R n k i hk (by omega) hd hn53
    have m2 := mark_of_dvd R n k (i + 1) hk (by omega) hd hn53
    rw [m1, m2]
    have : (i + 1) * (n / k) = i * (n / k) + n / k := by ring
    omega
  · have d1 := Nat.div_add_mod ((i + 1) * n) k
    have d2 := Nat.div_add_mod (i * n) k
    have d3 := Nat.div_add_mod n k
    have l1 := Nat.mod_lt ((i + 1) * n) hk
    have l2 := Nat.mod_lt (i * n) hk
    have l3 := Nat.mod_lt n hk
    have l4 : 0 < n % k := Nat.pos_of_ne_zero fun h => hd (Nat.dvd_of_mod_eq_zero h)
    have e : (i + 1) * n = i * n + n := by ring
    rw [e] at d1 l1 b1 b2 b3
    set X := mark R n k (i + 1)
    set Y := mark R n k i
    set A := (i * n + n) / k
    set B := i * n / k
    set C := n / k
    have up : k * X ≤ k * (Y + C + 2) := by
      have h1 : k * (Y + C + 2) = k * Y + k * C + 2 * k := by ring
      have h2 : k * X ≤ k * A := Nat.mul_le_mul_left k b1
      omega
    have lo : k * (Y + C) < k * (X + 1) := by
      have h1 : k * (Y + C) = k * Y + k * C := by ring
      have h2 : k * (X + 1) = k * X + k := by ring
      have h3 : k * Y ≤ k * B := Nat.mul_le_mul_left k a1
      omega
    have up' := Nat.le_of_mul_le_mul_left up hk
    have lo' := Nat.lt_of_mul_lt_mul_left lo
    refine ⟨by omega, by omega, by omega⟩

example : (0 : ℕ) < 3 ∧ 3 ≤ [1, 2, 3, 4, 5, 6, 7].length ∧ 3 * [1, 2, 3, 4, 5, 6, 7].length * 3 < 2 ^ 53 := by decide

/-- C02: more parts than items gives one singleton per item. -/
theorem C02_divide_list_singletons {α} (R : Rounding) (items : List α) (k : Int) (hk : (items.length : Int) < k) :
    divideList R items k = .ok (items.map fun x => [x]) := by
  have h1 : 0 < k := by omega
  have h2 : ¬ k.toNat ≤ items.length := by omega
  simp only [divideList, h1, if_true, h2, if_false]

/-- C02: a number of parts below 1 is an assertion error. -/
theorem C02_divide_list_assertion {α} (R : Rounding) (items : List α) (k : Int) :
    divideList R items k = .error .assertion ↔ k ≤ 0 := by
  by_cases h : 0 < k
  · obtain ⟨p, hp, _⟩ := C01_divide_list_partition R items k h
    rw [hp]
    simp; omega
  · simp only [divideList, h, if_false, true_iff]
    omega

/-- C03: batches concatenate to the input, every batch has 1..n items and all but the last have n. -/
theorem C03_make_batches {α} (items : List α) (n : ℕ) (hn : 0 < n) :
    ∃ bs, makeBatches items n = .ok bs ∧ bs.flatten = items ∧
      (∀ b ∈ bs, 1 ≤ b.length ∧ b.length ≤ n) ∧
      (∀ b ∈ bs.dropLast, b.length = n) := by
  refine ⟨_, makeBatches_eq items hn, makeBatches_flatten items hn, ?_, ?_⟩
  · intro b hb
    obtain ⟨i, hi, rfl⟩ := List.mem_map.mp hb
    rw [List.mem_range] at hi
    have h1 : (i + 1) * n ≤ items.length + n - 1 := by
      calc (i + 1) * n ≤ (items.length + n - 1) / n * n := Nat.mul_le_mul_right n hi
        _ ≤ _ := Nat.div_mul_le_self _ _
    have h2 : (i + 1) * n = i * n + n := by ring
    simp only [List.length_drop, List.length_take]
    omega
  · intro b hb
    have hdl : ∀ m, (List.range m).dropLast = List.range (m - 1) := by
      intro m
      cases m with
      | zero => rfl
      | succ m => simp [List.range_succ]
    rw [← List.map_dropLast, hdl] at hb
    obtain ⟨i, hi, rfl⟩ := List.mem_map.mp hb
    rw [List.mem_range] at hi
    have h1 : (i + 2) * n ≤ items.length + n - 1 := by
      calc (i + 2) * n ≤ (items.length + n - 1) / n * n := Nat.mul_le_mul_right n (by omega)
        _ ≤ _ := Nat.div_mul_le_self _ _
    have h2 : (i + 2) * n = i * n + n + n := by ring
    simp only [List.length_drop, List.length_take]
    omega

example : makeBatches [1, 2, 3, 4, 5, 6, 7] 3 = .ok [[1, 2, 3], [4, 5, 6], [7]] := by decide +kernel

/-- C03: a batch size of 0 is a `ValueError` and a negative one silently gives no batch at all. -/
theorem C03_make_batches_nonpositive {α} (items : List α) :
    makeBatches items 0 = .error .value ∧ ∀ n : Int, n < 0 → makeBatches items n = .ok [] := by
  constructor
  · rfl
  · intro n hn
    have : n ≠ 0 := by omega
    simp [makeBatches, pyRange, this, hn, bind, Except.bind, pure, Except.pure]

/-- C04: whatever the schedule, if the call has returned then the result is the map of `process`; and from any point
of any schedule the call can still return (no deadlock). -/
theorem C04_run_multithreads_map {α β} (R : Rounding) (items : List α) (f : α → β) (k : Int) (hk : 0 < k) :
    (∀ sched out, runMultithreads R items (fun x => .ok (f x)) k sched = .ok (some out) → out = items.map f) ∧
    (∀ sched, ∃ sched', runMultithreads R items (fun x => .ok (f x)) k (sched ++ sched') = .ok (some (items.map f))) := by
  obtain ⟨parts, hp, hflat⟩ := C01_divide_list_partition R items k hk
  have inv := PoolInv.init (fun x => (Except.ok (f x) : Except PyErr β)) parts
  have hout : parts.flatMap (sliceResults fun x => (Except.ok (f x) : Except PyErr β)) = items.map f := by
    rw [← hflat, List.map_flatten, List.flatMap]
    congr 1
    apply List.map_congr_left
    intro l _
    exact sliceResults_pure f l
  constructor
  · intro sched out h
    simp only [runMultithreads, hp, bind, Except.bind, pure, Except.pure, Except.ok.injEq] at h
    split at h
    · rename_i hr
      rw [(inv.run sched).returned_output hr, hout] at h
      exact (Option.some.inj h).symm
    · cases h
  · intro sched
    obtain ⟨sched', hr⟩ := (inv.run sched).progress
    refine ⟨sched', ?_⟩
    have hrun : (PoolSt.init parts).run (fun x => (Except.ok (f x) : Except PyErr β)) (sched ++ sched')
        = ((PoolSt.init parts).run (fun x => (Except.ok (f x) : Except PyErr β)) sched).run
          (fun x => (Except.ok (f x) : Except PyErr β)) sched' := by
      simp [PoolSt.run, List.foldl_append]
    have inv' := (inv.run (sched ++ sched'))
    rw [← hrun] at hr
    simp only [runMultithreads, hp, bind, Except.bind, pure, Except.pure, hr, if_true]
    rw [inv'.returned_output hr, hout]

/-- A schedule in which the second worker runs first; it returns. -/
def demoSched : List Move :=
  [.main, .main, .worker 1, .worker 1, .worker 0, .worker 1, .main, .worker 0, .worker 0, .worker 0, .main, .main, .main]

example : runMultithreads Rounding.exact [1, 2, 3, 4] (fun x => .ok (x * x)) 2 demoSched = .ok (some [1, 4, 9, 16]) := by
  decide +kernel

/-- The expectation of C05: no exception is hidden, or one result per item that `process` accepts. -/
def NoItemLost : Prop :=
  ∀ (items : List Nat) (process : Nat → Except PyErr Nat) (k : Int) (sched : List Move) (out : List Nat),
    0 < k → runMultithreads Rounding.exact items process k sched = .ok (some out) →
      out = items.filterMap fun x => (process x).toOption

/-- C05 is false of the code: the thread of the first two items dies silently, taking the result of item 1 with it. -/
theorem C05_run_multithreads_loses_items_false : ¬ NoItemLost := by
  intro h
  have := h [1, 2, 3, 4] (fun x => if x = 2 then .error .value else .ok (x * x)) 2 demoSched [9, 16] (by decide)
    (by decide +kernel)
  revert this
  decide +kernel

/-- C05, the part that holds: the result is exactly the concatenation, over the slices given to the threads, of all the
results of the slice or of nothing if `process` raises on one of its items; in particular it is a sublist of the
expected results. -/
theorem C05_run_multithreads_exact_loss_partial {α β} (R : Rounding) (items : List α) (process : α → Except PyErr β)
    (k : Int) (hk : 0 < k) :
    ∃ parts, divideList R items k = .ok parts ∧ parts.flatten = items ∧
      ∀ sched out, runMultithreads R items process k sched = .ok (some out) →
        out = parts.flatMap (sliceResults process) ∧
        List.Sublist out (items.filterMap fun x => (process x).toOption) := by
  obtain ⟨parts, hp, hflat⟩ := C01_divide_list_partition R items k hk
  refine ⟨parts, hp, hflat, ?_⟩
  intro sched out h
  have inv := PoolInv.init process parts
  simp only [runMultithreads, hp, bind, Except.bind, pure, Except.pure, Except.ok.injEq] at h
  split at h
  · rename_i hr
    rw [(inv.run sched).returned_output hr] at h
    have hout := (Option.some.inj h).symm
    refine ⟨hout, ?_⟩
    rw [hout, ← hflat]
    clear h hout hr inv hflat hp
    have hone : ∀ l : List α, List.Sublist (sliceResults process l) (l.filterMap fun x => (process x).toOption) := by
      intro l
      unfold sliceResults
      cases hm : l.mapM process with
      | error e => exact List.nil_sublist _
      | ok ys =>
        have : ys = l.filterMap fun x => (process x).toOption := by
          clear sched out
          induction l generalizing ys with
          | nil => simp [pure, Except.pure] at hm; simp [hm]
          | cons a l ih =>
            rw [List.mapM_cons] at hm
            cases ha : process a with
            | error e => simp [ha, bind, Except.bind] at hm
            | ok y =>
              cases hl : l.mapM process with
              | error e => simp [ha, hl, bind, Except.bind] at hm
              | ok zs =>
                simp [ha, hl, bind, Except.bind, pure, Except.pure] at hm
                rw [← hm, ih zs hl]
                simp [ha, Except.toOption]
        simp [this]
    induction parts with
    | nil => simp
    | cons l ls ih =>
      simp only [List.flatMap_cons, List.flatten_cons, List.filterMap_append]
      exact (hone l).append ih
  · cases h

example : runMultithreads Rounding.exact [1, 2, 3, 4] (fun x => if x = 2 then .error .value else .ok (x * x)) 2
    demoSched = .ok (some [9, 16]) := by decide +kernel

end Props
