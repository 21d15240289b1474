import Verif.Spec.Training

/-! # Training with early stopping -/

namespace Model
open Py Spec

variable {W : Type}

theorem bestEpoch_eq {acc : Nat → ℚ} {k b b' : Nat} (h : BestEpoch acc k b) (h' : BestEpoch acc k b') : b = b' := by
  rcases Nat.lt_trichotomy b b' with hl | hl | hl
  · exact absurd (h'.before b hl) (not_lt.mpr (h.all b' h'.lt))
  · exact hl
  · exact absurd (h.before b' hl) (not_lt.mpr (h'.all b h.lt))

/-- After `k` epochs without stop. -/
structure Running (t : Trainer W) (split : ℚ) (p : Nat) (w : W) (metric : Str) (k b : Nat) (st : TrainState W) : Prop where
  first : BestEpoch (accuracy t split w) k b
  weights : st.weights = weightsAfter t w k
  best : st.best = some (accuracy t split w b)
  wait : b + 1 + st.wait = k
  bestWeights : st.bestWeights = some (weightsAfter t w (b + 1))
  stop : st.stop = false
  history : st.history.filterMap (fun logs => Dict.get? logs metric) = (List.range k).map (accuracy t split w)
  goesOn : ∀ j ≤ k, ¬ Stale (accuracy t split w) p j

/-- After `k` epochs, at the stop. -/
structure Stopped (t : Trainer W) (split : ℚ) (p : Nat) (w : W) (metric : Str) (k b : Nat) (st : TrainState W) : Prop where
  first : BestEpoch (accuracy t split w) k b
  weights : st.weights = weightsAfter t w (b + 1)
  bestWeights : st.bestWeights = some (weightsAfter t w (b + 1))
  stop : st.stop = true
  history : st.history.filterMap (fun logs => Dict.get? logs metric) = (List.range k).map (accuracy t split w)
  stale : Stale (accuracy t split w) p k
  goesOn : ∀ j < k, ¬ Stale (accuracy t split w) p j

/-- The metric that `_learn` follows. -/
def metricOf (split : ℚ) : Str := if split ≠ 0 then c!"val_accuracy" else c!"accuracy"

theorem logs_get (t : Trainer W) (split : ℚ) (w : W) (e : Nat) :
    Dict.get? (t.logs split e (weightsAfter t w e) (weightsAfter t w (e + 1))) (metricOf split) =
      some (accuracy t split w e) := by
  unfold Trainer.logs metricOf accuracy
  by_cases h : split = 0
  · simp only [h, if_true, ne_eq, not_true, if_false]
    rfl
  · simp only [h, if_false, ne_eq, not_false_iff, if_true]
    rfl

theorem not_stale_zero {acc : Nat → ℚ} {p : Nat} : ¬ Stale acc p 0 := by
  rintro ⟨b, h, -⟩
  exact absurd h.lt (by omega)

theorem not_stale {acc : Nat → ℚ} {p k b : Nat} (h : BestEpoch acc k b) (hk : k < b + 1 + max 1 p) : ¬ Stale acc p k := by
  rintro ⟨b', h', hb⟩
  obtain rfl := bestEpoch_eq h h'
  omega

theorem first_step (t : Trainer W) (split : ℚ) (p : Nat) (w : W) :
    Running t split p w (metricOf split) 1 0
      (t.step ⟨metricOf split, true, p, true⟩ split 0 ⟨w, none, 0, none, false, []⟩) := by
  have hl := logs_get t split w 0
  simp only [weightsAfter] at hl
  have hf : BestEpoch (accuracy t split w) 1 0 :=
    ⟨by omega, fun i hi => absurd hi (by omega), fun i hi => by obtain rfl : i = 0 := by omega
                                                                exact le_refl _⟩
  have e : t.step ⟨metricOf split, true, p, true⟩ split 0 ⟨w, none, 0, none, false, []⟩ =
      ⟨t.epoch 0 w, some (accuracy t split w 0), 0, some (t.epoch 0 w), false, [t.logs split 0 w (t.epoch 0 w)]⟩ := by
    simp only [Trainer.step, Stopper.epochEnd, hl, Stopper.improves, if_true, List.nil_append]
  rw [e]
  refine ⟨hf, rfl, rfl, rfl, rfl, rfl, ?_, fun j hj => ?_⟩
  · simp [List.filterMap_cons, hl]
  · rcases Nat.le_one_iff_eq_zero_or_eq_one.mp hj with rfl | rfl
    · exact not_stale_zero
    · exact not_stale hf (by omega)

theorem next_step {t : Trainer W} {split : ℚ} {p : Nat} {w : W} {k b : Nat} {st : TrainState W}
    (h : Running t split p w (metricOf split) k b st) :
    (∃ b', Running t split p w (metricOf split) (k + 1) b' (t.step ⟨metricOf split, true, p, true⟩ split k st)) ∨
    ∃ b', Stopped t split p w (metricOf split) (k + 1) b' (t.step ⟨metricOf split, true, p, true⟩ split k st) := by
  obtain ⟨hf, hw, hbest, hwait, hbw, hst, hh, hg⟩ := h
  have hl := logs_get t split w k
  have hb := hf.lt
  obtain ⟨stw, stb, sti, stbw, sts, sth⟩ := st
  simp only at hw hbest hwait hbw hst hh
  subst hw hbest hbw hst
  have hl' : Dict.get? (t.logs split k (weightsAfter t w k) (t.epoch k (weightsAfter t w k))) (metricOf split) =
      some (accuracy t split w k) := hl
  have hh' : (sth ++ [t.logs split k (weightsAfter t w k) (t.epoch k (weightsAfter t w k))]).filterMap
      (fun logs => Dict.get? logs (metricOf split)) = (List.range (k + 1)).map (accuracy t split w) := by
    rw [List.filterMap_append, hh, List.range_succ, List.map_append]
    simp [hl']
  by_cases hc : accuracy t split w b < accuracy t split w k
  · refine .inl ⟨k, ?_⟩
    have hf' : BestEpoch (accuracy t split w) (k + 1) k :=
      ⟨by omega, fun i hi => lt_of_le_of_lt (hf.all i hi) hc, fun i hi => by
        rcases Nat.lt_succ_iff_lt_or_eq.mp hi with hi | rfl
        · exact (lt_of_le_of_lt (hf.all i hi) hc).le
        · exact le_refl _⟩
    simp only [Trainer.step, Stopper.epochEnd, hl', Stopper.improves, if_true, decide_eq_true_eq, hc]
    refine ⟨hf', rfl, rfl, rfl, rfl, rfl, hh', fun j hj => ?_⟩
    rcases Nat.le_succ_iff.mp hj with hj | rfl
    · exact hg j hj
    · exact not_stale hf' (by omega)
  · have hf' : BestEpoch (accuracy t split w) (k + 1) b :=
      ⟨by omega, hf.before, fun i hi => by
        rcases Nat.lt_succ_iff_lt_or_eq.mp hi with hi | rfl
        · exact hf.all i hi
        · exact not_lt.mp hc⟩
    by_cases hp : p ≤ sti + 1
    · refine .inr ⟨b, ?_⟩
      simp only [Trainer.step, Stopper.epochEnd, hl', Stopper.improves, if_true, decide_eq_true_eq, hc, if_false, hp]
      exact ⟨hf', rfl, rfl, rfl, hh', ⟨b, hf', by omega⟩, fun j hj => hg j (by omega)⟩
    · refine .inl ⟨b, ?_⟩
      simp only [Trainer.step, Stopper.epochEnd, hl', Stopper.improves, if_true, decide_eq_true_eq, hc, if_false, hp]
      refine ⟨hf', rfl, rfl, by simp only; omega, rfl, rfl, hh', fun j hj => ?_⟩
      rcases Nat.le_succ_iff.mp hj with hj | rfl
      · exact hg j hj
      · exact not_stale hf' (by omega)

theorem epochs_run {t : Trainer W} {split : ℚ} {p : Nat} {w : W} (n : Nat) {k b : Nat} {st : TrainState W}
    (h : Running t split p w (metricOf split) k b st) :
    (∃ b', Running t split p w (metricOf split) (k + n) b' (t.epochs ⟨metricOf split, true, p, true⟩ split n k st)) ∨
    ∃ k' b', k' ≤ k + n ∧
      Stopped t split p w (metricOf split) k' b' (t.epochs ⟨metricOf split, true, p, true⟩ split n k st) := by
  induction n generalizing k b st with
  | zero => exact .inl ⟨b, h⟩
  | succ n ih =>
    rw [Trainer.epochs]
    rcases next_step h with ⟨b', h'⟩ | ⟨b', h'⟩
    · simp only [h'.stop, Bool.false_eq_true, if_false]
      rcases ih h' with ⟨b'', h''⟩ | ⟨k', b'', hk, h''⟩
      · exact .inl ⟨b'', by rwa [show k + (n + 1) = k + 1 + n by omega]⟩
      · exact .inr ⟨k', b'', by omega, h''⟩
    · simp only [h'.stop, if_true]
      exact .inr ⟨k + 1, b', by omega, h'⟩

theorem fold_max (l : List ℚ) (m : ℚ) :
    (l.foldl (fun m x => if m < x then x else m) m ∈ m :: l) ∧
      ∀ x ∈ m :: l, x ≤ l.foldl (fun m x => if m < x then x else m) m := by
  induction l generalizing m with
  | nil => simp
  | cons a l ih =>
    obtain ⟨h1, h2⟩ := ih (if m < a then a else m)
    rw [List.foldl_cons]
    refine ⟨?_, fun x hx => ?_⟩
    · rcases List.mem_cons.mp h1 with h1 | h1
      · rw [h1]
        split <;> simp
      · exact List.mem_cons_of_mem _ (List.mem_cons_of_mem _ h1)
    · have h3 := h2 _ (List.mem_cons_self ..)
      rcases List.mem_cons.mp hx with rfl | hx
      · refine le_trans ?_ h3
        split
        · next h => exact h.le
        · exact le_refl _
      · rcases List.mem_cons.mp hx with rfl | hx
        · refine le_trans ?_ h3
          split
          · exact le_refl _
          · next h => exact not_lt.mp h
        · exact h2 x (List.mem_cons_of_mem _ hx)

theorem maxOf_first {acc : Nat → ℚ} {k b : Nat} (h : BestEpoch acc k b) : maxOf ((List.range k).map acc) = .ok (acc b) := by
  cases hl : (List.range k).map acc with
  | nil =>
    have := congrArg List.length hl
    simp at this
    have := h.lt
    omega
  | cons x xs =>
    obtain ⟨h1, h2⟩ := fold_max xs x
    rw [← hl] at h1 h2
    rw [maxOf]
    refine congrArg _ (le_antisymm ?_ (h2 _ (List.mem_map.mpr ⟨b, List.mem_range.mpr h.lt, rfl⟩)))
    obtain ⟨i, hi, e⟩ := List.mem_map.mp h1
    rw [← e]
    exact h.all i (List.mem_range.mp hi)

theorem metricValues_some {hist : List (Dict Str ℚ)} {metric : Str} {vs : List ℚ} (hv : vs ≠ [])
    (h : hist.filterMap (fun logs => Dict.get? logs metric) = vs) : metricValues hist metric = .ok vs := by
  rw [metricValues, h]
  cases vs with
  | nil => exact absurd rfl hv
  | cons v vs => rfl

end Model
