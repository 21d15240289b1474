import Verif.Lemmas.Training

/-! # Property C111: training with early stopping -/

namespace Props
open Py Model Spec

variable {W : Type}

/-! ### C111

Full statement: when training returns, the weights left in the network are those after the first epoch with the best accuracy,
and what is returned is this accuracy, in percent.  False of Keras 2 when training uses all its epochs. -/

/-- **C111.** Exactly what training does: it takes all its epochs, or ends as soon as the last `patience` ones have not been
better than the best one before; it returns the best accuracy in percent and leaves the weights after the first epoch with
this accuracy, except that with Keras 2 those of the last epoch are left if it has not ended this way. -/
theorem C111_exact (t : Trainer W) (patience epochs : Nat) (split : ℚ) (w : W) (he : 0 < epochs) : ∃ k b,
    Takes (accuracy t split w) patience epochs k ∧ BestEpoch (accuracy t split w) k b ∧
    ((Stale (accuracy t split w) patience k ∨ t.restoresAtEnd = true) →
      t.learn patience epochs split w = .ok (accuracy t split w b * 100, weightsAfter t w (b + 1))) ∧
    (¬ Stale (accuracy t split w) patience k → t.restoresAtEnd = false →
      t.learn patience epochs split w = .ok (accuracy t split w b * 100, weightsAfter t w epochs)) := by
  obtain ⟨n, rfl⟩ : ∃ n, epochs = n + 1 := ⟨epochs - 1, by omega⟩
  have h1 := first_step t split patience w
  have e : t.epochs ⟨metricOf split, true, patience, true⟩ split (n + 1) 0 ⟨w, none, 0, none, false, []⟩ =
      t.epochs ⟨metricOf split, true, patience, true⟩ split n 1
        (t.step ⟨metricOf split, true, patience, true⟩ split 0 ⟨w, none, 0, none, false, []⟩) := by
    rw [Trainer.epochs]
    simp only [h1.stop, Bool.false_eq_true, if_false]
  have hlearn : ∀ {k b : Nat} {st : TrainState W}, BestEpoch (accuracy t split w) k b →
      t.epochs ⟨metricOf split, true, patience, true⟩ split (n + 1) 0 ⟨w, none, 0, none, false, []⟩ = st →
      st.history.filterMap (fun logs => Dict.get? logs (metricOf split)) = (List.range k).map (accuracy t split w) →
      st.bestWeights = some (weightsAfter t w (b + 1)) →
      t.learn patience (n + 1) split w = .ok (accuracy t split w b * 100,
        if t.restoresAtEnd then weightsAfter t w (b + 1) else st.weights) := by
    intro k b st hf hst hh hb
    have hne : (List.range k).map (accuracy t split w) ≠ [] := by
      have := hf.lt
      intro h
      have := congrArg List.length h
      simp at this
      omega
    have hm : (if split ≠ 0 then c!"val_accuracy" else c!"accuracy") = metricOf split := rfl
    unfold Trainer.learn Trainer.fit
    simp only [hm, hst]
    cases hr : t.restoresAtEnd
    · simp only [Bool.false_and, Bool.false_eq_true, if_false, metricValues_some hne hh, maxOf_first hf, bind, Except.bind,
        pure, Except.pure]
    · simp only [Bool.true_and, if_true, metricValues_some hne hh, maxOf_first hf, bind, Except.bind, pure, Except.pure, hb,
        Option.getD_some]
  rcases epochs_run n h1 with ⟨b, h⟩ | ⟨k, b, hk, h⟩
  · rw [← e, show 1 + n = n + 1 by omega] at h
    have hl := hlearn h.first rfl h.history h.bestWeights
    refine ⟨n + 1, b, ⟨by omega, le_refl _, .inl rfl, fun j hj => h.goesOn j (by omega)⟩, h.first, fun hs => ?_, fun _ hr => ?_⟩
    · rcases hs with hs | hs
      · exact absurd hs (h.goesOn _ (le_refl _))
      · rw [hl, hs]
        rfl
    · rw [hl, hr, h.weights]
      rfl
  · rw [← e] at h
    have hl := hlearn h.first rfl h.history h.bestWeights
    refine ⟨k, b, ⟨by have := h.first.lt; omega, by omega, .inr h.stale, h.goesOn⟩, h.first, fun _ => ?_,
      fun hs => absurd h.stale hs⟩
    rw [hl, h.weights, ite_self]

/-- **C111.** The number of epochs is determined, and so is the best one. -/
theorem C111_determined {acc : Nat → ℚ} {patience epochs k k' : Nat} (h : Takes acc patience epochs k)
    (h' : Takes acc patience epochs k') : k = k' ∧ ∀ b b', BestEpoch acc k b → BestEpoch acc k' b' → b = b' := by
  have key : ∀ {k k'}, Takes acc patience epochs k → Takes acc patience epochs k' → ¬ k < k' := by
    intro k k' h h' hl
    rcases h.stops with e | e
    · have := h'.le
      omega
    · exact h'.goesOn k hl e
  have e : k = k' := by
    have := key h h'
    have := key h' h
    omega
  subst e
  exact ⟨rfl, fun b b' hb hb' => bestEpoch_eq hb hb'⟩

/-- **C111.** With Keras 3, and with Keras 2 when training ends before the last epoch, the value returned is the accuracy in
percent of the weights that are left on the part held out. -/
theorem C111_kept_partial (t : Trainer W) (patience epochs : Nat) (split : ℚ) (w : W) (he : 0 < epochs) (hs : split ≠ 0)
    (h : t.restoresAtEnd = true ∨ ∃ k < epochs, Stale (accuracy t split w) patience k) : ∃ score left,
      t.learn patience epochs split w = .ok (score, left) ∧ score = t.heldOut left * 100 ∧
      ∃ k, Takes (accuracy t split w) patience epochs k ∧ ∀ i < k, t.heldOut (weightsAfter t w (i + 1)) ≤ t.heldOut left := by
  obtain ⟨k, b, h1, h2, h3, -⟩ := C111_exact t patience epochs split w he
  have hacc : ∀ i, accuracy t split w i = t.heldOut (weightsAfter t w (i + 1)) := fun i => by simp [accuracy, hs]
  refine ⟨_, _, h3 ?_, by rw [hacc], k, h1, fun i hi => by rw [← hacc, ← hacc]; exact h2.all i hi⟩
  rcases h with h | ⟨j, hj, h⟩
  · exact .inr h
  · rcases h1.stops with e | e
    · subst e
      exact absurd h (h1.goesOn j hj)
    · exact .inl e

/-- A training whose held out accuracy is 9/10 after the first epoch and 1/2 then; weights are the number of epochs. -/
def overfit (restores : Bool) : Trainer Nat := ⟨fun _ w => w + 1, fun e _ => e / 10, fun w => if w = 1 then 9 / 10 else 1 / 2, restores⟩

/-- **C111.** False of Keras 2 when the epochs are used up: 90 is returned, and the accuracy of the weights left is 50 percent. -/
theorem C111_kept_false : (overfit false).learn 3 3 (1 / 5) 0 = .ok (90, 3) ∧ (overfit false).heldOut 3 * 100 = 50 := by
  decide +kernel

/-- **C111.** Without any epoch there is no accuracy, and the exception is a `KeyError`. -/
theorem C111_no_epoch (t : Trainer W) (patience : Nat) (split : ℚ) (w : W) : t.learn patience 0 split w = .error .key := by
  unfold Trainer.learn Trainer.fit
  cases h : t.restoresAtEnd <;> simp [Trainer.epochs, metricValues, bind, Except.bind]

/-- Two epochs without progress end the training, and the weights after the first one are left. -/
example : (overfit false).learn 2 9 (1 / 5) 0 = .ok (90, 1) ∧ (overfit true).learn 3 3 (1 / 5) 0 = .ok (90, 1) ∧
    (overfit false).learn 2 4 0 0 = .ok (30, 4) := by decide +kernel

theorem overfit_stale : Stale (accuracy (overfit false) (1 / 5) 0) 2 3 := by
  refine ⟨0, ⟨by omega, fun i hi => absurd hi (by omega), ?_⟩, by omega⟩
  decide +kernel

example := C111_kept_partial (overfit false) 2 9 (1 / 5) 0 (by omega) (by decide +kernel) (.inr ⟨3, by omega, overfit_stale⟩)

end Props
