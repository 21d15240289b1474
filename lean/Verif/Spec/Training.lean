import Verif.Model.Training

/-! What training with early stopping is to do. -/

namespace Spec
open Model

variable {W : Type}

/-- The weights after some epochs. -/
def weightsAfter (t : Trainer W) (w : W) : Nat → W
  | 0 => w
  | e + 1 => t.epoch e (weightsAfter t w e)

/-- The accuracy that counts for an epoch (the first one is 0): on the part held out, after the epoch; if nothing is held
out, that on the training data, during the epoch. -/
def accuracy (t : Trainer W) (split : ℚ) (w : W) (e : Nat) : ℚ :=
  if split = 0 then t.during e (weightsAfter t w e) else t.heldOut (weightsAfter t w (e + 1))

/-- Among the first `k` epochs, `b` is the first one with the best accuracy. -/
structure BestEpoch (acc : Nat → ℚ) (k b : Nat) : Prop where
  lt : b < k
  before : ∀ i < b, acc i < acc b
  all : ∀ i < k, acc i ≤ acc b

/-- The last epochs, `patience` many and at least one, have not been better than the best one before. -/
def Stale (acc : Nat → ℚ) (patience k : Nat) : Prop := ∃ b, BestEpoch acc k b ∧ b + 1 + max 1 patience ≤ k

/-- Training takes `k` epochs. -/
structure Takes (acc : Nat → ℚ) (patience epochs k : Nat) : Prop where
  pos : 0 < k
  le : k ≤ epochs
  stops : k = epochs ∨ Stale acc patience k
  goesOn : ∀ j < k, ¬ Stale acc patience j

end Spec
