import Mathlib.Logic.Relation
import Mathlib.Data.List.Basic

/-! Specification of trees by their registration history `(label, parent, child)`. -/

namespace Spec

variable {L N : Type} [DecidableEq L] [DecidableEq N]

/-- Elements in order of first occurrence. -/
def firstSeen {α} [DecidableEq α] (l : List α) : List α :=
  l.foldl (fun acc x => if x ∈ acc then acc else acc ++ [x]) []

/-- The latest registration of `c`, as `(label, parent)`. -/
def lastParent (hist : List (L × N × N)) (c : N) : Option (L × N) :=
  (hist.reverse.find? fun a => a.2.2 = c).map fun a => (a.1, a.2.1)

/-- Children of `p` registered under label `l`, in order. -/
def labelled (hist : List (L × N × N)) (p : N) (l : L) : List N :=
  (hist.filter fun a => a.1 = l ∧ a.2.1 = p).map fun a => a.2.2

/-- Labels used below `p`, in order of first use. -/
def labelsOf (hist : List (L × N × N)) (p : N) : List L :=
  firstSeen ((hist.filter fun a => a.2.1 = p).map fun a => a.1)

/-- Every child is registered at most once. -/
def SingleHead (hist : List (L × N × N)) : Prop := (hist.map fun a => a.2.2).Nodup

instance (hist : List (L × N × N)) : Decidable (SingleHead hist) := by unfold SingleHead; infer_instance

/-- `path` is the maximal chain of parents labelled `l` above `n`, nearest first. -/
inductive UpChain (parent : N → Option (L × N)) (l : L) : N → List N → Prop
  | stop {n} : (∀ p, parent n ≠ some (l, p)) → UpChain parent l n []
  | step {n p ps} : parent n = some (l, p) → UpChain parent l p ps → UpChain parent l n (p :: ps)

/-- No directed cycle. -/
def Acyclic (r : N → N → Prop) : Prop := ∀ n, ¬ Relation.TransGen r n n

theorem acyclic_of_rank {r : N → N → Prop} (f : N → Nat) (h : ∀ a b, r a b → f a < f b) : Acyclic r := by
  have : ∀ a b, Relation.TransGen r a b → f a < f b := by
    intro a b hab
    induction hab with
    | single h1 => exact h _ _ h1
    | tail _ h1 ih => exact Nat.lt_trans ih (h _ _ h1)
  exact fun n hn => Nat.lt_irrefl _ (this n n hn)

end Spec
