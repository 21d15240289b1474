import Verif.Model.Enums
import Verif.Spec.Tree

/-! Specification of dependency arcs, independent of the transition system. -/

namespace Spec
open Model

/-- Left end of an arc. -/
def lo (a : Nat × Nat) : Nat := min a.1 a.2
/-- Right end of an arc. -/
def hi (a : Nat × Nat) : Nat := max a.1 a.2

/-- Two arcs cross when exactly one end of one lies strictly inside the other and the remaining end strictly outside. -/
def Cross (a b : Nat × Nat) : Prop :=
  (lo a < lo b ∧ lo b < hi a ∧ hi a < hi b) ∨ (lo b < lo a ∧ lo a < hi b ∧ hi b < hi a)

/-- `x` lies strictly under arc `a`. -/
def Covers (a : Nat × Nat) (x : Nat) : Prop := lo a < x ∧ x < hi a

/-- Some arc goes from `p` to `c`. -/
def HasArc (arcs : List (Dep × Nat × Nat)) (p c : Nat) : Prop := ∃ d, (d, p, c) ∈ arcs

end Spec

namespace Spec
open Model

/-- The labelled data say that token `c` depends on token `p` through `d`. -/
def GoldArc (tuples : List (Tag × Dep × Int)) (d : Dep) (p c : Nat) : Prop :=
  (∃ tag, tuples[c]? = some (tag, d, (p : Int))) ∧ d ≠ .ROOT ∧ d ≠ .NODEP

/-- Token `i` takes part in the gold tree. -/
def GoldTok (tuples : List (Tag × Dep × Int)) (i : Nat) : Prop :=
  ∃ tag d p, tuples[i]? = some (tag, d, p) ∧ d ≠ .NODEP

/-- A projective gold tree with root `r`: one root, every other participating token depends on a participating token,
no cycle, no crossing arcs and no arc above the root. -/
structure ProjectiveGold (tuples : List (Tag × Dep × Int)) (r : Nat) : Prop where
  rootTok : ∃ tag p, tuples[r]? = some (tag, .ROOT, p)
  oneRoot : ∀ (i : Nat) (tag : Tag) (p : Int), tuples[i]? = some (tag, .ROOT, p) → i = r
  headed : ∀ (i : Nat) (tag : Tag) (d : Dep) (p : Int), tuples[i]? = some (tag, d, p) → d ≠ .ROOT → d ≠ .NODEP →
    ∃ q : Nat, p = q ∧ GoldTok tuples q
  acyclic : Acyclic fun p c => ∃ d, GoldArc tuples d p c
  noncross : ∀ d p c d' p' c', GoldArc tuples d p c → GoldArc tuples d' p' c' → ¬ Cross (p, c) (p', c')
  rootFree : ∀ d p c, GoldArc tuples d p c → ¬ Covers (p, c) r

end Spec
