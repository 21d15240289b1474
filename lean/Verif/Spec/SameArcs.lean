import Verif.Model.Enums
import Verif.Spec.Parser

/-! When two lists of arcs describe the same sentence, whatever the order they are registered in. -/

namespace Spec
open Model

/-- The labels for which the order of the dependents of a token matters. -/
def rankedDeps : List Dep := [.SUBJ, .OBJ, .PROP, .MARK, .AND, .OR]

/-- The same arcs, every token below at most one other, and the dependents of a token under a ranked label come in the
same order. -/
structure SameArcs {N : Type} [DecidableEq N] (h h' : List (Dep × N × N)) : Prop where
  perm : h.Perm h'
  single : SingleHead h
  ranked : ∀ l ∈ rankedDeps, ∀ p, labelled h p l = labelled h' p l

/-- No token of the labelled sentence has two dependents on its left under the same ranked label. -/
def LeftUnique (tuples : List (Tag × Dep × Int)) : Prop :=
  ∀ l ∈ rankedDeps, ∀ p c c', GoldArc tuples l p c → GoldArc tuples l p c' → c < p → c' < p → c = c'

end Spec
