import Verif.Spec.Pipeline
import Verif.Model.Semantics

/-! Specification vocabulary for the effect of chunking. -/

namespace Spec
open Py Model

/-- Words looked at to find what is meant or who acts: "by", relative pronouns, reflexive pronouns. -/
def referringWords : List Str := [c!"by", c!"that", c!"which", c!"who", c!"myself", c!"yourself", c!"yourselves",
  c!"himself", c!"herself", c!"itself", c!"ourself", c!"ourselves", c!"theirself", c!"themselves", c!"oneself"]

/-- `w'` is the chunk of a common noun with lemma `w`: lemmas of nominals of the sentence that stand before it, in sentence
order, at least one, then `w`. -/
def CompoundOf (h : Heap) (nodes : List Ref) (w w' : Str) : Prop :=
  ∃ r ∈ nodes, (h.node r).tag = .NOUN ∧ (h.node r).lem = w ∧ (h.node r).chunk = some w' ∧
    ∃ before : List Ref, before ≠ [] ∧ (∀ x ∈ before, x ∈ nodes ∧ (h.node x).tag ∈ nominal ∧ (h.node x).idx < (h.node r).idx) ∧
      before.Pairwise (fun a b => (h.node a).idx ≤ (h.node b).idx) ∧
      w' = before.flatMap (fun x => (h.node x).lem ++ c!" ") ++ w

/-- The same argument, except that a noun `w` may have become a compound `w'` with `R w w'`. -/
def SameArg (R : Str → Str → Prop) (a a' : Argument) : Prop :=
  a'.code = a.code ∧ a'.isAff = a.isAff ∧ (a'.word = a.word ∨ a.code ∈ [c!"N", c!"A", c!"C"] ∧ R a.word a'.word)

/-- The same tuples in the same order, except for compounds. -/
def SameTuples (R : Str → Str → Prop) (ts ts' : List STuple) : Prop :=
  List.Forall₂ (fun t t' => List.Forall₂ (SameArg R) t.args t'.args) ts ts'

end Spec
