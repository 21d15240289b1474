import Verif.Model.Pipeline

/-! Parses that differ in how function words are labelled. -/

namespace Spec
open Py Model

/-- Labels of function words that link nothing. -/
def quietDeps : List Dep := [.ART, .AUX, .NEG, .INTJ, .MODAL]

/-- The same two tokens, under the same label or under two quiet labels. -/
def Akin {N : Type} (a a' : Dep × N × N) : Prop := a'.2 = a.2 ∧ (a'.1 = a.1 ∨ a.1 ∈ quietDeps ∧ a'.1 ∈ quietDeps)

/-- Two tokens are not joined under two different labels. -/
def OneLabel {N : Type} (hist : List (Dep × N × N)) : Prop :=
  ∀ l l' p c, (l, p, c) ∈ hist → (l', p, c) ∈ hist → l = l'

/-- The same words with the same codes; they may differ in polarity. -/
def SameSaying (t t' : STuple) : Prop :=
  List.Forall₂ (fun a a' : Argument => a'.word = a.word ∧ a'.code = a.code) t.args t'.args

/-- Two results with the same nodes and tuples up to polarity, or the same error. -/
def UpToPolarity (r r' : Except PyErr ((Heap × Dict Nat Ref) × List STuple)) : Prop :=
  match r, r' with
  | .ok ((h, d), ts), .ok ((h', d'), ts') => d' = d ∧ h'.next = h.next ∧
      (∀ x, ∃ b, h'.node x = { h.node x with isAff := b }) ∧ List.Forall₂ SameSaying ts ts'
  | .error e, .error e' => e' = e
  | _, _ => False

end Spec
