import Verif.Lemmas.ArgOrder

/-! C134: the lists of arguments. -/

namespace Props
open Py Model Spec

/-- **C134.** Argument finding gives every node exactly the arguments the arcs of the tree give it, in the order of the nodes and
each as often as arcs give it. -/
theorem C134_lists (root : Ref) (hist : List (Dep × Ref × Ref)) (t : Tree Dep Ref) (hb : buildTree root hist = .ok t) (nodes : List Ref)
    (h : Heap) (hn : ∀ r, NoArgs (h.node r)) : ∃ h', findArgs t nodes h = .ok h' ∧ Order.Lists h t nodes h' := by
  have e := findArgs_eq hb nodes h
  exact ⟨_, e, order_lists hb hn e⟩

/-! ### Cases -/

/-- "foxes and hens bake and eat cakes": 0 foxes, 1 hens, 2 bake, 3 eat, 4 cakes; the second verb shares the subjects. -/
def eatHeap : Heap :=
  let node (w : Str) (tag : Tag) : Node := { idx := 0, original := w, tag := tag, standard := w, lem := w, canon := w }
  { next := 5, node := fun r => match r with
    | 0 => node c!"fox" .NOUN
    | 1 => node c!"hen" .NOUN
    | 2 => node c!"bake" .VERB
    | 3 => node c!"eat" .VERB
    | 4 => node c!"cake" .NOUN
    | _ => default }

def eatArcs : List (Dep × Ref × Ref) := [(.SUBJ, 2, 0), (.AND, 0, 1), (.AND, 2, 3), (.OBJ, 3, 4)]

def eatTree : Tree Dep Ref := (buildTree 2 eatArcs).toOption.getD { root := 0 }

theorem eat_built : buildTree 2 eatArcs = .ok eatTree := rfl

theorem eat_blank (r : Ref) : NoArgs (eatHeap.node r) := by
  rcases r with _ | _ | _ | _ | _ | r <;> exact ⟨rfl, rfl, rfl, rfl, rfl, rfl, rfl, rfl, rfl, rfl, rfl, rfl, rfl, rfl⟩

/-- Both verbs have both subjects, once each and in order; the object is that of the second verb only. -/
example : ∃ h', findArgs eatTree [0, 1, 2, 3, 4] eatHeap = .ok h' ∧ (h'.node 2).subjs = [0, 1] ∧ (h'.node 3).subjs = [0, 1] ∧
    (h'.node 2).objs = [] ∧ (h'.node 3).objs = [4] := by
  obtain ⟨h', e, L⟩ := C134_lists _ _ _ eat_built [0, 1, 2, 3, 4] eatHeap eat_blank
  refine ⟨h', e, ?_, ?_, ?_, ?_⟩
  · rw [L.subjs]; decide +kernel
  · rw [L.subjs]; decide +kernel
  · rw [L.objs]; decide +kernel
  · rw [L.objs]; decide +kernel

end Props
