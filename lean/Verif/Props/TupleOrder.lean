import Verif.Lemmas.TupleOrder
import Verif.Lemmas.TestHelpers
import Verif.Props.Semantics

/-! C133: order and repetitions of tuples. -/

namespace Props
open Py Model Spec

/-- **C133.** The tuples of any registered nodes come in one fixed order, each as often as it is said. -/
theorem C133_order (pp : Str → Str) (h : Heap) (nodes : List Ref) :
    extractTuples pp h nodes = .ok (Order.tuples pp h nodes) := order_tuples pp h nodes

/-- **C133.** The same of the tuples of a sentence, by the nodes of the sentence. -/
theorem C133_sentence {c : Logic} {pack : List Str × List Tag × Option (Tree Dep Nat) × Bool} {h : Heap} {dict : Dict Nat Ref}
    {ts : List STuple} (e : c.process pack = .ok ((h, dict), ts)) : ts = Order.tuples c.pp h dict.values := by
  have := process_extract e
  rw [order_tuples] at this
  exact (Except.ok.inj this).symm

/-- Statement with a clause, of four or five arguments. -/
def LongTuple (x : STuple) : Prop := x.args.length = 4 ∨ x.args.length = 5

/-- Statement of two or three arguments. -/
def ShortTuple (x : STuple) : Prop := x.args.length = 2 ∨ x.args.length = 3

/-- "b is eaten". -/
def PassiveTuple (x : STuple) : Prop :=
  ∃ (b : Argument) (pol : Bool) (q : Str), x.args = [b, ⟨c!"be", c!"C", pol⟩, ⟨q, c!"L", true⟩]

theorem clause_long {h : Heap} {v s o s' : Ref} {x : STuple} (hx : x ∈ Order.clause h v s o s') : LongTuple x := by
  simp only [Order.clause, List.mem_append, List.mem_map] at hx
  rcases hx with hx | ⟨p, -, rfl⟩
  · split at hx
    · rw [List.mem_append] at hx
      rcases hx with hx | hx
      · split at hx
        · simp only [List.mem_singleton] at hx; subst hx; exact Or.inl rfl
        · cases hx
      · obtain ⟨p, -, rfl⟩ := List.mem_map.mp hx
        exact Or.inr rfl
    · cases hx
  · exact Or.inr rfl

theorem verb_short {h : Heap} {v : Ref} {x : STuple} (hx : x ∈ Order.ofVerb h v) : ShortTuple x := by
  simp only [Order.ofVerb, List.mem_append, List.mem_flatMap, List.mem_map] at hx
  rcases hx with (hx | ⟨_, -, _, -, rfl⟩) | ⟨_, -, _, -, rfl⟩
  · split at hx
    · obtain ⟨_, -, rfl⟩ := List.mem_map.mp hx; exact Or.inl rfl
    · cases hx
  · exact Or.inr rfl
  · exact Or.inr rfl

theorem actives_short {h : Heap} {n p : Ref} {x : STuple} (hx : x ∈ Order.actives h n p) : ShortTuple x := by
  simp only [Order.actives, List.mem_flatMap, List.mem_map] at hx
  obtain ⟨_, -, _, -, rfl⟩ := hx
  exact Or.inr rfl

theorem noun_short {pp : Str → Str} {h : Heap} {n : Ref} {x : STuple} (hx : x ∈ Order.ofNoun pp h n) : ShortTuple x := by
  simp only [Order.ofNoun, List.mem_append, List.mem_flatMap, List.mem_map, List.mem_cons] at hx
  rcases hx with ((⟨_, -, rfl⟩ | ⟨_, -, rfl | hx⟩) | ⟨_, -, rfl⟩) | ⟨_, -, rfl | hx⟩
  · exact Or.inr rfl
  · exact Or.inr rfl
  · split at hx
    · exact actives_short hx
    · cases hx
  · exact Or.inr rfl
  · exact Or.inr rfl
  · exact actives_short hx

theorem passives_passive {pp : Str → Str} {h : Heap} {v : Ref} {x : STuple} (hx : x ∈ Order.passives pp h v) : PassiveTuple x := by
  unfold Order.passives at hx
  split at hx
  · cases hx
  · obtain ⟨_, -, rfl⟩ := List.mem_map.mp hx
    exact ⟨_, _, _, rfl⟩

/-- **C133.** The tuples of any sentence are statements with clauses, then shorter statements, then passive forms. -/
theorem C133_rounds {c : Logic} {pack : List Str × List Tag × Option (Tree Dep Nat) × Bool} {h : Heap} {dict : Dict Nat Ref}
    {ts : List STuple} (e : c.process pack = .ok ((h, dict), ts)) :
    ∃ l m p : List STuple, ts = l ++ m ++ p ∧ (∀ x ∈ l, LongTuple x) ∧ (∀ x ∈ m, ShortTuple x) ∧ ∀ x ∈ p, PassiveTuple x := by
  refine ⟨_, _, _, C133_sentence e, ?_, ?_, ?_⟩
  · intro x hx
    obtain ⟨v, -, hx⟩ := List.mem_flatMap.mp hx
    simp only [Order.clauses, List.mem_flatMap] at hx
    obtain ⟨_, -, _, -, _, -, hx⟩ := hx
    exact clause_long hx
  · intro x hx
    obtain ⟨v, -, hx⟩ := List.mem_flatMap.mp hx
    split at hx
    · exact verb_short hx
    · split at hx
      · exact noun_short hx
      · cases hx
  · intro x hx
    obtain ⟨v, -, hx⟩ := List.mem_flatMap.mp hx
    exact passives_passive hx

/-! ### Cases -/

/-- "songs, old and old and sung by men and women": an adjective said twice, and two agents. -/
def sungHeap : Heap :=
  let node (w : Str) (tag : Tag) : Node := { idx := 0, original := w, tag := tag, standard := w, lem := w, canon := w }
  { next := 6, node := fun r => match r with
    | 0 => { node c!"song" .NOUN with adjs := [1, 2, 3] }
    | 1 => node c!"old" .ADJ
    | 2 => node c!"old" .ADJ
    | 3 => { node c!"sung" .ADJ with activeVerb := some c!"sing", agents := [4, 5] }
    | 4 => node c!"man" .NOUN
    | 5 => node c!"woman" .NOUN
    | _ => default }

/-- Repetitions and order are kept. -/
example : Order.tuples (· ++ c!"n") sungHeap [0, 1, 2, 3, 4, 5] = [
    ⟨[⟨c!"song", c!"N", true⟩, ⟨c!"be", c!"C", true⟩, ⟨c!"old", c!"A", true⟩]⟩,
    ⟨[⟨c!"song", c!"N", true⟩, ⟨c!"be", c!"C", true⟩, ⟨c!"old", c!"A", true⟩]⟩,
    ⟨[⟨c!"song", c!"N", true⟩, ⟨c!"be", c!"C", true⟩, ⟨c!"sung", c!"L", true⟩]⟩,
    ⟨[⟨c!"man", c!"N", true⟩, ⟨c!"sing", c!"T", true⟩, ⟨c!"song", c!"N", true⟩]⟩,
    ⟨[⟨c!"woman", c!"N", true⟩, ⟨c!"sing", c!"T", true⟩, ⟨c!"song", c!"N", true⟩]⟩] := by decide +kernel

/-- Words speak in the order of the nodes; the passive form comes last. -/
example : Order.tuples (· ++ c!"n") knowHeap [2, 1, 0, 3] = [
    ⟨[⟨c!"song", c!"N", true⟩, ⟨c!"be", c!"C", true⟩, ⟨c!"old", c!"A", true⟩]⟩,
    ⟨[⟨c!"people", c!"N", true⟩, ⟨c!"know", c!"T", false⟩, ⟨c!"song", c!"N", true⟩]⟩,
    ⟨[⟨c!"song", c!"N", true⟩, ⟨c!"be", c!"C", false⟩, ⟨c!"known", c!"L", true⟩]⟩] := by decide +kernel

example : Order.tuples (· ++ c!"ed") singHeap [0, 1, 2] = [⟨[⟨c!"body", c!"N", true⟩, ⟨c!"want", c!"T", true⟩,
    ⟨c!"body", c!"N", true⟩, ⟨c!"sing", c!"I", true⟩]⟩] := by decide +kernel

end Props
