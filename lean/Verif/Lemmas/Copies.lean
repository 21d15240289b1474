import Verif.Lemmas.Corpora

/-! A corpus whose sentences are repeated. -/

namespace Model
open Py Props

theorem flatMap_copies {α β : Type} (k : Nat) (l : List α) (f : α → List β) :
    (List.replicate k l).flatten.flatMap f = (List.replicate k (l.flatMap f)).flatten := by
  induction k with
  | zero => rfl
  | succ k ih => rw [List.replicate_succ, List.flatten_cons, List.flatMap_append, ih, List.replicate_succ, List.flatten_cons]

theorem count_copies {α : Type} [BEq α] (k : Nat) (l : List α) (x : α) :
    (List.replicate k l).flatten.count x = k * l.count x := by
  induction k with
  | zero => simp
  | succ k ih => rw [List.replicate_succ, List.flatten_cons, List.count_append, ih]; ring

theorem length_copies {α : Type} (k : Nat) (l : List α) : (List.replicate k l).flatten.length = k * l.length := by
  induction k with
  | zero => simp
  | succ k ih => rw [List.replicate_succ, List.flatten_cons, List.length_append, ih]; ring

theorem sum_scaled {α : Type} (k : Nat) (f g : α → Nat) (l : List α) (h : ∀ x ∈ l, f x = k * g x) :
    (l.map f).sum = k * (l.map g).sum := by
  induction l with
  | nil => simp
  | cons x l ih =>
    rw [List.map_cons, List.map_cons, List.sum_cons, List.sum_cons, h x (by simp), ih fun y hy => h y (by simp [hy])]
    ring

theorem orderTexts_copies {k : Nat} {a b : List (List (List Str))} (h : Spec.Copies k a b) (n : Nat) :
    (List.replicate k (Spec.orderTexts n a)).flatten.Perm (Spec.orderTexts n b) := by
  rw [orderTexts_flatten, orderTexts_flatten]
  unfold Spec.ngramTexts
  rw [← flatMap_copies]
  exact h.flatMap_right _

theorem orderTexts_count_copies {k : Nat} {a b : List (List (List Str))} (h : Spec.Copies k a b) (n : Nat) (t : Str) :
    (Spec.orderTexts n b).count t = k * (Spec.orderTexts n a).count t := by
  rw [← (orderTexts_copies h n).count_eq, count_copies]

theorem orderTexts_length_copies {k : Nat} {a b : List (List (List Str))} (h : Spec.Copies k a b) (n : Nat) :
    (Spec.orderTexts n b).length = k * (Spec.orderTexts n a).length := by
  rw [← (orderTexts_copies h n).length_eq, length_copies]

theorem orderTexts_mem_copies {k : Nat} (hk : 1 ≤ k) {a b : List (List (List Str))} (h : Spec.Copies k a b) (n : Nat)
    (t : Str) : t ∈ Spec.orderTexts n b ↔ t ∈ Spec.orderTexts n a := by
  rw [← List.count_pos_iff, ← List.count_pos_iff, orderTexts_count_copies h]
  constructor
  · exact fun h => Nat.pos_of_mul_pos_left h
  · exact fun h => Nat.mul_pos hk h

theorem corpusTexts_count_copies {k : Nat} {a b : List (List (List Str))} (h : Spec.Copies k a b) (N : Nat) (t : Str) :
    (Spec.corpusTexts N b).count t = k * (Spec.corpusTexts N a).count t := by
  rw [(corpusTexts_orders N a).count_eq, (corpusTexts_orders N b).count_eq, List.count_flatMap, List.count_flatMap]
  exact sum_scaled k _ _ _ fun n _ => orderTexts_count_copies h (n + 1) t

theorem corpusTexts_length_copies {k : Nat} {a b : List (List (List Str))} (h : Spec.Copies k a b) (N : Nat) :
    (Spec.corpusTexts N b).length = k * (Spec.corpusTexts N a).length := by
  rw [(corpusTexts_orders N a).length_eq, (corpusTexts_orders N b).length_eq, List.length_flatMap, List.length_flatMap]
  exact sum_scaled k _ _ _ fun n _ => orderTexts_length_copies h (n + 1)

/-- No n-gram of a corpus with repeated sentences occurs once. -/
theorem copies_poor {k : Nat} (hk : 2 ≤ k) {a b : List (List (List Str))} (h : Spec.Copies k a b) {N : Nat} (hN : 2 ≤ N) :
    (Spec.corpusVocab N b).Poor N := by
  refine ⟨2, le_rfl, hN, 1, le_rfl, by omega, ?_⟩
  rintro e he ⟨-, h1⟩
  unfold Spec.corpusVocab at he
  obtain ⟨t, -, rfl⟩ := List.mem_map.mp he
  have h1 : (Spec.corpusTexts N b).count t = 1 := h1
  rw [corpusTexts_count_copies h] at h1
  have := Nat.eq_one_of_mul_eq_one_right h1
  omega

end Model
