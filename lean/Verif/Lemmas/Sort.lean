import Verif.Py.Sort
import Mathlib.Data.List.Lex
import Mathlib.Tactic.TypeStar
import Mathlib.Data.List.Perm.Basic

namespace Py

section
variable {α κ : Type*} [LinearOrder κ] (key : α → κ)

theorem insertDesc_perm (x : α) (l : List α) : (insertDesc key x l).Perm (x :: l) := by
  induction l with
  | nil => exact List.Perm.refl _
  | cons y l ih =>
    unfold insertDesc
    split
    · exact List.Perm.refl _
    · exact (ih.cons y).trans (List.Perm.swap x y l)

theorem sortDesc_perm (l : List α) : (sortDesc key l).Perm l := by
  induction l with
  | nil => exact List.Perm.refl _
  | cons x l ih => exact (insertDesc_perm key x _).trans (ih.cons x)

theorem insertDesc_sorted (x : α) (l : List α) (h : l.Pairwise fun a b => key b ≤ key a) :
    (insertDesc key x l).Pairwise fun a b => key b ≤ key a := by
  induction l with
  | nil => simp [insertDesc]
  | cons y l ih =>
    rw [List.pairwise_cons] at h
    unfold insertDesc
    split
    · rename_i hxy
      rw [List.pairwise_cons]
      refine ⟨?_, List.pairwise_cons.mpr h⟩
      intro z hz
      rcases List.mem_cons.mp hz with rfl | hz
      · exact hxy
      · exact le_trans (h.1 z hz) hxy
    · rename_i hxy
      rw [List.pairwise_cons]
      refine ⟨?_, ih h.2⟩
      intro z hz
      rcases List.mem_cons.mp ((insertDesc_perm key x l).mem_iff.mp hz) with rfl | hz
      · exact (not_le.mp hxy).le
      · exact h.1 z hz

theorem sortDesc_sorted (l : List α) : (sortDesc key l).Pairwise fun a b => key b ≤ key a := by
  induction l with
  | nil => exact List.Pairwise.nil
  | cons x l ih => exact insertDesc_sorted key x _ ih

theorem insertDesc_filter (x : α) (l : List α) (v : κ) :
    (insertDesc key x l).filter (fun a => decide (key a = v)) = (x :: l).filter fun a => decide (key a = v) := by
  induction l with
  | nil => rfl
  | cons y l ih =>
    unfold insertDesc
    split
    · rfl
    · rename_i hxy
      rw [List.filter_cons, ih, List.filter_cons, List.filter_cons (x := x), List.filter_cons]
      by_cases h1 : key y = v
      · have h2 : ¬ key x = v := by
          rintro rfl
          exact hxy h1.le
        simp [h1, h2]
      · simp [h1]

/-- Items of equal key keep their order. -/
theorem sortDesc_filter (l : List α) (v : κ) :
    (sortDesc key l).filter (fun a => decide (key a = v)) = l.filter fun a => decide (key a = v) := by
  induction l with
  | nil => rfl
  | cons x l ih =>
    show (insertDesc key x (sortDesc key l)).filter _ = _
    rw [insertDesc_filter, List.filter_cons, ih, List.filter_cons]

theorem mem_sortDesc {x : α} {l : List α} : x ∈ sortDesc key l ↔ x ∈ l := (sortDesc_perm key l).mem_iff

/-- The first item of the result is the first item with the greatest key. -/
theorem sortDesc_head (l : List α) (h : l ≠ []) : ∃ x rest pre post, sortDesc key l = x :: rest ∧
    l = pre ++ x :: post ∧ (∀ y ∈ pre, key y < key x) ∧ ∀ y ∈ post, key y ≤ key x := by
  induction l with
  | nil => exact absurd rfl h
  | cons a l ih =>
    by_cases hl : l = []
    · subst hl
      exact ⟨a, [], [], [], rfl, rfl, by simp, by simp⟩
    · obtain ⟨x, rest, pre, post, h1, h2, h3, h4⟩ := ih hl
      have hs : sortDesc key (a :: l) = insertDesc key a (x :: rest) := by
        show insertDesc key a (sortDesc key l) = _
        rw [h1]
      rw [hs]
      unfold insertDesc
      split
      · rename_i hxa
        refine ⟨a, _, [], l, rfl, rfl, by simp, ?_⟩
        intro y hy
        rw [h2] at hy
        rcases List.mem_append.mp hy with hy | hy
        · exact le_trans (h3 y hy).le hxa
        · rcases List.mem_cons.mp hy with rfl | hy
          · exact hxa
          · exact le_trans (h4 y hy) hxa
      · rename_i hxa
        refine ⟨x, _, a :: pre, post, rfl, by rw [h2]; rfl, ?_, h4⟩
        intro y hy
        rcases List.mem_cons.mp hy with rfl | hy
        · exact not_le.mp hxa
        · exact h3 y hy

end

theorem tupleLt_iff {κ : Type*} [LinearOrder κ] : ∀ (a b : List κ), tupleLt a b = true ↔ a < b
  | _, [] => by simp [tupleLt]
  | [], _ :: _ => by simp [tupleLt]
  | a :: as, b :: bs => by
    unfold tupleLt
    rw [List.cons_lt_cons_iff]
    split
    · rename_i e
      subst e
      rw [tupleLt_iff as bs]
      simp
    · rename_i e
      simp [e]

theorem foldl_max {α κ : Type*} [LinearOrder κ] (key : α → κ) (lt : α → α → Bool)
    (hlt : ∀ a b, lt a b = true ↔ key a < key b) : ∀ (l : List α) (x : α),
    let m := l.foldl (fun m y => if lt m y then y else m) x
    (m = x ∨ m ∈ l) ∧ key x ≤ key m ∧ ∀ y ∈ l, key y ≤ key m
  | [], x => by simp
  | y :: l, x => by
    simp only [List.foldl_cons]
    have ih := foldl_max key lt hlt l (if lt x y then y else x)
    simp only at ih
    obtain ⟨h1, h2, h3⟩ := ih
    generalize l.foldl (fun m y => if lt m y = true then y else m) (if lt x y = true then y else x) = m at *
    by_cases hxy : lt x y = true
    · simp only [hxy, if_true] at h1 h2
      refine ⟨Or.inr ?_, le_trans ((hlt x y).mp hxy).le h2, ?_⟩
      · rcases h1 with h | h
        · exact List.mem_cons.mpr (Or.inl h)
        · exact List.mem_cons_of_mem _ h
      · intro z hz
        rcases List.mem_cons.mp hz with rfl | hz
        · exact h2
        · exact h3 z hz
    · simp only [hxy] at h1 h2
      have hyx : key y ≤ key x := not_lt.mp fun h => hxy ((hlt x y).mpr h)
      refine ⟨?_, h2, ?_⟩
      · rcases h1 with h | h
        · exact Or.inl h
        · exact Or.inr (List.mem_cons_of_mem _ h)
      · intro z hz
        rcases List.mem_cons.mp hz with rfl | hz
        · exact le_trans hyx h2
        · exact h3 z hz

theorem pyMax_spec {α κ : Type*} [LinearOrder κ] (key : α → κ) (lt : α → α → Bool)
    (hlt : ∀ a b, lt a b = true ↔ key a < key b) (l : List α) (h : l ≠ []) :
    ∃ m, pyMax lt l = .ok m ∧ m ∈ l ∧ ∀ y ∈ l, key y ≤ key m := by
  cases l with
  | nil => exact absurd rfl h
  | cons x l =>
    obtain ⟨h1, h2, h3⟩ := foldl_max key lt hlt l x
    refine ⟨_, rfl, ?_, ?_⟩
    · rcases h1 with h | h
      · rw [h]; simp
      · exact List.mem_cons_of_mem _ h
    · intro y hy
      rcases List.mem_cons.mp hy with rfl | hy
      · exact h2
      · exact h3 y hy

end Py
