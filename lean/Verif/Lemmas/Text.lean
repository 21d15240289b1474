import Verif.Model.Text
import Verif.Lemmas.Mutables
import Mathlib.Algebra.BigOperators.Group.List.Basic

/-! Helper lemmas on text utilities. -/

namespace Model
open Py

theorem splitOnAux_no_sep (sep : Char) : ∀ (t cur : Str), sep ∉ t → splitOnAux sep t cur = [cur.reverse ++ t]
  | [], cur, _ => by simp [splitOnAux]
  | c :: cs, cur, h => by
    have h1 : c ≠ sep := fun e => h (by simp [e])
    have h2 : sep ∉ cs := fun e => h (by simp [e])
    simp [splitOnAux, h1, splitOnAux_no_sep sep cs (c :: cur) h2]

theorem splitOnAux_sep (sep : Char) : ∀ (a b cur : Str), sep ∉ a →
    splitOnAux sep (a ++ sep :: b) cur = (cur.reverse ++ a) :: splitOnAux sep b []
  | [], b, cur, _ => by simp [splitOnAux]
  | c :: cs, b, cur, h => by
    have h1 : c ≠ sep := fun e => h (by simp [e])
    have h2 : sep ∉ cs := fun e => h (by simp [e])
    simp [splitOnAux, h1, splitOnAux_sep sep cs b (c :: cur) h2]

theorem splitOn_no_sep {sep : Char} {t : Str} (h : sep ∉ t) : splitOn t sep = [t] := by
  simp [splitOn, splitOnAux_no_sep sep t [] h]

theorem splitOn_sep {sep : Char} {a : Str} (b : Str) (h : sep ∉ a) :
    splitOn (a ++ sep :: b) sep = a :: splitOn b sep := by
  simp [splitOn, splitOnAux_sep sep a b [] h]

theorem splitOn_join {sep : Char} : ∀ (l : List Str), l ≠ [] → (∀ x ∈ l, sep ∉ x) → splitOn (join [sep] l) sep = l
  | [], h, _ => absurd rfl h
  | [x], _, h => by
    rw [join]
    exact splitOn_no_sep (h x (by simp))
  | x :: y :: l, _, h => by
    rw [join, List.append_assoc, List.singleton_append, splitOn_sep _ (h x (by simp)),
      splitOn_join (y :: l) (by simp) (fun z hz => h z (by simp [List.mem_cons.mp hz]))]

/-- Every piece is free of the separator and joining the pieces gives the text back. -/
theorem splitOnAux_spec (sep : Char) : ∀ (t cur : Str), sep ∉ cur →
    (∀ x ∈ splitOnAux sep t cur, sep ∉ x) ∧ join [sep] (splitOnAux sep t cur) = cur.reverse ++ t ∧
      splitOnAux sep t cur ≠ []
  | [], cur, h => by simp [splitOnAux, join, h]
  | c :: cs, cur, h => by
    by_cases hc : c = sep
    · subst hc
      have ih := splitOnAux_spec c cs [] (by simp)
      simp only [splitOnAux, if_true]
      obtain ⟨h1, h2, h3⟩ := ih
      refine ⟨?_, ?_, by simp⟩
      · intro x hx
        rcases List.mem_cons.mp hx with rfl | hx
        · simpa using h
        · exact h1 x hx
      · cases hs : splitOnAux c cs [] with
        | nil => exact absurd hs h3
        | cons y ys => rw [join, ← hs, h2]; simp
    · have ih := splitOnAux_spec sep cs (c :: cur) (by simp [h, Ne.symm hc])
      simpa [splitOnAux, hc] using ih

theorem splitOn_spec (t : Str) (sep : Char) :
    (∀ x ∈ splitOn t sep, sep ∉ x) ∧ join [sep] (splitOn t sep) = t ∧ splitOn t sep ≠ [] := by
  simpa [splitOn] using splitOnAux_spec sep t [] (by simp)

theorem sliceTo_neg {α} (l : List α) (n : Nat) (h : 0 < n) : sliceTo l (-(n : Int)) = l.take (l.length - n) := by
  have : -(n : Int) < 0 := by omega
  simp only [sliceTo, clampIdx, this, if_true]
  congr 1
  omega

theorem index_neg {α} (l : List α) (n : Nat) (h : 0 < n) :
    index l (-(n : Int)) = if h : n ≤ l.length then .ok (l[l.length - n]'(by omega)) else .error .index := by
  have h0 : -(n : Int) < 0 := by omega
  simp only [index, h0, if_true]
  by_cases hn : n ≤ l.length
  · have h1 : ¬ (-(n : Int) + l.length < 0) := by omega
    have h2 : (-(n : Int) + l.length).toNat = l.length - n := by omega
    simp only [h1, if_false, h2, hn, dif_pos]
    rw [List.getElem?_eq_getElem (by omega)]
  · have h1 : -(n : Int) + l.length < 0 := by omega
    simp only [h1, if_true, hn, dif_neg, not_false_iff]

theorem index_nat {α} (l : List α) (n : Nat) :
    index l (n : Int) = if h : n < l.length then .ok l[n] else .error .index := by
  have h0 : ¬ ((n : Int) < 0) := by omega
  simp only [index, h0, if_false, Int.toNat_natCast]
  by_cases hn : n < l.length
  · simp [hn]
  · simp [hn]

end Model
