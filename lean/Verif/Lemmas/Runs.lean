import Verif.Spec.Runs
import Verif.Lemmas.FrequencyQuery
import Verif.Lemmas.Corpora

/-! The n-grams of sentences are the runs of their words. -/

namespace Model
open Py Props

theorem windowText_eq_iff {w ws : List Str} (hw : ∀ t ∈ w, Spec.PlainWord t) (hws : ∀ t ∈ ws, NoBlank t) :
    Spec.windowText w = List.intercalate c!" " ws ↔ w.map (List.map Char.toLower) = ws := by
  constructor
  · intro h
    have h1 := tokens_windowText hw
    rw [h, ← join_eq_intercalate, splitWs_join ws hws] at h1
    exact h1.symm
  · intro h
    rw [windowText_join, ← join_eq_intercalate, ← h]
    rfl

theorem sentence_runs {ws : List Str} (hws : ∀ t ∈ ws, NoBlank t) (hne : ws ≠ []) (l : List Str) :
    ((((Spec.windows ws.length l).filter fun w => ∀ t ∈ w, Spec.PlainWord t).map Spec.windowText).count
      (List.intercalate c!" " ws)) = ((List.range l.length).filter fun i => Spec.RunAt ws l i).length := by
  have hpos : 0 < ws.length := List.length_pos_iff.mpr hne
  unfold Spec.windows
  rw [List.count_eq_countP, List.countP_map, List.countP_filter, List.countP_map, ← List.countP_eq_length_filter]
  have hsplit : List.range l.length = List.range (l.length + 1 - ws.length) ++
      (List.range (l.length - (l.length + 1 - ws.length))).map fun x => (l.length + 1 - ws.length) + x := by
    rw [← List.range_add]
    congr 1
    omega
  rw [hsplit, List.countP_append]
  have hz : List.countP (fun i => decide (Spec.RunAt ws l i))
      ((List.range (l.length - (l.length + 1 - ws.length))).map fun x => (l.length + 1 - ws.length) + x) = 0 := by
    rw [List.countP_eq_zero]
    intro i hi
    obtain ⟨x, hx, rfl⟩ := List.mem_map.mp hi
    rw [List.mem_range] at hx
    rw [decide_eq_true_eq]
    rintro ⟨h1, -⟩
    have h2 := congrArg List.length h1
    rw [List.length_map, List.length_take, List.length_drop] at h2
    omega
  rw [hz, Nat.add_zero]
  refine List.countP_congr fun i _ => ?_
  simp only [Function.comp, Bool.and_eq_true, decide_eq_true_eq, beq_iff_eq]
  constructor
  · rintro ⟨h1, h2⟩
    exact ⟨(windowText_eq_iff h2 hws).mp h1, h2⟩
  · rintro ⟨h1, h2⟩
    exact ⟨(windowText_eq_iff h2 hws).mpr h1, h2⟩

theorem orderTexts_runs {ws : List Str} (hws : ∀ t ∈ ws, NoBlank t) (hne : ws ≠ []) (docs : List (List (List Str))) :
    (Spec.orderTexts ws.length docs).count (List.intercalate c!" " ws) = Spec.runs ws docs.flatten := by
  rw [orderTexts_flatten]
  unfold Spec.ngramTexts Spec.runs
  rw [List.count_flatMap]
  exact congrArg List.sum (List.map_congr_left fun l _ => sentence_runs hws hne l)

theorem corpusTexts_size (N : Nat) (docs : List (List (List Str))) :
    (Spec.corpusTexts N docs).length ≤ N * docs.flatten.flatten.length := by
  rw [(corpusTexts_orders N docs).length_eq, List.length_flatMap]
  have h : ∀ n, (Spec.orderTexts (n + 1) docs).length ≤ docs.flatten.flatten.length := by
    intro n
    rw [orderTexts_flatten]
    unfold Spec.ngramTexts
    rw [List.length_flatMap, List.length_flatten]
    refine List.sum_le_sum fun l _ => ?_
    rw [List.length_map]
    refine (List.length_filter_le _ _).trans ?_
    unfold Spec.windows
    rw [List.length_map, List.length_range]
    omega
  refine (List.sum_le_card_nsmul _ docs.flatten.flatten.length ?_).trans ?_
  · intro x hx
    obtain ⟨n, -, rfl⟩ := List.mem_map.mp hx
    exact h n
  · simp

end Model
