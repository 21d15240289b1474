import Verif.Lemmas.PrintedStages

/-! The dots of printed words. -/

namespace Model
open Py

variable {db : CharDB}

theorem noSplitDot_dot : ∀ r ∈ tokNoSplitDot, r.needs (· == '.') = true := by decide +kernel
theorem splitDot_dot : ∀ r ∈ tokSplitDot, r.1.needs (· == '.') = true := by decide +kernel

/-- Words without dots stay as they are. -/
theorem splitDots_self {w : Str} (hw : NoBlank w) (hd : '.' ∉ w) : splitDots db w = [w] := by
  have hc : ∀ c ∈ w, (c == '.') = false := by
    intro c hc
    rw [beq_eq_false_iff_ne]
    rintro rfl
    exact hd hc
  unfold splitDots
  rw [if_neg, subAll_of_needs tokSplitDot splitDot_dot hc]
  · exact splitWs_noBlank_self hw
  · rw [Bool.not_eq_true, List.any_eq_false]
    intro r hr
    rw [Re.fullmatch_of_needs (noSplitDot_dot r hr) hc]
    simp

theorem fullmatch_den {r : Re} {w : Str} (h : r.fullmatch db w = true) : r.den db w ∧ ∃ t ∈ r.run db ⟨[], w, []⟩, t.rest = [] := by
  unfold Re.fullmatch at h
  rw [List.any_eq_true] at h
  obtain ⟨t, ht, hr⟩ := h
  have hr : t.rest = [] := by simpa using hr
  obtain ⟨v, hv⟩ := r.run_eats _ t ht
  have e := hv.rest
  rw [hr, List.append_nil] at e
  simp only at e
  subst e
  exact ⟨Re.run_den r _ t _ ht hv, t, ht, hr⟩

/-- Two iterations that each contain a dot. -/
theorem rep_two {a : Re} {g : Bool} {w : Str} (h : (Re.rep 2 g a).den db w) (ha : ∀ u, a.den db u → '.' ∈ u) : 2 ≤ w.count '.' := by
  obtain ⟨l, hl, rfl, h2⟩ := h
  match l, hl with
  | u :: v :: l, _ =>
    have h3 := List.one_le_count_iff.mpr (ha u (h2 u (by simp)))
    have h4 := List.one_le_count_iff.mpr (ha v (h2 v (by simp)))
    simp only [List.flatten_cons, List.count_append]
    omega

theorem last_is_dot {a : Re} {u : Str} (h : (Re.seq a (.cls ⟨false, true, [.ch '.']⟩)).den db u) : '.' ∈ u := by
  obtain ⟨x, y, rfl, -, c, rfl, hc⟩ := h
  rw [dot_test hc]
  simp

/-- A final dot is split off. -/
theorem splitDots_end {w : Str} (hw : ∀ c ∈ w, isSpace c = false) (hd : '.' ∉ w) (hl : w.length ≠ 1) :
    splitDots db (w ++ ['.']) = splitWs w ++ [['.']] := by
  have hcount : (w ++ ['.']).count '.' = 1 := by
    rw [List.count_append, List.count_eq_zero.mpr hd]
    rfl
  unfold splitDots
  rw [if_neg]
  · unfold tokSplitDot
    rw [subAll_cons, Re.sub_none, subAll_cons]
    · rw [sub_eq_go, subGo_skip]
      · have hit : (re% r"\.$").matchAt db (w.reverse ++ []) (['.'] ++ []) = some ⟨'.' :: (w.reverse ++ []), [], []⟩ := by
          apply Re.matchAt_eq_some (l := [])
          · rfl
          · simp
        have := subGo_hit (tpl := tpl% r" \g<0>") (by simp) hit rfl rfl
        simp only [List.append_nil] at this ⊢
        rw [this, subGo_nil]
        have e : expand ['.'] [] (tpl% r" \g<0>") = [' ', '.'] := rfl
        rw [e]
        show splitWs (w ++ ' ' :: (['.'] ++ [])) = _
        rw [splitWs_sep (by decide)]
        rfl
      · intro u v e hv
        obtain ⟨c, v, rfl⟩ := List.exists_cons_of_ne_nil hv
        apply none_of_den
        rintro x y e2 ⟨x1, y1, rfl, ⟨d, rfl, hd2⟩, -⟩
        have := dot_test hd2
        subst this
        simp only [List.cons_append, List.nil_append, List.append_assoc, List.cons.injEq] at e2
        exact hd (by rw [e, e2.1]; simp)
    · intro pre rest et
      apply none_of_den
      rintro x y e2 ⟨x1, y1, rfl, -, x2, y2, rfl, ⟨d, rfl, hd2⟩, ⟨f, rfl, hf⟩⟩
      have := dot_test hd2
      subst this
      have e3 : w ++ '.' :: [] = (pre.reverse ++ x1) ++ '.' :: (f :: y) := by
        rw [et, e2]; simp
      obtain ⟨z, -, e4⟩ := in_right e3 hd
      cases z with
      | nil => simp at e4
      | cons c z => simp at e4
  · rw [Bool.not_eq_true, List.any_eq_false]
    intro r hr hm
    obtain ⟨hden, t, ht, hrest⟩ := fullmatch_den hm
    unfold tokNoSplitDot at hr
    simp only [List.mem_cons, List.not_mem_nil, or_false] at hr
    rcases hr with rfl | rfl | rfl | rfl | rfl | rfl
    · have := rep_two hden fun u hu => last_is_dot hu
      omega
    · obtain ⟨x, y, e, -, x2, y2, rfl, h2, -⟩ := hden
      have := rep_two h2 fun u hu => last_is_dot hu
      rw [e, List.count_append, List.count_append] at hcount
      omega
    · obtain ⟨x, y, e, ⟨c, rfl, -⟩, ⟨d, rfl, -⟩⟩ := hden
      have := congrArg List.length e
      simp at this
      exact hl this
    · obtain ⟨u, x, y, h1, h2, -, -⟩ := Re.run_seq ht
      obtain ⟨u2, x2, y2, h3, h4, -, -⟩ := Re.run_seq h2
      obtain ⟨e, w', v', e2, x3, y3, rfl, ⟨b, rfl, hb⟩, -⟩ := Re.run_ahead h4
      rw [e] at hrest
      rw [hrest] at e2
      simp at e2
    · have := rep_two hden fun u hu => last_is_dot hu
      omega
    · have := rep_two hden fun u hu => by
        obtain ⟨c, rfl, hc⟩ := hu
        rw [dot_test hc]
        simp
      omega

/-- The words after the split at final dots. -/
def cutDots (p : Spec.Printed) : List Str :=
  Spec.Printed.singles p.opening ++ ((if p.inner = [] ∧ p.mark = [','] then [p.stem ++ p.tail ++ [',']]
    else (p.stem ++ p.tail) :: (Spec.Printed.singles p.inner ++ Spec.Printed.singles p.mark)) ++ Spec.Printed.singles p.outer)

theorem singles_dots {s : Str} (hs : ∀ c ∈ s, isSpace c = false) :
    (Spec.Printed.singles s).flatMap (splitDots db) = Spec.Printed.singles s := by
  induction s with
  | nil => rfl
  | cons c s ih =>
    have h1 : splitDots db [c] = [[c]] := by
      by_cases hc : c = '.'
      · subst hc
        exact splitDots_end (w := []) (by simp) (by simp) (by simp)
      · exact splitDots_self ⟨by simp, by simpa using hs c (by simp)⟩ (by simpa using fun h => hc h.symm)
    have e : Spec.Printed.singles (c :: s) = [c] :: Spec.Printed.singles s := rfl
    rw [e, List.flatMap_cons, h1, ih fun d hd => hs d (by simp [hd])]
    rfl

section
variable {p : Spec.Printed} (h : p.Ordinary db)
include h

theorem Ordinary.parts_inky : (∀ c ∈ p.opening, isSpace c = false) ∧ (∀ c ∈ p.inner, isSpace c = false) ∧
    (∀ c ∈ p.mark, isSpace c = false) ∧ ∀ c ∈ p.outer, isSpace c = false := by
  have ho : ∀ c ∈ ['(', '[', '{', '"'], isSpace c = false := by decide
  have hcl : ∀ c ∈ [')', ']', '}', '"'], isSpace c = false := by decide
  have hm : ∀ c ∈ marks, isSpace c = false := by decide
  exact ⟨fun c hc => ho c (h.opening c hc), fun c hc => hcl c (h.inner c hc), fun c hc => hm c (Ordinary.mark_sub h c hc),
    fun c hc => hcl c (h.outer c hc)⟩

theorem Ordinary.core_not {m : Char} (hm : m ∈ usedMarks) (hq : m ≠ '\'') : m ∉ p.stem ++ p.tail := by
  rw [List.mem_append, not_or]
  exact ⟨Ordinary.stem_not h hm, Ordinary.tail_not h hm hq⟩

theorem Ordinary.dots : (cutAlways p).flatMap (splitDots db) = cutDots p := by
  obtain ⟨ho, hi, hm, hu⟩ := Ordinary.parts_inky h
  have hcore := Ordinary.core_noBlank h
  have hdot := Ordinary.core_not h (m := '.') (by decide) (by decide)
  unfold cutAlways cutDots
  rw [List.flatMap_append, List.flatMap_append, singles_dots ho, singles_dots hu]
  congr 2
  by_cases hin : p.inner = []
  · by_cases hm1 : p.mark = [',']
    · rw [if_pos ⟨hin, .inl hm1⟩, if_pos ⟨hin, hm1⟩, hm1]
      simp only [List.flatMap_cons, List.flatMap_nil, List.append_nil]
      apply splitDots_self
      · refine ⟨by simp, fun c hc => ?_⟩
        rcases List.mem_append.mp hc with hc | hc
        · exact hcore.2 c hc
        · exact hm c (by rw [hm1]; exact hc)
      · rw [List.mem_append, not_or]
        exact ⟨hdot, by decide⟩
    · by_cases hm2 : p.mark = ['.']
      · rw [if_pos ⟨hin, .inr hm2⟩, if_neg fun hh => hm1 hh.2, hm2, hin]
        simp only [List.flatMap_cons, List.flatMap_nil, List.append_nil]
        rw [splitDots_end hcore.2 hdot, splitWs_noBlank_self hcore]
        · rfl
        · have h1 := (h.dot hm2 hin).2
          rcases h.tail with et | hl
          · have := (h1 et).1
            rw [et, List.append_nil]
            omega
          · obtain ⟨x, y, e, -, -, -, hy, -⟩ := tail_parts hl
            have h2 := List.length_pos_of_ne_nil h.stem_ne
            have h3 := List.length_pos_of_ne_nil hy
            rw [e]
            simp only [List.length_append, List.length_cons]
            omega
      · rw [if_neg fun hh => hh.2.elim hm1 hm2, if_neg fun hh => hm1 hh.2, List.flatMap_cons, List.flatMap_append,
          singles_dots hi, singles_dots hm, splitDots_self hcore hdot]
        rfl
  · rw [if_neg fun hh => hin hh.1, if_neg fun hh => hin hh.1, List.flatMap_cons, List.flatMap_append,
      singles_dots hi, singles_dots hm, splitDots_self hcore hdot]
    rfl

end

end Model
