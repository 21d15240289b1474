import Verif.Lemmas.PrintedText
import Verif.Lemmas.Parentheses
import Verif.Lemmas.Retoken

/-! Sentences of printed text. -/

namespace Model
open Py

variable {db : CharDB}

theorem splitAux_skip {ts : List Str} (h : ∀ t ∈ ts, isEnder db t = false) (rest cur : List Str) :
    splitSentencesAux db (ts ++ rest) cur = splitSentencesAux db rest (cur ++ ts) := by
  induction ts generalizing cur with
  | nil => simp
  | cons t ts ih =>
    rw [List.cons_append, splitSentencesAux, if_neg (by simp [h t (by simp)]), ih fun u hu => h u (by simp [hu])]
    simp

theorem Ordinary.no_marker {p : Spec.Printed} (h : p.Ordinary db) : ∀ c ∈ ['༺', '⦅', '¶'], c ∉ p.text := by
  intro c hm hc
  rcases Ordinary.text_mem h hc with hp | hu
  · have hall : ∀ c ∈ ['༺', '⦅', '¶'], c ∈ ['‘', '’', '′', '“', '”', '″', '–', '—', '…', '༺', '༻', '⦅', '⦆', '¶'] := by decide
    have h1 := db.word_marks c (hall c hm)
    rw [hp.1] at h1
    cases h1
  · have hall : ∀ c ∈ ['༺', '⦅', '¶'], c ∉ usedMarks := by decide
    exact hall c hm hu

section
variable {p : Spec.Printed} (h : p.Ordinary db) (hp : '¶' ∉ p.text)
include h hp

/-- Words and brackets do not end a sentence. -/
theorem Ordinary.not_ender {w : Str} (hw : w ∈ p.tokens) (hm : ∀ c ∈ ['.', '?', '!', ':'], w ≠ [c]) : isEnder db w = false := by
  by_contra he
  have he : Spec.Ender w := (isEnder_iff db w).mp (by simpa using he)
  rcases Ordinary.token_cases h hw with ⟨c, rfl, hc⟩ | ⟨hn, hs⟩
  · rcases he with ⟨-, h2⟩ | h2
    · exact hm c (h2 c (by simp)) rfl
    · rw [List.cons.injEq] at h2
      rw [h2.1] at hc
      revert hc
      decide
  · rcases he with ⟨hne, h2⟩ | rfl
    · obtain ⟨c, w, rfl⟩ := List.exists_cons_of_ne_nil hne
      have h3 := hs c (by simp)
      have h4 : c ∈ p.text := by
        unfold Spec.Printed.text
        simp only [List.mem_append] at h3 ⊢
        tauto
      have h5 := h2 c (by simp)
      simp only [List.mem_cons, List.not_mem_nil, or_false] at h5
      rcases h5 with rfl | rfl | rfl | rfl
      · exact Ordinary.core_not h (by decide) (by decide) h3
      · exact Ordinary.core_not h (by decide) (by decide) h3
      · exact Ordinary.core_not h (by decide) (by decide) h3
      · have := Ordinary.not_odd h h4
        revert this
        decide
    · have h3 := hs '¶' (by simp)
      apply hp
      unfold Spec.Printed.text
      simp only [List.mem_append] at h3 ⊢
      tauto

theorem Ordinary.ends_step (ho : p.mark ∈ Spec.finalMarks → p.outer = []) (rest cur : List Str) :
    splitSentencesAux db (p.tokens ++ rest) cur = if p.mark ∈ Spec.finalMarks then (cur ++ p.tokens) :: splitSentencesAux db rest []
      else splitSentencesAux db rest (cur ++ p.tokens) := by
  have hcore : ∀ w, w ∈ Spec.Printed.singles p.opening ∨ w ∈ Spec.splitCannot p.stem ∨ w ∈ (if p.tail = [] then [] else [p.tail]) ∨
      w ∈ Spec.Printed.singles p.inner ∨ w ∈ Spec.Printed.singles p.outer → w ∈ p.tokens ∧ ∀ c ∈ ['.', '?', '!', ':'], w ≠ [c] := by
    intro w hw
    have hin : w ∈ p.tokens := by
      unfold Spec.Printed.tokens
      simp only [List.mem_append]
      tauto
    refine ⟨hin, ?_⟩
    rintro c hc rfl
    have hopen : ∀ c ∈ ['(', '[', '{', '"'], c ∉ ['.', '?', '!', ':'] := by decide
    have hclose : ∀ c ∈ [')', ']', '}', '"'], c ∉ ['.', '?', '!', ':'] := by decide
    have hnot : c ∉ p.stem ++ p.tail := by
      intro h3
      have h4 : c ∈ p.text := by
        unfold Spec.Printed.text
        simp only [List.mem_append] at h3 ⊢
        tauto
      simp only [List.mem_cons, List.not_mem_nil, or_false] at hc
      rcases hc with rfl | rfl | rfl | rfl
      · exact Ordinary.core_not h (by decide) (by decide) h3
      · exact Ordinary.core_not h (by decide) (by decide) h3
      · exact Ordinary.core_not h (by decide) (by decide) h3
      · have := Ordinary.not_odd h h4
        revert this
        decide
    have hsing : ∀ s : Str, [c] ∈ Spec.Printed.singles s → c ∈ s := by
      intro s hs
      unfold Spec.Printed.singles at hs
      obtain ⟨d, hd, e⟩ := List.mem_map.mp hs
      rw [List.cons.injEq] at e
      rw [← e.1]
      exact hd
    rcases hw with hw | hw | hw | hw | hw
    · exact hopen c (h.opening c (hsing _ hw)) hc
    · rw [splitCannot_eq, List.mem_append, List.mem_singleton] at hw
      apply hnot
      rcases hw with hw | hw
      · exact List.mem_append_left _ (cannotInit_mem hw (by simp))
      · exact List.mem_append_left _ (cannotLast_mem (by rw [← hw]; simp))
    · split at hw
      · cases hw
      · rw [List.mem_singleton] at hw
        exact hnot (by rw [← hw]; simp)
    · exact hclose c (h.inner c (hsing _ hw)) hc
    · exact hclose c (h.outer c (hsing _ hw)) hc
  have hno : ∀ w, w ∈ Spec.Printed.singles p.opening ∨ w ∈ Spec.splitCannot p.stem ∨ w ∈ (if p.tail = [] then [] else [p.tail]) ∨
      w ∈ Spec.Printed.singles p.inner ∨ w ∈ Spec.Printed.singles p.outer → isEnder db w = false := fun w hw =>
    Ordinary.not_ender h hp (hcore w hw).1 (hcore w hw).2
  by_cases he : p.mark ∈ Spec.finalMarks
  · rw [if_pos he]
    have e : p.tokens = (Spec.Printed.singles p.opening ++ (Spec.splitCannot p.stem ++ ((if p.tail = [] then [] else [p.tail]) ++
        Spec.Printed.singles p.inner))) ++ [p.mark] := by
      have hm : Spec.Printed.singles p.mark = [p.mark] := by
        unfold Spec.finalMarks at he
        simp only [List.mem_cons, List.not_mem_nil, or_false] at he
        rcases he with e | e | e <;> rw [e] <;> rfl
      unfold Spec.Printed.tokens
      rw [ho he, hm]
      simp [Spec.Printed.singles]
    rw [e, List.append_assoc, splitAux_skip]
    · have hm : isEnder db p.mark = true ∧ p.mark ≠ c!"¶" := by
        rw [isEnder_iff]
        unfold Spec.finalMarks at he
        simp only [List.mem_cons, List.not_mem_nil, or_false] at he
        rcases he with e | e | e <;> rw [e] <;> exact ⟨.inl (by decide), by decide⟩
      rw [List.singleton_append, splitSentencesAux, if_pos hm.1, if_pos hm.2]
      simp
    · intro w hw
      apply hno
      simp only [List.mem_append] at hw
      tauto
  · rw [if_neg he, splitAux_skip]
    intro w hw
    by_cases hm : w ∈ Spec.Printed.singles p.mark
    · apply Ordinary.not_ender h hp hw
      rintro c hc rfl
      apply he
      have hmark := h.mark
      unfold Spec.Printed.singles at hm
      simp only [List.mem_cons, List.not_mem_nil, or_false] at hmark
      unfold Spec.finalMarks
      rcases hmark with e | e | e | e | e | e <;> rw [e] at hm ⊢ <;> simp at hm <;> subst hm <;> revert hc <;> decide
    · apply hno
      unfold Spec.Printed.tokens at hw
      simp only [List.mem_append] at hw
      tauto

end

/-- The characters of a text are white space and those of its lines. -/
theorem lines_mem {text : Str} {ls : List Str} (h : Spec.Lines text ls) {c : Char} (hc : c ∈ text) :
    isSpace c = true ∨ ∃ l ∈ ls, c ∈ l := by
  induction h with
  | last l _ => exact .inr ⟨l, by simp, hc⟩
  | cut l gap rest ls _ _ hg _ _ _ ih =>
    simp only [List.mem_append] at hc
    rcases hc with (hc | hc) | hc
    · exact .inr ⟨l, by simp, hc⟩
    · exact .inl (hg c hc)
    · rcases ih hc with h1 | ⟨m, hm, h1⟩
      · exact .inl h1
      · exact .inr ⟨m, by simp [hm], h1⟩

end Model
