import Verif.Lemmas.Conserve

/-! # Words of texts that are cut or rewritten -/

namespace Model
open Py

theorem splitWs_word {w : Str} (hw : ∀ c ∈ w, isSpace c = false) : splitWs w = if w = [] then [] else [w] := by
  by_cases h : w = []
  · subst h; rfl
  · rw [if_neg h]
    exact splitWs_noBlank_self ⟨h, hw⟩

/-- The last word before a position. -/
theorem last_word (a : Str) : (∀ c ∈ a, isSpace c = false) ∨
    ∃ a0 d x, a = a0 ++ d :: x ∧ isSpace d = true ∧ ∀ c ∈ x, isSpace c = false := by
  induction a with
  | nil => exact .inl (by simp)
  | cons c a ih =>
    rcases ih with h | ⟨a0, d, x, rfl, hd, hx⟩
    · by_cases hc : isSpace c = true
      · exact .inr ⟨[], c, a, rfl, hc, h⟩
      · exact .inl (by simpa [hc] using h)
    · exact .inr ⟨c :: a0, d, x, rfl, hd, hx⟩

/-- The first word after a position. -/
theorem first_word (b : Str) : (∀ c ∈ b, isSpace c = false) ∨
    ∃ y d b0, b = y ++ d :: b0 ∧ isSpace d = true ∧ ∀ c ∈ y, isSpace c = false := by
  induction b with
  | nil => exact .inl (by simp)
  | cons c b ih =>
    by_cases hc : isSpace c = true
    · exact .inr ⟨[], c, b, rfl, hc, by simp⟩
    · rcases ih with h | ⟨y, d, b0, rfl, hd, hy⟩
      · exact .inl (by simpa [hc] using h)
      · exact .inr ⟨c :: y, d, b0, rfl, hd, by simpa [hc] using hy⟩

/-- Words of a text that is cut at a character other than white space. -/
theorem splitWs_cut (a b : Str) {c : Char} (hc : isSpace c = false) : ∃ A x y B, splitWs a = A ++ splitWs x ∧
    splitWs b = splitWs y ++ B ∧ splitWs (a ++ c :: b) = A ++ (x ++ c :: y) :: B ∧
    (∀ d ∈ x, isSpace d = false) ∧ (∀ d ∈ y, isSpace d = false) := by
  obtain ⟨A, x, h1, hx, h2⟩ : ∃ A x, splitWs a = A ++ splitWs x ∧ (∀ d ∈ x, isSpace d = false) ∧
      ∀ r, splitWs (a ++ r) = A ++ splitWs (x ++ r) := by
    rcases last_word a with h | ⟨a0, d, x, rfl, hd, hx⟩
    · exact ⟨[], a, rfl, h, fun r => rfl⟩
    · refine ⟨splitWs a0, x, splitWs_sep hd a0 x, hx, fun r => ?_⟩
      rw [List.append_assoc, List.cons_append]
      exact splitWs_sep hd a0 (x ++ r)
  obtain ⟨B, y, h3, hy, h4⟩ : ∃ B y, splitWs b = splitWs y ++ B ∧ (∀ d ∈ y, isSpace d = false) ∧
      ∀ r, splitWs (r ++ b) = splitWs (r ++ y) ++ B := by
    rcases first_word b with h | ⟨y, d, b0, rfl, hd, hy⟩
    · exact ⟨[], b, by simp, h, fun r => by simp⟩
    · refine ⟨splitWs b0, y, splitWs_sep hd y b0, hy, fun r => ?_⟩
      rw [← List.append_assoc]
      exact splitWs_sep hd (r ++ y) b0
  refine ⟨A, x, y, B, h1, h3, ?_, hx, hy⟩
  have e : x ++ c :: b = (x ++ [c]) ++ b := by simp
  rw [h2, e, h4, splitWs_word (w := x ++ [c] ++ y) (by
    intro d hd
    simp only [List.mem_append, List.mem_singleton] at hd
    rcases hd with (hd | rfl) | hd
    · exact hx d hd
    · exact hc
    · exact hy d hd), if_neg (by simp)]
  simp

/-- A rewriting that leaves white space alone acts word by word. -/
theorem splitWs_rewrite {f : Str → Str} (h0 : f [] = []) (hf : ∀ a d b, isSpace d = true → f (a ++ d :: b) = f a ++ d :: f b) :
    ∀ (n : Nat) (t : Str), t.length ≤ n → splitWs (f t) = (splitWs t).flatMap fun w => splitWs (f w)
  | n, t, hn => by
    rcases first_word t with h | ⟨y, d, b, rfl, hd, hy⟩
    · rw [splitWs_word h]
      by_cases ht : t = []
      · subst ht; simp [h0]; rfl
      · simp [ht]
    · cases n with
      | zero => simp at hn
      | succ n =>
        rw [hf _ _ _ hd, splitWs_sep hd, splitWs_sep hd, List.flatMap_append,
          splitWs_rewrite h0 hf n b (by simp at hn; omega), splitWs_word hy]
        by_cases hy' : y = []
        · subst hy'; simp [h0]; rfl
        · simp [hy']

/-- Text without white space lies inside a word. -/
theorem infix_word {w : Str} (hw : ∀ c ∈ w, isSpace c = false) (hne : w ≠ []) : ∀ (n : Nat) (t : Str), t.length ≤ n →
    w <:+: t → ∃ v ∈ splitWs t, w <:+: v
  | n, t, hn, h => by
    rcases first_word t with ht | ⟨y, d, b, rfl, hd, hy⟩
    · rw [splitWs_word ht]
      have : t ≠ [] := by
        rintro rfl
        exact hne (List.infix_nil.mp h)
      exact ⟨t, by simp [this], h⟩
    · cases n with
      | zero => simp at hn
      | succ n =>
        rw [splitWs_sep hd]
        rcases infix_sep (c := d) (fun hdw => by rw [hw d hdw] at hd; cases hd) h with h | h
        · rw [splitWs_word hy]
          have : y ≠ [] := by
            rintro rfl
            exact hne (List.infix_nil.mp h)
          exact ⟨y, by simp [this], h⟩
        · obtain ⟨v, hv, h⟩ := infix_word hw hne n b (by simp at hn; omega) h
          exact ⟨v, List.mem_append_right _ hv, h⟩

/-! ### Words after sanitization -/

theorem isSpace_straight (c : Char) : isSpace (Spec.straight c) = isSpace c := by
  by_cases h : isSpace c = true
  · rw [straight_space h]
  · unfold Spec.straight
    have h' : isSpace c = false := by simpa using h
    rw [h']
    split
    · decide
    · split
      · decide
      · exact h'

theorem undash_sep (a : Str) (d : Char) (b : Str) (hd : isSpace d = true) :
    Spec.undash (a ++ d :: b) = Spec.undash a ++ d :: Spec.undash b := by
  have h := space_not_dash hd
  rw [undash_append (by simpa using h), Spec.undash, h]
  rfl

/-- Straight quotes and hyphens for dashes. -/
def plainer (t : Str) : Str := Spec.undash (t.map Spec.straight)

theorem straight_dash (c : Char) : Spec.isDash (Spec.straight c) = Spec.isDash c := by
  unfold Spec.straight
  have h : ∀ d ∈ ['‘', '’', '′', '“', '”', '″'], Spec.isDash d = false := by decide
  split
  · rename_i hc
    rw [h c (by simp only [List.mem_cons, List.not_mem_nil, or_false] at hc ⊢; tauto)]
    decide
  · split
    · rename_i hc
      rw [h c (by simp only [List.mem_cons, List.not_mem_nil, or_false] at hc ⊢; tauto)]
      decide
    · rfl

theorem plainer_cut (a b : Str) {c : Char} (hc : Spec.isDash c = false) :
    plainer (a ++ c :: b) = plainer a ++ Spec.straight c :: plainer b := by
  unfold plainer
  have h : Spec.isDash (Spec.straight c) = false := by rw [straight_dash]; exact hc
  rw [List.map_append, List.map_cons, undash_append (by simpa using h), Spec.undash, h]
  rfl

theorem splitWs_plainer (t : Str) : splitWs (plainer t) = (splitWs t).flatMap fun w => splitWs (plainer w) :=
  splitWs_rewrite rfl (fun a d b hd => by rw [plainer_cut _ _ (space_not_dash hd), straight_space hd]) _ t (Nat.le_refl _)

theorem splitWs_tidy (t : Str) : splitWs (Spec.tidy t) = (splitWs t).flatMap fun w => splitWs (plainer w) := by
  rw [← splitWs_plainer]
  exact splitWs_join _ (splitWs_noBlank _)

theorem ink_append (a b : Str) : Spec.ink (a ++ b) = Spec.ink a ++ Spec.ink b := by simp [Spec.ink]

theorem ink_flatten (t : Str) : (splitWs t).flatten = Spec.ink t := splitWs_flatten t

theorem ink_tidy (t : Str) : Spec.ink (Spec.tidy t) = Spec.ink (plainer t) := by
  rw [← splitWs_flatten, ← splitWs_flatten, splitWs_tidy, splitWs_plainer]

theorem undash_mem {c : Char} : ∀ {t : Str}, c ∈ Spec.undash t → c ∈ t ∨ c = ' ' ∨ c = '-'
  | [], h => by cases h
  | d :: t, h => by
    rw [Spec.undash] at h
    split at h
    · split at h
      · exact (undash_mem h).imp (List.mem_cons_of_mem _) id
      · rcases List.mem_append.mp h with h | h
        · simp only [List.mem_cons, List.not_mem_nil, or_false] at h
          tauto
        · exact (undash_mem h).imp (List.mem_cons_of_mem _) id
    · rcases List.mem_cons.mp h with rfl | h
      · exact .inl (by simp)
      · exact (undash_mem h).imp (List.mem_cons_of_mem _) id

/-- A character of the plainer text. -/
theorem plainer_mem {c : Char} {t : Str} (h : c ∈ plainer t) : c ∈ t ∨ c = ' ' ∨ c = '-' ∨ c = '\'' ∨ c = '"' := by
  rcases undash_mem h with h | h | h
  · obtain ⟨d, hd, rfl⟩ := List.mem_map.mp h
    by_cases h1 : Spec.straight d = '\''
    · simp [h1]
    · by_cases h2 : Spec.straight d = '"'
      · simp [h2]
      · have := straight_eq (c := d) rfl h1 h2
        rw [← this]
        exact .inl hd
  · simp [h]
  · simp [h]

theorem plainer_self {w : Str} (h : ∀ c ∈ w, Spec.straight c = c ∧ Spec.isDash c = false) : plainer w = w := by
  induction w with
  | nil => rfl
  | cons c w ih =>
    have := plainer_cut [] w (h c (by simp)).2
    simp only [List.nil_append] at this
    rw [this, ih fun d hd => h d (by simp [hd]), (h c (by simp)).1]
    rfl

end Model
