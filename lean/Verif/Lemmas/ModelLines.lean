import Verif.Lemmas.LangModel
import Verif.Lemmas.Files
import Verif.Spec.Files

/-! The lines and the numbers of the files of a language model. -/

namespace Model
open Py

/-! ### Lines -/

theorem universalNewlines_end {e rest : Str}
    (he : e = c!"\n" ∨ e = c!"\r\n" ∨ (e = c!"\r" ∧ rest.head? ≠ some '\n')) :
    universalNewlines (e ++ rest) = '\n' :: universalNewlines rest := by
  rcases he with rfl | rfl | ⟨rfl, h⟩
  · show universalNewlines ('\n' :: rest) = _
    rw [universalNewlines]
    · intro t' h1; exact fun _ => absurd h1 (by decide)
    · decide
  · rfl
  · cases rest with
    | nil => rfl
    | cons c t =>
      show universalNewlines ('\r' :: c :: t) = _
      rw [universalNewlines]
      intro t' h1
      rw [List.cons.injEq] at h1
      rw [h1.1] at h
      simp at h

/-- How a line of a file is read: with a line feed, except possibly the last one. -/
def LineRead (l fl : Str) : Prop := ('\n' ∉ l ∧ '\r' ∉ l) ∧ (fl = l ∨ fl = l ++ c!"\n")

theorem fileLines_lines {t : Str} {ls : List Str} (h : Spec.FileLines t ls) : List.Forall₂ LineRead ls (fileLines t) := by
  induction h with
  | none => exact .nil
  | @last l h0 h1 h2 =>
    have := fileLines_ends (e := c!"\n") (by decide) (last := l) ⟨h1, h2⟩ [] (by simp)
    simp only [List.map_nil, List.flatten_nil, List.nil_append] at this
    rw [this, if_neg (by simpa using h0)]
    exact .cons ⟨⟨h1, h2⟩, .inl rfl⟩ .nil
  | @line l e rest ls h1 h2 he _ ih =>
    have : fileLines (l ++ e ++ rest) = (l ++ c!"\n") :: fileLines rest := by
      unfold fileLines
      rw [List.append_assoc, universalNewlines_append _ _ h2, universalNewlines_end he]
      have := fileLinesAux_line (universalNewlines rest) l [] h1
      simpa using this
    rw [this]
    exact .cons ⟨⟨h1, h2⟩, .inr rfl⟩ ih

theorem lineRead_inj {a b fl : Str} (ha : LineRead a fl) (hb : LineRead b fl) : a = b := by
  obtain ⟨⟨a1, -⟩, ha⟩ := ha
  obtain ⟨⟨b1, -⟩, hb⟩ := hb
  rcases ha with rfl | rfl <;> rcases hb with hb | hb
  · exact hb
  · exact absurd (by rw [hb]; simp) a1
  · exact absurd (by rw [← hb]; simp) b1
  · exact List.append_cancel_right hb

theorem forall₂_lineRead_inj : ∀ {as bs fls : List Str}, List.Forall₂ LineRead as fls → List.Forall₂ LineRead bs fls → as = bs
  | _, _, _, .nil, .nil => rfl
  | _, _, _, .cons h1 t1, .cons h2 t2 => by rw [lineRead_inj h1 h2, forall₂_lineRead_inj t1 t2]

/-- A text is a line without an end, or a line, its end and a rest. -/
theorem cut_line (t : Str) : ('\n' ∉ t ∧ '\r' ∉ t) ∨ ∃ l e rest, t = l ++ e ++ rest ∧ '\n' ∉ l ∧ '\r' ∉ l ∧
    (e = c!"\n" ∨ e = c!"\r\n" ∨ (e = c!"\r" ∧ rest.head? ≠ some '\n')) := by
  induction t with
  | nil => left; simp
  | cons c t ih =>
    by_cases hn : c = '\n'
    · subst hn
      exact .inr ⟨[], c!"\n", t, rfl, by simp, by simp, .inl rfl⟩
    by_cases hr : c = '\r'
    · subst hr
      right
      cases t with
      | nil => exact ⟨[], c!"\r", [], rfl, by simp, by simp, .inr (.inr ⟨rfl, by simp⟩)⟩
      | cons d u =>
        by_cases hd : d = '\n'
        · subst hd
          exact ⟨[], c!"\r\n", u, rfl, by simp, by simp, .inr (.inl rfl)⟩
        · exact ⟨[], c!"\r", d :: u, rfl, by simp, by simp, .inr (.inr ⟨rfl, by simpa using hd⟩)⟩
    rcases ih with ⟨h1, h2⟩ | ⟨l, e, rest, rfl, h1, h2, he⟩
    · left; simp [h1, h2, Ne.symm hn, Ne.symm hr]
    · exact .inr ⟨c :: l, e, rest, by simp, by simp [h1, Ne.symm hn], by simp [h2, Ne.symm hr], he⟩

theorem lines_exist : ∀ (n : Nat) (t : Str), t.length ≤ n → ∃ ls, Spec.FileLines t ls
  | n, t, hn => by
    by_cases h0 : t = []
    · subst h0; exact ⟨[], .none⟩
    rcases cut_line t with ⟨h1, h2⟩ | ⟨l, e, rest, rfl, h1, h2, he⟩
    · exact ⟨[t], .last h0 h1 h2⟩
    · have hlen : 0 < e.length := by rcases he with rfl | rfl | ⟨rfl, -⟩ <;> decide
      cases n with
      | zero => simp at hn; simp [hn] at hlen
      | succ n =>
        obtain ⟨ls, h⟩ := lines_exist n rest (by simp only [List.length_append] at hn; omega)
        exact ⟨_, .line h1 h2 he h⟩

/-! ### Numbers -/

theorem digit_iff {d : Char} {k : Nat} : c!"0123456789"[k]? = some d ↔ d.isDigit = true ∧ d.toNat - '0'.toNat = k := by
  constructor
  · intro h
    have hk : k < 10 := by
      by_contra hk
      rw [List.getElem?_eq_none (by simpa using hk)] at h
      simp at h
    have : ∀ k < 10, ∀ d, c!"0123456789"[k]? = some d → d.isDigit = true ∧ d.toNat - '0'.toNat = k := by
      intro k hk d h
      interval_cases k <;> · simp at h; subst h; decide
    exact this k hk d h
  · rintro ⟨h, rfl⟩
    simp only [Char.isDigit, Bool.and_eq_true, decide_eq_true_eq] at h
    have h1 : 48 ≤ d.toNat := h.1
    have h2 : d.toNat ≤ 57 := h.2
    have hd : d = Char.ofNat d.toNat := (Char.ofNat_toNat d).symm
    generalize d.toNat = n at *
    subst hd
    interval_cases n <;> decide

theorem numeral_iff {ds : Str} : ∀ {m : Nat}, Spec.Numeral ds m ↔
    (∀ c ∈ ds, c.isDigit = true) ∧ Nat.ofDigitChars 10 ds 0 = m := by
  induction ds using List.reverseRecOn with
  | nil =>
    intro m
    constructor
    · intro h
      generalize hx : ([] : Str) = x at h
      cases h with
      | nil => simp
      | snoc _ _ => simp at hx
    · rintro ⟨-, h⟩
      simp at h
      subst h
      exact .nil
  | append_singleton l d ih =>
    intro m
    constructor
    · intro h
      generalize hx : l ++ [d] = x at h
      cases h with
      | nil => simp at hx
      | snoc h hk =>
        obtain ⟨rfl, hd⟩ := List.append_inj' hx rfl
        rw [List.cons.injEq] at hd
        obtain ⟨rfl, -⟩ := hd
        obtain ⟨h1, h2⟩ := ih.mp h
        obtain ⟨h3, h4⟩ := digit_iff.mp hk
        refine ⟨?_, ?_⟩
        · intro c hc
          rcases List.mem_append.mp hc with hc | hc
          · exact h1 c hc
          · rw [List.mem_singleton.mp hc]; exact h3
        · rw [ofDigitChars_append, h2, Nat.ofDigitChars_cons, h4, Nat.ofDigitChars_nil]
    · rintro ⟨h1, h2⟩
      rw [ofDigitChars_append, Nat.ofDigitChars_cons, Nat.ofDigitChars_nil] at h2
      subst h2
      exact .snoc (ih.mpr ⟨fun c hc => h1 c (by simp [hc]), rfl⟩) (digit_iff.mpr ⟨h1 d (by simp), rfl⟩)

theorem padded_strip (t : Str) : Spec.Padded t (strip t) := by
  refine ⟨t.takeWhile isSpace, ((t.dropWhile isSpace).reverse.takeWhile isSpace).reverse, ?_, ?_, ?_⟩
  · unfold strip
    rw [List.append_assoc, ← List.reverse_append, List.takeWhile_append_dropWhile, List.reverse_reverse,
      List.takeWhile_append_dropWhile]
  · intro c hc; exact List.all_eq_true.mp List.all_takeWhile c hc
  · intro c hc; exact List.all_eq_true.mp List.all_takeWhile c (List.mem_reverse.mp hc)

theorem strip_padded {t core : Str} (h : Spec.Padded t core) (h0 : core ≠ []) (hs : ∀ c ∈ core, isSpace c = false) :
    strip t = core := by
  obtain ⟨a, b, rfl, ha, hb⟩ := h
  have : strip (a ++ (core ++ b)) = strip (core ++ b) := by
    unfold strip
    rw [List.dropWhile_append_of_pos ha]
  rw [List.append_assoc, this]
  exact strip_eq h0 (fun c hc => hs c (List.mem_of_mem_head? hc)) (fun c hc => hs c (List.mem_of_getLast? hc)) hb

theorem numeral_clean {ds : Str} {m : Nat} (h : Spec.Numeral ds m) : ∀ c ∈ ds, c.isDigit = true := (numeral_iff.mp h).1

theorem digit_not_space {c : Char} (h : c.isDigit = true) : isSpace c = false := (isDigit_ne h).2.2.2.2.2.2

theorem signed_spec (t : Str) : (signed t = (false, t) ∧ (∀ u, t ≠ '-' :: u) ∧ ∀ u, t ≠ '+' :: u) ∨
    (∃ u, t = '-' :: u ∧ signed t = (true, u)) ∨ ∃ u, t = '+' :: u ∧ signed t = (false, u) := by
  match t with
  | [] => left; simp [signed]
  | c :: u =>
    by_cases h1 : c = '-'
    · subst h1; right; left; exact ⟨u, rfl, rfl⟩
    by_cases h2 : c = '+'
    · subst h2; right; right; exact ⟨u, rfl, rfl⟩
    left
    refine ⟨?_, ?_, ?_⟩
    · unfold signed
      split
      · rename_i h; injection h with h; exact absurd h h1
      · rename_i h; injection h with h; exact absurd h h2
      · rfl
    · intro v hv; injection hv with h; exact h1 h
    · intro v hv; injection hv with h; exact h2 h

theorem intText_iff {t : Str} {n : Int} : Spec.IntText t n ↔ parseInt t = .ok n := by
  constructor
  · rintro ⟨sign, ds, m, hp, h0, hm, hs⟩
    obtain ⟨hd, hv⟩ := numeral_iff.mp hm
    have hsp : ∀ c ∈ sign, isSpace c = false := by
      rcases hs with ⟨rfl, -⟩ | ⟨rfl, -⟩ | ⟨rfl, -⟩ <;> decide
    have hst := strip_padded hp (by simp [h0]) (by
      intro c hc
      rcases List.mem_append.mp hc with hc | hc
      · exact hsp c hc
      · exact digit_not_space (hd c hc))
    have hall : (!ds.isEmpty && ds.all Char.isDigit) = true := by
      simp only [Bool.and_eq_true, Bool.not_eq_true', List.isEmpty_eq_false_iff, List.all_eq_true]
      exact ⟨h0, hd⟩
    unfold parseInt
    rw [hst]
    rcases hs with ⟨rfl, rfl⟩ | ⟨rfl, rfl⟩ | ⟨rfl, rfl⟩
    · have : signed ([] ++ ds) = (false, ds) := by
        obtain ⟨c, u, rfl⟩ := List.exists_cons_of_ne_nil h0
        exact signed_digit (hd c (by simp))
      simp only [this, hall, if_true, hv]
      simp
    · have : signed (c!"+" ++ ds) = (false, ds) := rfl
      simp only [this, hall, if_true, hv]
      simp
    · have : signed (c!"-" ++ ds) = (true, ds) := rfl
      simp only [this, hall, if_true, hv]
  · intro h
    unfold parseInt at h
    simp only at h
    split at h
    · rename_i hall
      simp only [Bool.and_eq_true, Bool.not_eq_true', List.isEmpty_eq_false_iff, List.all_eq_true] at hall
      have hp := padded_strip t
      rcases signed_spec (strip t) with ⟨e, -⟩ | ⟨u, e1, e⟩ | ⟨u, e1, e⟩ <;> rw [e] at h hall
      · exact ⟨[], strip t, _, hp, hall.1, numeral_iff.mpr ⟨hall.2, rfl⟩, .inl ⟨rfl, by simpa using h.symm⟩⟩
      · rw [e1] at hp
        exact ⟨c!"-", u, _, hp, hall.1, numeral_iff.mpr ⟨hall.2, rfl⟩, .inr (.inr ⟨rfl, by simpa using h.symm⟩)⟩
      · rw [e1] at hp
        exact ⟨c!"+", u, _, hp, hall.1, numeral_iff.mpr ⟨hall.2, rfl⟩, .inr (.inl ⟨rfl, by simpa using h.symm⟩)⟩
    · simp at h

/-- Digits with a point or without one. -/
theorem decimalValue_iff {t : Str} {v : ℚ} : decimalValue t = some v ↔ ∃ a b m, a ++ b ≠ [] ∧ Spec.Numeral (a ++ b) m ∧
    (t = a ++ c!"." ++ b ∨ (b = [] ∧ t = a)) ∧ v = m / 10 ^ b.length := by
  constructor
  · intro h
    unfold decimalValue at h
    obtain ⟨-, hj, -⟩ := splitOn_spec t '.'
    split at h
    · rename_i a hs
      rw [hs] at hj
      split at h
      · rename_i hall
        simp only [Bool.and_eq_true, Bool.not_eq_true', List.isEmpty_eq_false_iff, List.all_eq_true] at hall
        refine ⟨a, [], _, by simpa using hall.1, numeral_iff.mpr ⟨by simpa using hall.2, rfl⟩, .inr ⟨rfl, by simpa [join] using hj.symm⟩, ?_⟩
        simpa using h.symm
      · simp at h
    · rename_i a b hs
      rw [hs] at hj
      split at h
      · rename_i hall
        simp only [Bool.and_eq_true, Bool.not_eq_true', List.isEmpty_eq_false_iff, List.all_eq_true] at hall
        refine ⟨a, b, _, hall.1, numeral_iff.mpr ⟨hall.2, rfl⟩, .inl (by simpa [join] using hj.symm), ?_⟩
        simpa using h.symm
      · simp at h
    · simp at h
  · rintro ⟨a, b, m, h0, hm, ht, rfl⟩
    obtain ⟨hd, hv⟩ := numeral_iff.mp hm
    have hall : (!(a ++ b).isEmpty && (a ++ b).all Char.isDigit) = true := by
      simp only [Bool.and_eq_true, Bool.not_eq_true', List.isEmpty_eq_false_iff, List.all_eq_true]
      exact ⟨h0, hd⟩
    have ha : '.' ∉ a := dot_not_digit fun c hc => hd c (by simp [hc])
    have hb : '.' ∉ b := dot_not_digit fun c hc => hd c (by simp [hc])
    unfold decimalValue
    rcases ht with rfl | ⟨rfl, rfl⟩
    · have : splitOn (a ++ c!"." ++ b) '.' = [a, b] := by
        have := splitOn_sep (sep := '.') (a := a) b ha
        rw [splitOn_no_sep hb] at this
        simpa using this
      rw [this]
      simp only [hall, if_true, hv]
    · rw [splitOn_no_sep ha]
      simp only [List.append_nil] at hall hv
      simp only [hall, if_true, hv]
      simp

theorem floatText_iff {R : Rounding} {t : Str} {v : ℚ} : Spec.FloatText R.fl t v ↔ parseFloat R t = .ok v := by
  constructor
  · rintro ⟨sign, a, b, m, h0, hm, hp, hs⟩
    obtain ⟨hd, hv⟩ := numeral_iff.mp hm
    have hsp : ∀ c ∈ sign, isSpace c = false := by
      rcases hs with ⟨rfl, -⟩ | ⟨rfl, -⟩ | ⟨rfl, -⟩ <;> decide
    obtain ⟨core, hst, hcore⟩ : ∃ core, strip t = sign ++ core ∧ (core = a ++ c!"." ++ b ∨ (b = [] ∧ core = a)) := by
      rcases hp with hp | ⟨rfl, hp⟩
      · refine ⟨a ++ c!"." ++ b, ?_, .inl rfl⟩
        rw [strip_padded hp (by simp)]
        · simp
        · intro c hc
          simp only [List.mem_append] at hc
          rcases hc with ((hc | hc) | hc) | hc
          · exact hsp c hc
          · exact digit_not_space (hd c (by simp [hc]))
          · rw [List.mem_singleton.mp hc]; decide
          · exact digit_not_space (hd c (by simp [hc]))
      · refine ⟨a, ?_, .inr ⟨rfl, rfl⟩⟩
        rw [List.append_nil] at h0 hd
        rw [strip_padded hp (by simp [h0])]
        intro c hc
        rcases List.mem_append.mp hc with hc | hc
        · exact hsp c hc
        · exact digit_not_space (hd c hc)
    have hval : decimalValue core = some ((m : ℚ) / 10 ^ b.length) := decimalValue_iff.mpr ⟨a, b, m, h0, hm, hcore, rfl⟩
    have hsig : signed core = (false, core) := by
      rcases signed_spec core with ⟨e, -⟩ | ⟨u, e1, -⟩ | ⟨u, e1, -⟩
      · exact e
      all_goals
        exfalso
        have hmem : ∀ c ∈ core, c.isDigit = true ∨ c = '.' := by
          intro c hc
          rcases hcore with rfl | ⟨rfl, rfl⟩
          · simp only [List.mem_append, List.mem_singleton] at hc
            rcases hc with (hc | hc) | hc
            · exact .inl (hd c (by simp [hc]))
            · exact .inr hc
            · exact .inl (hd c (by simp [hc]))
          · exact .inl (hd c (by simp [hc]))
        have := hmem _ (by rw [e1]; exact List.mem_cons_self)
        revert this
        decide
    unfold parseFloat
    rw [hst]
    rcases hs with ⟨rfl, rfl⟩ | ⟨rfl, rfl⟩ | ⟨rfl, rfl⟩
    · rw [List.nil_append, hsig]; simp [hval]
    · have : signed (c!"+" ++ core) = (false, core) := rfl
      rw [this]; simp [hval]
    · have : signed (c!"-" ++ core) = (true, core) := rfl
      rw [this]; simp [hval]
  · intro h
    unfold parseFloat at h
    simp only at h
    split at h
    · rename_i w hw
      obtain ⟨a, b, m, h0, hm, ht, rfl⟩ := decimalValue_iff.mp hw
      have hp := padded_strip t
      have hpad : ∀ sign, strip t = sign ++ (signed (strip t)).2 →
          Spec.Padded t (sign ++ a ++ c!"." ++ b) ∨ (b = [] ∧ Spec.Padded t (sign ++ a)) := by
        intro sign e
        rcases ht with ht | ⟨hb, ht⟩
        · left; rw [e, ht] at hp; simpa using hp
        · right; refine ⟨hb, ?_⟩; rw [e, ht] at hp; exact hp
      rcases signed_spec (strip t) with ⟨e, -⟩ | ⟨u, e1, e⟩ | ⟨u, e1, e⟩
      · exact ⟨[], a, b, m, h0, hm, hpad [] (by rw [e]; rfl), .inl ⟨rfl, by rw [e] at h; simpa using h.symm⟩⟩
      · exact ⟨c!"-", a, b, m, h0, hm, hpad _ (by rw [e, e1]; rfl), .inr (.inr ⟨rfl, by rw [e] at h; simpa using h.symm⟩)⟩
      · exact ⟨c!"+", a, b, m, h0, hm, hpad _ (by rw [e, e1]; rfl), .inr (.inl ⟨rfl, by rw [e] at h; simpa using h.symm⟩)⟩
    · simp at h

/-! ### Rows -/

theorem splitOn_columns {line a b c : Str} : splitOn line '\t' = [a, b, c] ↔ Spec.Columns line a b c := by
  unfold Spec.Columns
  constructor
  · intro h
    obtain ⟨h1, h2, -⟩ := splitOn_spec line '\t'
    rw [h] at h1 h2
    exact ⟨by rw [← h2]; simp [join], h1 a (by simp), h1 b (by simp), h1 c (by simp)⟩
  · rintro ⟨rfl, ha, hb, hc⟩
    rw [List.append_assoc, List.cons_append, splitOn_sep _ ha]
    congr 1
    rw [splitOn_sep _ hb, splitOn_no_sep hc]

theorem strip_append_space {t w : Str} (hw : ∀ c ∈ w, isSpace c = true) : strip (t ++ w) = strip t := by
  unfold strip
  rw [List.dropWhile_append]
  split
  · rename_i h
    rw [List.isEmpty_iff] at h
    have : w.dropWhile isSpace = [] := by
      have := List.dropWhile_append_of_pos (l₂ := []) hw
      simpa using this
    rw [h, this]
  · rw [List.reverse_append, List.dropWhile_append_of_pos]
    intro c hc
    exact hw c (List.mem_reverse.mp hc)

theorem columns_newline {l text c q : Str} : Spec.Columns (l ++ c!"\n") text c q ↔
    ∃ q', q = q' ++ c!"\n" ∧ Spec.Columns l text c q' := by
  constructor
  · rintro ⟨h, h1, h2, h3⟩
    rcases List.eq_nil_or_concat q with rfl | ⟨q', d, rfl⟩
    · rw [show text ++ '\t' :: c ++ ['\t'] = (text ++ '\t' :: c) ++ ['\t'] from rfl] at h
      have := (List.append_inj' h rfl).2
      simp at this
    · have e : text ++ '\t' :: c ++ '\t' :: q'.concat d = (text ++ '\t' :: c ++ '\t' :: q') ++ [d] := by simp
      rw [e] at h
      obtain ⟨e1, e2⟩ := List.append_inj' h rfl
      rw [List.cons.injEq] at e2
      obtain ⟨rfl, -⟩ := e2
      refine ⟨q', by simp, e1, h1, h2, fun hm => h3 (by simp [hm])⟩
  · rintro ⟨q', rfl, h, h1, h2, h3⟩
    exact ⟨by rw [h]; simp, h1, h2, by simp [h3]⟩

theorem parseFloat_newline (R : Rounding) (q : Str) : parseFloat R (q ++ c!"\n") = parseFloat R q := by
  unfold parseFloat
  rw [strip_append_space (by decide)]

/-- Three columns or not. -/
theorem columns_or (line : Str) : (∃ a b c, splitOn line '\t' = [a, b, c]) ∨ ∀ a b c, splitOn line '\t' ≠ [a, b, c] := by
  by_cases h : ∃ a b c, splitOn line '\t' = [a, b, c]
  · exact .inl h
  · right
    intro a b c e
    exact h ⟨a, b, c, e⟩

theorem columns_read {l fl : Str} (h : LineRead l fl) : (∃ a b c c', splitOn l '\t' = [a, b, c] ∧ splitOn fl '\t' = [a, b, c'] ∧
    ∀ R, parseFloat R c' = parseFloat R c) ∨
    ((∀ a b c, splitOn l '\t' ≠ [a, b, c]) ∧ ∀ a b c, splitOn fl '\t' ≠ [a, b, c]) := by
  rcases columns_or l with ⟨a, b, c, e⟩ | hno
  · left
    rcases h.2 with rfl | rfl
    · exact ⟨a, b, c, c, e, e, fun _ => rfl⟩
    · exact ⟨a, b, c, c ++ c!"\n", e, splitOn_columns.mpr (columns_newline.mpr ⟨c, rfl, splitOn_columns.mp e⟩),
        fun R => parseFloat_newline R c⟩
  · right
    refine ⟨hno, ?_⟩
    rcases h.2 with rfl | rfl
    · exact hno
    · intro a b c e
      obtain ⟨q', -, h'⟩ := columns_newline.mp (splitOn_columns.mp e)
      exact hno a b q' (splitOn_columns.mpr h')

theorem accept_none {R : Rounding} {log : ℚ → ℚ} {mc : Int} {l : Str} (h : ∀ a b c, splitOn l '\t' ≠ [a, b, c]) :
    accept R log mc l = none := by
  unfold accept
  split
  · rename_i e; exact absurd e (h _ _ _)
  · rfl

theorem loadLine_none {R : Rounding} {log : ℚ → ℚ} {mc : Int} {d : Dict Str Details} {l : Str}
    (h : ∀ a b c, splitOn l '\t' ≠ [a, b, c]) : loadLine R log mc d l = .error .value := by
  unfold loadLine
  split
  · rename_i e; exact absurd e (h _ _ _)
  · rfl

theorem accept_read {R : Rounding} {log : ℚ → ℚ} {mc : Int} {l fl : Str} (h : LineRead l fl) :
    accept R log mc fl = accept R log mc l := by
  rcases columns_read h with ⟨a, b, c, c', e, e', hp⟩ | ⟨h1, h2⟩
  · unfold accept
    simp only [e, e', hp]
  · rw [accept_none h1, accept_none h2]

theorem loadLine_read {R : Rounding} {log : ℚ → ℚ} {mc : Int} {d : Dict Str Details} {l fl : Str} (h : LineRead l fl) :
    loadLine R log mc d fl = loadLine R log mc d l := by
  rcases columns_read h with ⟨a, b, c, c', e, e', hp⟩ | ⟨h1, h2⟩
  · unfold loadLine
    simp only [e, e', hp]
  · rw [loadLine_none h1, loadLine_none h2]

theorem accept_row {R : Rounding} {log : ℚ → ℚ} {r : Int × Str} {text : Str} {n : Int} {v : ℚ} {x : WithBot ℚ} :
    accept R log r.1 r.2 = some (text, n, v, x) ↔ Spec.Row R.fl r text n v ∧ x = (log v : WithBot ℚ) := by
  unfold accept Spec.Row
  simp only [← splitOn_columns, intText_iff, floatText_iff]
  constructor
  · intro h
    split at h
    · rename_i a b c e
      split at h
      · rename_i m hm
        split at h
        · rename_i hle
          split at h
          · rename_i p hp
            simp only [Option.some.injEq, Prod.mk.injEq] at h
            obtain ⟨rfl, rfl, rfl, rfl⟩ := h
            exact ⟨⟨b, c, e, hm, hle, hp⟩, rfl⟩
          · simp at h
        · simp at h
      · simp at h
    · simp at h
  · rintro ⟨⟨c, q, e, hn, hle, hv⟩, rfl⟩
    simp [e, hn, hle, hv]

/-- A line is read without an exception exactly when it is fine; the exception is `ValueError`. -/
theorem loadLine_fine {R : Rounding} {log : ℚ → ℚ} {r : Int × Str} {d : Dict Str Details} :
    (Spec.Fine R.fl r ∧ ∃ d', loadLine R log r.1 d r.2 = .ok d') ∨
    (¬ Spec.Fine R.fl r ∧ loadLine R log r.1 d r.2 = .error .value) := by
  unfold Spec.Fine
  simp only [← splitOn_columns, intText_iff, floatText_iff]
  unfold loadLine
  rcases columns_or r.2 with ⟨a, b, c, e⟩ | hno
  · simp only [e, List.cons.injEq, and_true]
    cases hn : parseInt b with
    | error x =>
      right
      refine ⟨?_, ?_⟩
      · rintro ⟨_, _, _, n, ⟨rfl, rfl, rfl⟩, h, -⟩
        rw [hn] at h; simp at h
      · unfold parseInt at hn
        simp only at hn
        split at hn
        · simp at hn
        · injection hn with hn; subst hn; rfl
    | ok n =>
      simp only [bind, Except.bind]
      by_cases hle : r.1 ≤ n
      · simp only [hle, if_true]
        cases hp : parseFloat R c with
        | error x =>
          right
          refine ⟨?_, ?_⟩
          · rintro ⟨_, _, _, n', ⟨rfl, rfl, rfl⟩, h, hv⟩
            rw [hn] at h
            injection h with h; subst h
            obtain ⟨v, hv, -⟩ := hv hle
            rw [hp] at hv; simp at hv
          · unfold parseFloat at hp
            simp only at hp
            split at hp
            · simp at hp
            · injection hp with hp; subst hp; rfl
        | ok v =>
          simp only [mathLog]
          by_cases h0 : 0 < v
          · left
            simp only [h0, if_true, pure, Except.pure]
            exact ⟨⟨a, b, c, n, ⟨rfl, rfl, rfl⟩, hn, fun _ => ⟨v, hp, h0⟩⟩, _, rfl⟩
          · right
            simp only [h0, if_false]
            refine ⟨?_, trivial⟩
            rintro ⟨_, _, _, n', ⟨rfl, rfl, rfl⟩, h, hv⟩
            rw [hn] at h
            injection h with h; subst h
            obtain ⟨v', hv, h0'⟩ := hv hle
            rw [hp] at hv
            injection hv with hv; subst hv
            exact h0 h0'
      · left
        simp only [hle, if_false]
        exact ⟨⟨a, b, c, n, ⟨rfl, rfl, rfl⟩, hn, fun h => absurd h hle⟩, _, rfl⟩
  · right
    refine ⟨?_, ?_⟩
    · rintro ⟨a, b, c, n, e, -⟩
      exact hno a b c e
    · split
      · rename_i e; exact absurd e (hno _ _ _)
      · rfl

theorem foldlM_fine {R : Rounding} {log : ℚ → ℚ} : ∀ (rs : List (Int × Str)) (d : Dict Str Details),
    ((∀ r ∈ rs, Spec.Fine R.fl r) ∧ ∃ d', rs.foldlM (fun d r => loadLine R log r.1 d r.2) d = .ok d') ∨
    ((¬ ∀ r ∈ rs, Spec.Fine R.fl r) ∧ rs.foldlM (fun d r => loadLine R log r.1 d r.2) d = .error .value)
  | [], d => .inl ⟨by simp, d, rfl⟩
  | r :: rs, d => by
    rw [List.foldlM_cons]
    rcases loadLine_fine (R := R) (log := log) (r := r) (d := d) with ⟨h, d', e⟩ | ⟨h, e⟩
    · rw [e]
      rcases foldlM_fine rs d' with ⟨h', d'', e'⟩ | ⟨h', e'⟩
      · exact .inl ⟨by simpa [h] using h', d'', e'⟩
      · exact .inr ⟨by simpa [h] using h', e'⟩
    · rw [e]
      exact .inr ⟨fun hall => h (hall r (by simp)), rfl⟩

theorem foldlM_read {R : Rounding} {log : ℚ → ℚ} {mc : Int} : ∀ {ls fls : List Str}, List.Forall₂ LineRead ls fls →
    ∀ d, fls.foldlM (loadLine R log mc) d = (ls.map fun l => (mc, l)).foldlM (fun d r => loadLine R log r.1 d r.2) d
  | _, _, .nil, _ => rfl
  | _, _, .cons h t, d => by
    rw [List.foldlM_cons, loadLine_read h, List.map_cons, List.foldlM_cons]
    congr 1
    funext d'
    exact foldlM_read t d'

theorem filterMap_read {R : Rounding} {log : ℚ → ℚ} {mc : Int} : ∀ {ls fls : List Str}, List.Forall₂ LineRead ls fls →
    fls.filterMap (accept R log mc) = (ls.map fun l => (mc, l)).filterMap fun r => accept R log r.1 r.2
  | _, _, .nil => rfl
  | _, _, .cons h t => by
    rw [List.filterMap_cons, accept_read h, List.map_cons, List.filterMap_cons, filterMap_read t]

theorem foldlM_files {R : Rounding} {log : ℚ → ℚ} : ∀ {files : List (Int × Str)} {lss : List (List Str)},
    List.Forall₂ (fun f ls => Spec.FileLines f.2 ls) files lss → ∀ d, files.foldlM (loadFile R log) d =
      (Spec.allLines files lss).foldlM (fun d r => loadLine R log r.1 d r.2) d
  | _, _, .nil, _ => rfl
  | f :: fs, ls :: lss, .cons h t, d => by
    have e : Spec.allLines (f :: fs) (ls :: lss) = (ls.map fun l => (f.1, l)) ++ Spec.allLines fs lss := rfl
    rw [e, List.foldlM_cons, List.foldlM_append]
    have : loadFile R log d f = (ls.map fun l => (f.1, l)).foldlM (fun d r => loadLine R log r.1 d r.2) d :=
      foldlM_read (fileLines_lines h) d
    rw [this]
    congr 1
    funext d'
    exact foldlM_files t d'

theorem rowsOf_lines {R : Rounding} {log : ℚ → ℚ} : ∀ {files : List (Int × Str)} {lss : List (List Str)},
    List.Forall₂ (fun f ls => Spec.FileLines f.2 ls) files lss →
      rowsOf R log files = (Spec.allLines files lss).filterMap fun r => accept R log r.1 r.2
  | _, _, .nil => rfl
  | f :: fs, ls :: lss, .cons h t => by
    have e : Spec.allLines (f :: fs) (ls :: lss) = (ls.map fun l => (f.1, l)) ++ Spec.allLines fs lss := rfl
    have e' : rowsOf R log (f :: fs) = (fileLines f.2).filterMap (accept R log f.1) ++ rowsOf R log fs := rfl
    rw [e, e', List.filterMap_append, filterMap_read (fileLines_lines h), rowsOf_lines t]

theorem lastFor_filterMap {α κ ν : Type} [DecidableEq κ] (acc : α → Option (κ × ν)) (g : κ) (v : ν) : ∀ (l : List α),
    Spec.lastFor (l.filterMap acc) g = some v ↔ ∃ pre r post, l = pre ++ r :: post ∧ acc r = some (g, v) ∧
      ∀ r' ∈ post, ∀ v', acc r' ≠ some (g, v') := by
  intro l
  rw [lastFor_eq]
  induction l using List.reverseRecOn with
  | nil => simp [Dict.get?]
  | append_singleton l x ih =>
    rw [List.filterMap_append, List.reverse_append]
    have key : (∃ pre r post, l ++ [x] = pre ++ r :: post ∧ acc r = some (g, v) ∧ ∀ r' ∈ post, ∀ v', acc r' ≠ some (g, v')) ↔
        acc x = some (g, v) ∨ ((∀ v', acc x ≠ some (g, v')) ∧
          ∃ pre r post, l = pre ++ r :: post ∧ acc r = some (g, v) ∧ ∀ r' ∈ post, ∀ v', acc r' ≠ some (g, v')) := by
      constructor
      · rintro ⟨pre, r, post, e, h1, h2⟩
        rcases List.eq_nil_or_concat post with rfl | ⟨post', y, rfl⟩
        · obtain ⟨-, e2⟩ := List.append_inj' e rfl
          rw [List.cons.injEq] at e2
          left; rw [e2.1]; exact h1
        · have e' : pre ++ r :: post'.concat y = (pre ++ r :: post') ++ [y] := by simp
          rw [e'] at e
          obtain ⟨e1, e2⟩ := List.append_inj' e rfl
          rw [List.cons.injEq] at e2
          right
          refine ⟨?_, pre, r, post', e1, h1, fun r' hr' => h2 r' (by simp [hr'])⟩
          rw [e2.1]; exact h2 y (by simp)
      · rintro (h | ⟨hx, pre, r, post, rfl, h1, h2⟩)
        · exact ⟨l, x, [], rfl, h, by simp⟩
        · refine ⟨pre, r, post ++ [x], by simp, h1, ?_⟩
          intro r' hr'
          rcases List.mem_append.mp hr' with hr' | hr'
          · exact h2 r' hr'
          · rw [List.mem_singleton.mp hr']; exact hx
    rw [key, ← ih]
    cases hx : acc x with
    | none => simp [hx]
    | some p =>
      obtain ⟨k, w⟩ := p
      by_cases hk : k = g
      · subst hk
        simp [hx, Dict.get?]
      · simp [hx, Dict.get?, hk]

end Model
