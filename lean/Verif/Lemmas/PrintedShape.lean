import Verif.Lemmas.PrintedNoSplit

/-! Printed words are sober. -/

namespace Model
open Py

variable {db : CharDB}

theorem lower_ascii {c : Char} (h : c.toLower.toNat < 128) : c.toNat < 128 := by
  by_contra hn
  have : c.toLower = c := by
    rw [← lowerAscii_eq]
    unfold lowerAscii
    rw [if_neg]
    rintro ⟨-, h2⟩
    have := (Char_le_iff _ _).mp h2
    have e : 'Z'.toNat = 90 := rfl
    omega
  rw [this] at h
  exact hn h

theorem on_ascii {P : Char → Prop} (h : ∀ n < 128, P (Char.ofNat n)) {c : Char} (hc : c.toNat < 128) : P c := by
  have := h c.toNat hc
  rwa [Char.ofNat_toNat] at this

theorem fold_lower {c : Char} (h : c.toLower.toNat < 128) : foldCase c = c.toLower :=
  on_ascii (P := fun c => foldCase c = c.toLower) (by decide +kernel) (lower_ascii h)

theorem alpha_word {c : Char} (h : c.isAlpha = true) : db.word c = true ∧ c ≠ '_' ∧ db.digit c = false := by
  have hc : c.toNat < 128 := by
    rw [isAlpha_iff] at h
    omega
  have h1 : c.isAlpha = true → c.isAlphanum = true ∧ c ≠ '_' ∧ c.isDigit = false :=
    on_ascii (P := fun c => c.isAlpha = true → c.isAlphanum = true ∧ c ≠ '_' ∧ c.isDigit = false) (by decide +kernel) hc
  obtain ⟨h2, h3, h4⟩ := h1 h
  refine ⟨?_, h3, ?_⟩
  · rw [db.word_ascii c hc, h2]
    rfl
  · rw [db.digit_ascii c hc, h4]

/-- The parts of a contraction. -/
theorem tail_parts {t : Str} (hl : t.map Char.toLower ∈ Spec.contractions) : ∃ x y, t = x ++ '\'' :: y ∧
    (∀ c ∈ x, foldCase c = 'n' ∧ c.isAlpha = true) ∧ (∀ c ∈ y, c.isAlpha = true ∧ foldCase c ≠ 'c') ∧ x.length ≤ 1 ∧ y ≠ [] ∧
    y.length ≤ 2 ∧ (x ≠ [] → t.map Char.toLower = c!"n't") := by
  have hparts : ∀ l ∈ Spec.contractions, ∃ x ∈ [[], ['n']], ∃ y ∈ [c!"t", c!"re", c!"ll", c!"ve", c!"m", c!"d", c!"s"],
      l = x ++ '\'' :: y ∧ (x ≠ [] → l = c!"n't") := by decide
  obtain ⟨x, hx, y, hy, e, hn⟩ := hparts _ hl
  rw [List.map_eq_append_iff] at e
  obtain ⟨x', z, rfl, rfl, hz⟩ := e
  rw [List.map_eq_cons_iff] at hz
  obtain ⟨q, y', rfl, hq, rfl⟩ := hz
  have hqq : q = '\'' := by
    have h1 : q.toNat < 128 := lower_ascii (by rw [hq]; decide)
    exact on_ascii (P := fun q => q.toLower = '\'' → q = '\'') (by decide +kernel) h1 hq
  subst hqq
  refine ⟨x', y', rfl, ?_, ?_, ?_, ?_, ?_, fun h => hn (by simpa using h)⟩
  · intro c hc
    have h1 : c.toLower ∈ x'.map Char.toLower := List.mem_map_of_mem hc
    have h2 : ∀ x ∈ [[], ['n']], ∀ c ∈ x, c = 'n' := by decide
    have h3 := h2 _ hx _ h1
    exact on_ascii (P := fun c => c.toLower = 'n' → foldCase c = 'n' ∧ c.isAlpha = true) (by decide +kernel)
      (lower_ascii (by rw [h3]; decide)) h3
  · intro c hc
    have h1 : c.toLower ∈ y'.map Char.toLower := List.mem_map_of_mem hc
    have h2 : ∀ y ∈ [c!"t", c!"re", c!"ll", c!"ve", c!"m", c!"d", c!"s"], ∀ c ∈ y, c ∈ c!"trelvmds" ∧ c.toNat < 128 := by decide
    obtain ⟨h3, h4⟩ := h2 _ hy _ h1
    exact on_ascii (P := fun c => c.toLower ∈ c!"trelvmds" → c.isAlpha = true ∧ foldCase c ≠ 'c') (by decide +kernel)
      (lower_ascii h4) h3
  · have : ∀ x ∈ [[], ['n']], x.length ≤ 1 := by decide
    have := this _ hx
    simpa using this
  · have : ∀ y ∈ [c!"t", c!"re", c!"ll", c!"ve", c!"m", c!"d", c!"s"], y ≠ [] := by decide
    have := this _ hy
    simpa using this
  · have : ∀ y ∈ [c!"t", c!"re", c!"ll", c!"ve", c!"m", c!"d", c!"s"], y.length ≤ 2 := by decide
    have := this _ hy
    simpa using this

theorem tail_fold {t : Str} (hl : t.map Char.toLower ∈ Spec.contractions) : t.map foldCase = t.map Char.toLower := by
  apply List.map_congr_left
  intro c hc
  apply fold_lower
  have h1 : c.toLower ∈ t.map Char.toLower := List.mem_map_of_mem hc
  have : ∀ l ∈ Spec.contractions, ∀ c ∈ l, c.toNat < 128 := by decide
  exact this _ hl _ h1

/-- The characters that open and close. -/
def openers : List Char := ['(', '[', '{', '"']
def closers : List Char := [')', ']', '}', '"']
def marks : List Char := [',', ';', '!', '?', '.']

theorem plain_not_mark {c : Char} (h : Plain db c) : c ∉ usedMarks := by
  intro hm
  have h1 := plain_not_special (db := db) (.inl h)
  have : ∀ d ∈ usedMarks, isSpecial d = true := by decide
  rw [this c hm] at h1
  cases h1

section
variable {p : Spec.Printed} (h : p.Ordinary db)
include h

theorem Ordinary.tail_plain : ∀ c ∈ p.tail, c = '\'' ∨ Plain db c ∧ db.digit c = false := by
  intro c hc
  rcases h.tail with e | hl
  · rw [e] at hc; cases hc
  · obtain ⟨x, y, e, hx, hy, -⟩ := tail_parts hl
    rw [e, List.mem_append, List.mem_cons] at hc
    have ok : ∀ {c : Char}, c.isAlpha = true → Plain db c ∧ db.digit c = false := fun h =>
      ⟨⟨(alpha_word h).1, (alpha_word (db := db) h).2.1⟩, (alpha_word h).2.2⟩
    rcases hc with hc | rfl | hc
    · exact .inr (ok (hx c hc).2)
    · exact .inl rfl
    · exact .inr (ok (hy c hc).1)

theorem Ordinary.stem_not {m : Char} (hm : m ∈ usedMarks) : m ∉ p.stem := fun hc => plain_not_mark (h.stem m hc) hm

theorem Ordinary.tail_not {m : Char} (hm : m ∈ usedMarks) (hq : m ≠ '\'') : m ∉ p.tail := by
  intro hc
  rcases Ordinary.tail_plain h m hc with h1 | ⟨h1, -⟩
  · exact hq h1
  · exact plain_not_mark h1 hm

theorem Ordinary.mark_eq : p.mark = [] ∨ ∃ m ∈ marks, p.mark = [m] := by
  have := h.mark
  simp only [List.mem_cons, List.not_mem_nil, or_false] at this
  rcases this with e | e | e | e | e | e
  · exact .inl e
  all_goals exact .inr ⟨_, by decide, e⟩

theorem Ordinary.mark_sub : ∀ c ∈ p.mark, c ∈ marks := by
  intro c hc
  rcases Ordinary.mark_eq h with e | ⟨m, hm, e⟩
  · rw [e] at hc; cases hc
  · rw [e, List.mem_singleton] at hc
    exact hc ▸ hm

/-- Where a punctuation mark stands. -/
theorem Ordinary.mark_at {m : Char} {a b : Str} (hm : m ∈ marks) (e : p.text = a ++ m :: b) : p.mark = [m] ∧ b = p.outer ∧
    a = p.opening ++ (p.stem ++ (p.tail ++ p.inner)) := by
  have h0 : m ∈ usedMarks ∧ m ≠ '\'' ∧ m ∉ openers ∧ m ∉ closers := by
    have : ∀ m ∈ marks, m ∈ usedMarks ∧ m ≠ '\'' ∧ m ∉ openers ∧ m ∉ closers := by decide
    exact this m hm
  unfold Spec.Printed.text at e
  obtain ⟨a1, rfl, f1⟩ := in_right e fun hc => h0.2.2.1 (h.opening m hc)
  obtain ⟨a2, rfl, f2⟩ := in_right f1 (Ordinary.stem_not h h0.1)
  obtain ⟨a3, rfl, f3⟩ := in_right f2 (Ordinary.tail_not h h0.1 h0.2.1)
  obtain ⟨a4, rfl, f4⟩ := in_right f3 fun hc => h0.2.2.2 (h.inner m hc)
  obtain ⟨y, e1, rfl⟩ := in_left f4 fun hc => h0.2.2.2 (h.outer m hc)
  rcases Ordinary.mark_eq h with e2 | ⟨m', -, e2⟩
  · rw [e2] at e1; simp at e1
  · rw [e2] at e1
    cases a4 with
    | nil =>
      simp only [List.nil_append, List.cons.injEq] at e1
      obtain ⟨rfl, rfl⟩ := e1
      exact ⟨e2, by simp, by simp⟩
    | cons c a4 => simp at e1

/-- Where a single quote stands. -/
theorem Ordinary.quote_at {a b : Str} (e : p.text = a ++ '\'' :: b) : ∃ x y, p.tail = x ++ '\'' :: y ∧
    a = p.opening ++ (p.stem ++ x) ∧ b = y ++ (p.inner ++ (p.mark ++ p.outer)) ∧ y ≠ [] := by
  unfold Spec.Printed.text at e
  have ho : '\'' ∉ openers ∧ '\'' ∉ closers ∧ '\'' ∉ marks := by decide
  obtain ⟨a1, rfl, f1⟩ := in_right e fun hc => ho.1 (h.opening _ hc)
  obtain ⟨a2, rfl, f2⟩ := in_right f1 (Ordinary.stem_not h (m := '\'') (by decide))
  obtain ⟨y1, e1, rfl⟩ := in_left f2 (by
    simp only [List.mem_append, not_or]
    exact ⟨fun hc => ho.2.1 (h.inner _ hc), fun hc => ho.2.2 (Ordinary.mark_sub h _ hc), fun hc => ho.2.1 (h.outer _ hc)⟩)
  refine ⟨a2, y1, e1, rfl, rfl, ?_⟩
  rcases h.tail with e2 | hl
  · rw [e2] at e1; simp at e1
  · obtain ⟨x, y, e3, hx, hy, -, hne, -⟩ := tail_parts hl
    have hqx : '\'' ∉ x := fun hc => by have := (hx _ hc).2; revert this; decide
    have hqy : '\'' ∉ y := fun hc => by have := (hy _ hc).1; revert this; decide
    rw [e3] at e1
    obtain ⟨z, rfl, e4⟩ := in_right e1 hqx
    cases z with
    | nil =>
      simp only [List.nil_append, List.cons.injEq, true_and] at e4
      exact e4 ▸ hne
    | cons c z =>
      simp only [List.cons_append, List.cons.injEq] at e4
      exact absurd (by rw [e4.2]; simp) hqy

theorem Ordinary.text_mem {c : Char} (hc : c ∈ p.text) : Plain db c ∨ c ∈ usedMarks := by
  unfold Spec.Printed.text at hc
  simp only [List.mem_append] at hc
  rcases hc with hc | hc | hc | hc | hc | hc
  · right
    have : ∀ c ∈ openers, c ∈ usedMarks := by decide
    exact this c (h.opening c hc)
  · exact .inl (h.stem c hc)
  · rcases Ordinary.tail_plain h c hc with rfl | ⟨h1, -⟩
    · exact .inr (by decide)
    · exact .inl h1
  · right
    have : ∀ c ∈ closers, c ∈ usedMarks := by decide
    exact this c (h.inner c hc)
  · right
    have : ∀ c ∈ marks, c ∈ usedMarks := by decide
    exact this c (Ordinary.mark_sub h c hc)
  · right
    have : ∀ c ∈ closers, c ∈ usedMarks := by decide
    exact this c (h.outer c hc)

theorem Ordinary.text_inky {c : Char} (hc : c ∈ p.text) : isSpace c = false ∧ odd c = false := by
  rcases Ordinary.text_mem h hc with h1 | h1
  · constructor
    · by_contra hs
      have := db.word_space c (by simpa using hs)
      rw [h1.1] at this
      cases this
    · unfold odd
      rw [plain_not_special (db := db) (.inl h1)]
      rfl
  · have : ∀ c ∈ usedMarks, isSpace c = false ∧ odd c = false := by decide
    exact this c h1

theorem Ordinary.abbr {a v b : Str} (e : p.text = a ++ (v ++ '.' :: b)) (hv : v.map foldCase ∈ Spec.abbreviations) :
    ∃ a' c d u, a = a' ++ [c] ∧ v = d :: u ∧ db.word c = true ∧ db.word d = true := by
  obtain ⟨hm, -, ea⟩ := Ordinary.mark_at h (m := '.') (a := a ++ v) (b := b) (by decide) (by rw [e]; simp)
  have hmark : ∀ c ∈ usedMarks, c ∉ v := by
    intro c hc hcv
    have h1 : foldCase c ∈ v.map foldCase := List.mem_map_of_mem hcv
    have h2 : ∀ l ∈ Spec.abbreviations, ∀ c ∈ l, c ∉ usedMarks := by decide
    have h3 : ∀ c ∈ usedMarks, foldCase c = c := by decide
    rw [h3 c hc] at h1
    exact h2 _ hv c h1 hc
  have hvne : v ≠ [] := by
    rintro rfl
    revert hv
    decide
  have hinner : p.inner = [] := by
    by_contra hne
    obtain ⟨i, c, ei⟩ := (List.eq_nil_or_concat p.inner).resolve_left hne
    obtain ⟨v', d, rfl⟩ := (List.eq_nil_or_concat v).resolve_left hvne
    have hcl : c ∈ closers := h.inner c (by rw [ei]; simp)
    have : ∀ c ∈ closers, c ∈ usedMarks := by decide
    have hcu := this c hcl
    rw [ei] at ea
    have e3 : (a ++ v') ++ [d] = (p.opening ++ (p.stem ++ (p.tail ++ i))) ++ [c] := by simpa using ea
    have e4 := List.append_inj_right' e3 rfl
    simp only [List.cons.injEq, and_true] at e4
    exact hmark c hcu (by rw [← e4]; simp)
  rw [hinner, List.append_nil] at ea
  obtain ⟨hm1, hstem⟩ := h.dot hm hinner
  rcases h.tail with et | hl
  · obtain ⟨-, hns⟩ := hstem et
    rw [et, List.append_nil] at ea
    rcases List.append_eq_append_iff.mp ea with ⟨c', e1, e2⟩ | ⟨a', e1, e2⟩
    · cases c' with
      | nil => rw [List.nil_append] at e2; exact absurd (e2 ▸ hv) hns
      | cons c c' =>
        have hc : c ∈ openers := h.opening c (by rw [e1]; simp)
        have : ∀ c ∈ openers, c ∈ usedMarks := by decide
        exact absurd (by rw [e2]; simp) (hmark c (this c hc))
    · rcases List.eq_nil_or_concat a' with rfl | ⟨a'', c, rfl⟩
      · rw [List.nil_append] at e2
        exact absurd (e2 ▸ hv) hns
      · obtain ⟨d, u, rfl⟩ := List.exists_cons_of_ne_nil hvne
        exact ⟨p.opening ++ a'', c, d, u, by rw [e1]; simp, rfl, (h.stem c (by rw [e2]; simp)).1, (h.stem d (by rw [e2]; simp)).1⟩
  · exfalso
    have hq : '\'' ∈ p.tail := by
      obtain ⟨x, y, e3, -⟩ := tail_parts hl
      rw [e3]; simp
    rw [← List.append_assoc] at ea
    rcases List.append_eq_append_iff.mp ea with ⟨c', e1, e2⟩ | ⟨a', e1, e2⟩
    · exact hmark '\'' (by decide) (by rw [e2]; simp [hq])
    · have hsuf : v.map foldCase <:+ p.tail.map Char.toLower := by
        rw [← tail_fold hl, e2, List.map_append]
        exact List.suffix_append ..
      have : ∀ l ∈ Spec.contractions, ∀ v ∈ Spec.abbreviations, v <:+ l → l = c!"'m" := by decide
      exact hm1 (this _ hl _ hv hsuf)

theorem Ordinary.measured {a v b : Str} {d q : Char} (e : p.text = a ++ d :: (v ++ q :: b)) (hd : db.digit d = true)
    (hv : ∀ c ∈ v, db.digit c = true ∨ c = ',' ∨ c = '.') : q ≠ '\'' ∧ q ≠ '"' := by
  have hw : db.word d = true := db.digit_word d hd
  have hnm : d ∉ usedMarks := by
    intro hm
    have : ∀ c ∈ usedMarks, c.toNat < 128 ∧ c.isDigit = false := by decide
    obtain ⟨h1, h2⟩ := this d hm
    rw [db.digit_ascii d h1, h2] at hd
    cases hd
  by_contra hq
  have hq : q = '\'' ∨ q = '"' := by
    by_cases h1 : q = '\''
    · exact .inl h1
    · by_cases h2 : q = '"'
      · exact .inr h2
      · exact absurd ⟨h1, h2⟩ hq
  have hqu : q ∈ usedMarks := by rcases hq with rfl | rfl <;> decide
  unfold Spec.Printed.text at e
  have sub1 : ∀ c ∈ openers, c ∈ usedMarks := by decide
  have sub2 : ∀ c ∈ closers, c ∈ usedMarks := by decide
  have sub3 : ∀ c ∈ marks, c ∈ usedMarks := by decide
  obtain ⟨a1, rfl, f1⟩ := in_right e fun hc => hnm (sub1 _ (h.opening _ hc))
  obtain ⟨y, e1, e2⟩ := in_left f1 (by
    simp only [List.mem_append, not_or]
    refine ⟨fun hc => ?_, fun hc => hnm (sub2 _ (h.inner _ hc)), fun hc => hnm (sub3 _ (Ordinary.mark_sub h _ hc)),
      fun hc => hnm (sub2 _ (h.outer _ hc))⟩
    rcases Ordinary.tail_plain h d hc with rfl | ⟨-, h1⟩
    · exact hnm (by decide)
    · rw [hd] at h1; cases h1)
  -- the quote stands after the stem
  have hqy : q ∉ y := fun hc => Ordinary.stem_not h hqu (by rw [e1]; simp [hc])
  obtain ⟨z, rfl, e3⟩ := in_right e2.symm hqy
  have hlast : ∃ l, p.stem.getLast? = some l ∧ db.digit l = true := by
    rcases List.eq_nil_or_concat y with rfl | ⟨y', l, rfl⟩
    · exact ⟨d, by rw [e1]; simp, hd⟩
    · refine ⟨l, by rw [e1, show a1 ++ d :: y'.concat l = (a1 ++ d :: y') ++ [l] by simp]; exact List.getLast?_concat, ?_⟩
      rcases hv l (by simp) with h1 | rfl | rfl
      · exact h1
      · exact absurd (by rw [e1]; simp) (Ordinary.stem_not h (m := ',') (by decide))
      · exact absurd (by rw [e1]; simp) (Ordinary.stem_not h (m := '.') (by decide))
  obtain ⟨l, hl1, hl2⟩ := hlast
  have hno : ¬ (p.tail ≠ [] ∨ '"' ∈ p.inner ∨ '"' ∈ p.outer) := fun hc => by
    have := h.measure hc l hl1
    rw [hl2] at this
    cases this
  have hmem : q ∈ p.tail ++ (p.inner ++ (p.mark ++ p.outer)) := by rw [e3]; simp
  simp only [List.mem_append] at hmem
  rcases hmem with hc | hc | hc | hc
  · exact hno (.inl (List.ne_nil_of_mem hc))
  · rcases hq with rfl | rfl
    · have := h.inner _ hc
      revert this; decide
    · exact hno (.inr (.inl hc))
  · have := Ordinary.mark_sub h _ hc
    rcases hq with rfl | rfl <;> (revert this; decide)
  · rcases hq with rfl | rfl
    · have := h.outer _ hc
      revert this; decide
    · exact hno (.inr (.inr hc))

theorem Ordinary.text_ne : p.text ≠ [] := by
  intro e
  unfold Spec.Printed.text at e
  simp only [List.append_eq_nil_iff] at e
  exact h.stem_ne e.2.1

theorem Ordinary.text_noBlank : NoBlank p.text := ⟨Ordinary.text_ne h, fun _ hc => (Ordinary.text_inky h hc).1⟩

end

/-- Texts of ordinary words are sober. -/
theorem Ordinary.sober {p : Spec.Printed} (h : p.Ordinary db) : Sober db [p.text] := by
  refine ⟨?_, ?_, ?_, ?_, ?_, ?_, ?_, ?_, ?_⟩
  · intro w hw
    obtain rfl := List.mem_singleton.mp hw
    exact Ordinary.text_noBlank h
  · intro w hw c hc
    obtain rfl := List.mem_singleton.mp hw
    exact (Ordinary.text_inky h hc).2
  · intro w hw a b e
    obtain rfl := List.mem_singleton.mp hw
    obtain ⟨x, y, -, rfl, rfl, hy⟩ := Ordinary.quote_at h e
    refine ⟨?_, ?_⟩
    · intro e
      simp only [List.append_eq_nil_iff] at e
      exact h.stem_ne e.2.1
    · intro e
      simp only [List.append_eq_nil_iff] at e
      exact hy e.1
  · intro w hw a v b e
    obtain rfl := List.mem_singleton.mp hw
    obtain ⟨-, e2, -⟩ := Ordinary.mark_at h (by decide) e
    have := h.outer '.' (by rw [← e2]; simp)
    revert this; decide
  · intro w hw a c b e
    obtain rfl := List.mem_singleton.mp hw
    obtain ⟨e1, e2, -⟩ := Ordinary.mark_at h (by decide) e
    refine ⟨?_, ?_⟩
    · rintro rfl
      exact h.smiley e1 (by rw [← e2]; rfl)
    · rintro rfl
      have := h.outer '(' (by rw [← e2]; simp)
      revert this; decide
  · intro w hw a c b e
    obtain rfl := List.mem_singleton.mp hw
    obtain ⟨e1, e2, -⟩ := Ordinary.mark_at h (by decide) e
    have := h.outer c (by rw [← e2]; simp)
    have h2 : ∀ c ∈ [')', ']', '}', '"'], c ∉ [',', ';', '?', '!'] := by decide
    exact h2 c this
  · intro w hw a v b e hv
    obtain rfl := List.mem_singleton.mp hw
    exact Ordinary.abbr h e hv
  · intro w hw a d v q b e hd hv
    obtain rfl := List.mem_singleton.mp hw
    exact Ordinary.measured h e hd hv
  · intro A a c u B e
    have := congrArg List.length e
    simp only [List.length_append, List.length_cons, List.length_nil] at this
    omega

/-- Sober words in a row. -/
theorem sober_of {ws : List Str} (h : ∀ w ∈ ws, Sober db [w]) (hb : ws.IsChain (Spec.DotBefore db)) : Sober db ws where
  noBlank w hw := (h w hw).noBlank w (by simp)
  odd w hw := (h w hw).odd w (by simp)
  quote w hw := (h w hw).quote w (by simp)
  oneDot w hw := (h w hw).oneDot w (by simp)
  smiley w hw := (h w hw).smiley w (by simp)
  dot w hw := (h w hw).dot w (by simp)
  abbr w hw := (h w hw).abbr w (by simp)
  measure w hw := (h w hw).measure w (by simp)
  follow A a c u B e := by
    rw [e] at hb
    have := (List.isChain_append.mp hb).2.1
    rw [List.isChain_cons_cons] at this
    obtain ⟨h1, h2, h3⟩ := this.1 List.getLast?_concat c rfl
    exact ⟨fun h4 => h1 ⟨(Char_le_iff _ _).mpr h4.1, (Char_le_iff _ _).mpr h4.2⟩, h2, h3⟩

/-- Words without dots, semicolons and quotes. -/
theorem sober_self {w : Str} (hn : NoBlank w) (ho : ∀ c ∈ w, odd c = false) (hd : '.' ∉ w) (hs : ';' ∉ w) (hq : '\'' ∉ w)
    (hQ : '"' ∉ w) : Sober db [w] := by
  refine ⟨by simpa using hn, by simpa using ho, ?_, ?_, ?_, ?_, ?_, ?_, ?_⟩
  · intro v hv a b e
    obtain rfl := List.mem_singleton.mp hv
    exact absurd (by rw [e]; simp) hq
  · intro v hv a u b e
    obtain rfl := List.mem_singleton.mp hv
    exact absurd (by rw [e]; simp) hd
  · intro v hv a u b e
    obtain rfl := List.mem_singleton.mp hv
    exact absurd (by rw [e]; simp) hs
  · intro v hv a u b e
    obtain rfl := List.mem_singleton.mp hv
    exact absurd (by rw [e]; simp) hd
  · intro v hv a u b e
    obtain rfl := List.mem_singleton.mp hv
    exact absurd (by rw [e]; simp) hd
  · intro v hv a d u q b e _ _
    obtain rfl := List.mem_singleton.mp hv
    refine ⟨?_, ?_⟩
    · rintro rfl
      exact hq (by rw [e]; simp)
    · rintro rfl
      exact hQ (by rw [e]; simp)
  · intro A a c u B e
    have := congrArg List.length e
    simp only [List.length_append, List.length_cons, List.length_nil] at this
    omega

/-- Marks on their own. -/
theorem sober_mark {m : Char} (hm : m ∈ usedMarks) (hq : m ≠ '\'') : Sober db [[m]] := by
  have hi : ∀ c ∈ usedMarks, isSpace c = false ∧ Model.odd c = false := by decide
  have two : ∀ {a b : Str} {c d : Char}, [m] = a ++ c :: d :: b → False := by
    intro a b c d e
    have := congrArg List.length e
    simp only [List.length_append, List.length_cons, List.length_nil] at this
    omega
  refine ⟨?_, ?_, ?_, ?_, ?_, ?_, ?_, ?_, ?_⟩
  · intro v hv
    obtain rfl := List.mem_singleton.mp hv
    exact ⟨by simp, by simpa using (hi m hm).1⟩
  · intro v hv
    obtain rfl := List.mem_singleton.mp hv
    simpa using (hi m hm).2
  · intro v hv a b e
    obtain rfl := List.mem_singleton.mp hv
    have : '\'' ∈ [m] := by rw [e]; simp
    exact absurd (List.mem_singleton.mp this).symm hq
  · intro v hv a u b e
    obtain rfl := List.mem_singleton.mp hv
    have := congrArg List.length e
    simp only [List.length_append, List.length_cons, List.length_nil] at this
    omega
  · intro v hv a u b e
    obtain rfl := List.mem_singleton.mp hv
    exact (two e).elim
  · intro v hv a u b e
    obtain rfl := List.mem_singleton.mp hv
    exact (two e).elim
  · intro v hv a u b e hu
    obtain rfl := List.mem_singleton.mp hv
    exfalso
    cases u with
    | nil => revert hu; decide
    | cons d u =>
      have := congrArg List.length e
      simp only [List.length_append, List.length_cons, List.length_nil] at this
      omega
  · intro v hv a d u q b e _ _
    obtain rfl := List.mem_singleton.mp hv
    exfalso
    have := congrArg List.length e
    simp only [List.length_append, List.length_cons, List.length_nil] at this
    omega
  · intro A a c u B e
    have := congrArg List.length e
    simp only [List.length_append, List.length_cons, List.length_nil] at this
    omega

end Model
