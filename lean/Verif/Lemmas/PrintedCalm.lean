import Verif.Lemmas.PrintedRules
import Verif.Spec.Printed

/-! Texts without anything to protect. -/

namespace Model
open Py

variable {db : CharDB}

/-- The punctuation of ordinary sentences. -/
def usedMarks : List Char := [',', ';', '!', '?', '.', '(', ')', '[', ']', '{', '}', '"', '\'']

/-- Symbols that do not occur in ordinary sentences. -/
def odd (c : Char) : Bool := isSpecial c && !(usedMarks ++ ['༺', '༻', '⦅', '⦆', '¶']).contains c

/-- A text without blanks stands within a word. -/
theorem run_in_word {x v y : Str} (hv : v ≠ []) (hb : ∀ c ∈ v, isSpace c = false) : ∃ A a b B x' y',
    splitWs (x ++ (v ++ y)) = A ++ (a ++ (v ++ b)) :: B ∧ x = x' ++ a ∧ y = b ++ y' ∧ AtEdge x'.reverse ∧ AtEdge y' ∧
      splitWs y' = B := by
  obtain ⟨c, v, rfl⟩ := List.exists_cons_of_ne_nil hv
  obtain ⟨A, a, b, B, x', y', h1, h2, h3, h4, h5, h6, -⟩ := word_around (c := c) (hb c (by simp)) x (v ++ y)
  have : ∃ b', b = v ++ b' ∧ y = b' ++ y' := by
    rcases List.append_eq_append_iff.mp h3.symm with ⟨a', e1, e2⟩ | ⟨c', e1, e2⟩
    · rcases h5 with rfl | ⟨d, u, rfl, hd⟩
      · cases a' with
        | nil => exact ⟨[], by simpa using e1.symm, by simpa using e2.symm⟩
        | cons d a' => simp at e2
      · cases a' with
        | nil => exact ⟨[], by simpa using e1.symm, by simpa using e2.symm⟩
        | cons e a' =>
          simp only [List.cons_append, List.cons.injEq] at e2
          have := hb e (by rw [e1]; simp)
          rw [← e2.1, hd] at this
          cases this
    · exact ⟨c', e1, e2⟩
  obtain ⟨b', rfl, hy⟩ := this
  exact ⟨A, a, b', B, x', y', h1, h2, hy, h4, h5, h6⟩

/-- Words without anything that looks like an abbreviation, a measure, an address or a smiley. -/
structure Sober (db : CharDB) (ws : List Str) : Prop where
  noBlank : ∀ w ∈ ws, NoBlank w
  odd : ∀ w ∈ ws, ∀ c ∈ w, odd c = false
  quote : ∀ w ∈ ws, ∀ a b, w = a ++ '\'' :: b → a ≠ [] ∧ b ≠ []
  oneDot : ∀ w ∈ ws, ∀ a v b, w ≠ a ++ '.' :: (v ++ '.' :: b)
  smiley : ∀ w ∈ ws, ∀ a c b, w = a ++ ';' :: c :: b → c ≠ ')' ∧ c ≠ '('
  dot : ∀ w ∈ ws, ∀ a c b, w = a ++ '.' :: c :: b → c ∉ [',', ';', '?', '!']
  abbr : ∀ w ∈ ws, ∀ a v b, w = a ++ (v ++ '.' :: b) → v.map foldCase ∈ Spec.abbreviations →
    ∃ a' c d u, a = a' ++ [c] ∧ v = d :: u ∧ db.word c = true ∧ db.word d = true
  measure : ∀ w ∈ ws, ∀ a d v q b, w = a ++ d :: (v ++ q :: b) → db.digit d = true →
    (∀ c ∈ v, db.digit c = true ∨ c = ',' ∨ c = '.') → q ≠ '\'' ∧ q ≠ '"'
  follow : ∀ A a c u B, ws = A ++ (a ++ ['.']) :: (c :: u) :: B → ¬ (97 ≤ c.toNat ∧ c.toNat ≤ 122) ∧ db.digit c = false ∧
    c ∉ [',', ';', '?', '!']

theorem splitWs_next {d c : Char} {u : Str} (hd : isSpace d = true) (hc : isSpace c = false) :
    ∃ w B, splitWs (d :: c :: u) = (c :: w) :: B := by
  have e : splitWs (d :: c :: u) = splitWs (c :: u) := splitWs_spaces_append (u := [d]) _ (by simpa using hd)
  obtain ⟨A, a, b, B, x', y', h1, h2, -, -, -, -, hA⟩ := word_around (c := c) hc [] u
  have ha : a = [] := by
    have := h2.symm
    rw [List.append_eq_nil_iff] at this
    exact this.2
  have hx : x' = [] := by
    have := h2.symm
    rw [List.append_eq_nil_iff] at this
    exact this.1
  subst ha
  rw [List.nil_append] at h1
  rw [e, h1]
  rw [hx] at hA
  rw [← hA]
  exact ⟨b, B, rfl⟩

section
variable {ws : List Str} (h : Sober db ws) {text : Str} (ht : splitWs text = ws)
include h ht

theorem Sober.clean : ∀ c ∈ text, Model.odd c = false := by
  intro c hc
  by_cases hs : isSpace c = true
  · have : ∀ d, isSpace d = true → Model.odd d = false := by
      intro d hd
      unfold Model.odd
      rw [plain_not_special (db := db) (.inr hd)]
      rfl
    exact this c hs
  · obtain ⟨x, y, rfl⟩ := List.append_of_mem hc
    obtain ⟨A, a, b, B, x', y', h1, -⟩ := word_around (c := c) (by simpa using hs) x y
    rw [ht] at h1
    exact h.odd (a ++ c :: b) (by rw [h1]; simp) c (by simp)

theorem Sober.in_word {x v y : Str} (e : text = x ++ (v ++ y)) (hv : v ≠ []) (hb : ∀ c ∈ v, isSpace c = false) :
    ∃ a b, a ++ (v ++ b) ∈ ws ∧ (∃ x', x = x' ++ a ∧ AtEdge x'.reverse) ∧ ∃ y', y = b ++ y' ∧ AtEdge y' := by
  obtain ⟨A, a, b, B, x', y', h1, h2, h3, h4, h5, h6⟩ := run_in_word (x := x) (y := y) hv hb
  rw [← e, ht] at h1
  exact ⟨a, b, by rw [h1]; simp, ⟨x', h2, h4⟩, y', h3, h5⟩

/-- What follows a dot. -/
theorem Sober.after_dot {x y : Str} (e : text = x ++ '.' :: y) : y = [] ∨
    (∃ c u, y = c :: u ∧ isSpace c = false ∧ c ∉ [',', ';', '?', '!']) ∨
    ∃ d u, y = d :: u ∧ isSpace d = true ∧ ∀ c v, u = c :: v → isSpace c = false → ¬ (97 ≤ c.toNat ∧ c.toNat ≤ 122) ∧
      db.digit c = false ∧ c ∉ [',', ';', '?', '!'] := by
  obtain ⟨A, a, b, B, x', y', h1, h2, h3, h4, h5, h6⟩ := run_in_word (x := x) (v := ['.']) (y := y) (by simp) (by decide)
  rw [show x ++ (['.'] ++ y) = text from e.symm, ht] at h1
  have hmem : a ++ (['.'] ++ b) ∈ ws := by rw [h1]; simp
  cases b with
  | cons c b =>
    right; left
    exact ⟨c, b ++ y', h3, (h.noBlank _ hmem).2 c (by simp), h.dot _ hmem a c b rfl⟩
  | nil =>
    rw [List.nil_append] at h3
    subst h3
    rcases h5 with rfl | ⟨d, u, rfl, hd⟩
    · exact .inl rfl
    · right; right
      refine ⟨d, u, rfl, hd, fun c v e hc => ?_⟩
      subst e
      obtain ⟨w, B', hB⟩ := splitWs_next (u := v) hd hc
      rw [hB] at h6
      rw [← h6] at h1
      exact h.follow A a c w B' (by simpa using h1)

theorem Sober.after_quote {x y : Str} (e : text = x ++ '\'' :: y) :
    (∃ x' c, x = x' ++ [c] ∧ isSpace c = false) ∧ ∃ c y', y = c :: y' ∧ isSpace c = false := by
  obtain ⟨a, b, hm, ⟨x', hx, -⟩, y', hy, -⟩ := h.in_word ht (v := ['\'']) e (by simp) (by decide)
  obtain ⟨h1, h2⟩ := h.quote _ hm a b rfl
  have hnb := h.noBlank _ hm
  constructor
  · obtain ⟨a', c, rfl⟩ := (List.eq_nil_or_concat a).resolve_left h1
    exact ⟨x' ++ a', c, by rw [hx]; simp, hnb.2 c (by simp)⟩
  · obtain ⟨c, b', rfl⟩ := List.exists_cons_of_ne_nil h2
    exact ⟨c, b' ++ y', by rw [hy]; rfl, hnb.2 c (by simp)⟩

end

/-! ### Nothing is protected -/

theorem dot_test {ic : Bool} {c : Char} (h : (⟨false, ic, [.ch '.']⟩ : Cls).test db c = true) : c = '.' :=
  lit_test (by decide) (by decide) h

theorem noSpaceDot_test {c : Char} (h : (⟨true, true, [.space, .ch '.']⟩ : Cls).test db c = true) : isSpace c = false ∧ c ≠ '.' := by
  have hf : foldCase '.' = '.' := by decide
  constructor
  · by_contra hs
    have hs : isSpace c = true := by simpa using hs
    simp [Cls.test, Item.test, hs] at h
  · rintro rfl
    simp [Cls.test, Item.test] at h

theorem rep_cls_den {n : Nat} {g : Bool} {k : Cls} {w : Str} (h : (Re.rep n g (.cls k)).den db w) :
    n ≤ w.length ∧ ∀ c ∈ w, k.test db c = true := by
  obtain ⟨l, h1, rfl, h2⟩ := h
  have : ∀ u ∈ l, ∃ c, u = [c] ∧ k.test db c = true := h2
  clear h2
  have key : l.flatten.length = l.length ∧ ∀ c ∈ l.flatten, k.test db c = true := by
    clear h1
    induction l with
    | nil => simp
    | cons u l ih =>
      obtain ⟨c, rfl, hc⟩ := this u (by simp)
      obtain ⟨h3, h4⟩ := ih fun v hv => this v (by simp [hv])
      refine ⟨by simp [h3], ?_⟩
      intro d hd
      rw [List.flatten_cons, List.mem_append, List.mem_singleton] at hd
      rcases hd with rfl | hd
      · exact hc
      · exact h4 d hd
  exact ⟨by rw [key.1]; exact h1, key.2⟩

theorem Sober.unprotected {ws : List Str} (h : Sober db ws) {text : Str} (ht : splitWs text = ws) :
    ∀ r ∈ tokProtect, r.search db text = none := by
  have hclean := h.clean ht
  have quoteFirst : ∀ {b : Re}, ∀ pre rest : Str, text = pre.reverse ++ rest → ∀ w u, rest = w ++ u →
      ¬ (Re.seq (.cls ⟨false, true, [.space]⟩) (.seq (.cls ⟨false, true, [.ch '\'']⟩) b)).den db w := by
    rintro b pre rest et w u e ⟨x, y, rfl, ⟨d, rfl, hd⟩, x2, y2, rfl, ⟨c, rfl, hc⟩, -⟩
    have := quote_test hc
    subst this
    obtain ⟨⟨x', c, e2, hc⟩, -⟩ := h.after_quote ht (x := pre.reverse ++ [d]) (y := y2 ++ u) (by rw [et, e]; simp)
    have := List.append_inj_right' e2 rfl
    simp only [List.cons.injEq, and_true] at this
    rw [← this, space_test hd] at hc
    cases hc
  have none_of : ∀ r : Re, (∀ pre rest w u : Str, text = pre.reverse ++ rest → rest = w ++ u → ¬ r.den db w) → r.search db text = none := by
    intro r hr
    refine Re.search_none fun pre rest et => ?_
    rcases hm : r.matchAt db pre rest with _ | t
    · rfl
    · obtain ⟨w, u, e, hd⟩ := Re.match_den hm
      exact absurd hd (hr pre rest w u et e)
  intro r hr
  unfold tokProtect at hr
  simp only [List.mem_cons, List.not_mem_nil, or_false] at hr
  rcases hr with rfl | rfl | rfl | rfl | rfl
  · exact none_of _ fun pre rest w u et e => quoteFirst pre rest et w u e
  · refine none_of _ ?_
    rintro pre rest w u et e ⟨x, y, rfl, ⟨d, rfl, hd⟩, x2, y2, rfl, h1, ⟨f, rfl, hf⟩⟩
    rcases h1 with ⟨p, q, rfl, ⟨c, rfl, hc⟩, -⟩ | ⟨p, q, rfl, -, ⟨c, rfl, hc⟩⟩
    · refine quoteFirst (b := .rep 0 true (.cls ⟨true, true, []⟩)) pre rest et ([d] ++ [c]) (q ++ [f] ++ u) (by rw [e]; simp)
        ⟨[d], [c], rfl, ⟨d, rfl, hd⟩, [c], [], rfl, ⟨c, rfl, hc⟩, [], by simp, rfl, by simp⟩
    · have := quote_test hc
      subst this
      obtain ⟨-, g, y', e2, hg⟩ := h.after_quote ht (x := pre.reverse ++ ([d] ++ p)) (y := [f] ++ u) (by rw [et, e]; simp)
      simp only [List.singleton_append, List.cons.injEq] at e2
      rw [← e2.1, space_test hf] at hg
      cases hg
  · refine none_of _ ?_
    rintro pre rest w u et e ⟨x, y, rfl, h1, x2, y2, rfl, h2, x3, y3, rfl, h3, -⟩
    rcases h1 with h1 | h1
    · obtain ⟨a1, b1, rfl, -, a2, b2, rfl, -, a3, b3, rfl, -, a4, b4, rfl, -, a5, b5, rfl, -, a6, b6, rfl, ⟨c, rfl, hc⟩, -⟩ := h1
      have hcol : c = ':' := lit_test (by decide) (by decide) hc
      have := hclean c (by rw [et, e]; simp)
      rw [hcol] at this
      exact absurd this (by decide)
    · obtain ⟨a1, b1, rfl, -, a2, b2, rfl, -, a3, b3, rfl, -, ⟨c, rfl, hc⟩⟩ := h1
      have := dot_test hc
      subst this
      obtain ⟨l, hl, rfl, h3⟩ := h3
      obtain ⟨g, l, rfl⟩ : ∃ g l', l = g :: l' := by cases l <;> simp at hl ⊢
      obtain ⟨p, q, rfl, ⟨c, rfl, hc⟩, -⟩ := h3 g (by simp)
      have := dot_test hc
      subst this
      obtain ⟨-, h2⟩ := rep_cls_den h2
      have hx2 : ∀ c ∈ x2, isSpace c = false := fun c hc => (noSpaceDot_test (h2 c hc)).1
      obtain ⟨a, b, hm, -⟩ := h.in_word ht (x := pre.reverse ++ (a1 ++ (a2 ++ a3))) (v := '.' :: (x2 ++ ['.']))
        (y := q ++ (l.flatten ++ y3) ++ u) (by rw [et, e]; simp) (by simp) (by
          intro c hc
          simp only [List.mem_cons, List.mem_append, List.mem_singleton] at hc
          rcases hc with rfl | hc | rfl | hc
          · decide
          · exact hx2 c hc
          · decide
          · cases hc)
      exact h.oneDot _ hm a x2 b (by simp)
  · refine Re.search_of_needs (p := Model.odd) (by decide +kernel) hclean
  · refine none_of _ ?_
    have key : ∀ (pre rest w u : Str) (e : Char), (e = ')' ∨ e = '(') → text = pre.reverse ++ rest → rest = w ++ u →
        ¬ (Re.seq (.cls ⟨false, true, [.ch ':', .ch ';']⟩) (.seq (.alt (.cls ⟨false, true, [.ch '-']⟩) .eps)
          (.cls ⟨false, true, [.ch e]⟩))).den db w := by
      rintro pre rest w u e he et er ⟨x, y, rfl, ⟨c, rfl, hc⟩, x2, y2, rfl, h1, ⟨f, rfl, hf⟩⟩
      have hc2 : c = ':' ∨ c = ';' := by
        have := hc
        simp only [Cls.test, List.any_cons, List.any_nil, Bool.or_false, Item.test, if_true, bne_iff_ne, ne_eq,
          Bool.not_eq_false, Bool.or_eq_true, beq_iff_eq] at this
        rcases this with h | h
        · exact .inl (foldCase_of_not_letter (by decide) (by decide) (h.symm.trans (by decide)))
        · exact .inr (foldCase_of_not_letter (by decide) (by decide) (h.symm.trans (by decide)))
      have hfe : f = e := by
        rcases he with rfl | rfl <;> exact lit_test (by decide) (by decide) hf
      rcases hc2 with rfl | rfl
      · have := hclean ':' (by rw [et, er]; simp)
        exact absurd this (by decide)
      rcases h1 with ⟨g, rfl, hg⟩ | h1
      · have hg : g = '-' := lit_test (by decide) (by decide) hg
        have := hclean g (by rw [et, er]; simp)
        rw [hg] at this
        exact absurd this (by decide)
      · have : x2 = [] := h1
        subst this
        obtain ⟨a, b, hm, -⟩ := h.in_word ht (x := pre.reverse) (v := [';', f]) (y := u) (by rw [et, er]; simp) (by simp) (by
          rw [hfe]
          rcases he with rfl | rfl <;> decide)
        have := h.smiley _ hm a f b rfl
        rw [hfe] at this
        rcases he with rfl | rfl
        · exact this.1 rfl
        · exact this.2 rfl
    rintro pre rest w u et e (h1 | h1)
    · exact key pre rest w u ')' (.inl rfl) et e h1
    · exact key pre rest w u '(' (.inr rfl) et e h1

end Model
