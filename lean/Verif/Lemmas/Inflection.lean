import Verif.Lemmas.Normalization
import Verif.Props.Lemmatizer
import Verif.Spec.Inflection

/-! # The rules of the lemmatizer, one after the other -/

namespace Model
open Py Spec

theorem consonant_iff (c : Char) : c ∈ consonants ↔ consonant c := by
  have h1 : ∀ c ∈ consonants, c ∈ c!"bcdfghjklmnpqrstvwxz" := by decide
  have h2 : ∀ c ∈ c!"bcdfghjklmnpqrstvwxz", c ∈ consonants := by decide
  exact ⟨h1 c, h2 c⟩

theorem vowel_iff (c : Char) : c ∈ vowels ↔ vowel c := by
  have h1 : ∀ c ∈ vowels, c ∈ c!"aeiouy" := by decide
  have h2 : ∀ c ∈ c!"aeiouy", c ∈ vowels := by decide
  exact ⟨h1 c, h2 c⟩

/-- An ending that does not fit the end of a word. -/
theorem no_suffix {s l e : Str} (h1 : ¬ e <:+ l) (h2 : ¬ l <:+ e) : ¬ e <:+ s ++ l := by
  intro h
  rcases List.suffix_or_suffix_of_suffix h (List.suffix_append s l) with h | h
  · exact h1 h
  · exact h2 h

variable {z : Lemmatizer} {w : Str} {tag : Tag} {r : Rule} {rs : List Rule}

theorem tryRules_next (h : z.applyRule w tag r = .ok none) : z.tryRules w tag (r :: rs) = z.tryRules w tag rs := by
  rw [Lemmatizer.tryRules, h]
  rfl

theorem tryRules_hit {start stem : Str} {es : List Str} (he : r.ending ≠ []) (hw : w = start ++ r.ending) (hs : start ≠ [])
    (hm : r.minLength ≤ start.length) (hg : r.guard z w = true) (hk : r.kind.apply start = .ok (some (stem, es))) :
    z.tryRules w tag (r :: rs) = z.lmLemma w tag stem es r.suffix := by
  have ht := (Props.C13_token_start w r.ending start r.minLength he).mpr ⟨hw, hs, hm⟩
  rw [Lemmatizer.tryRules]
  unfold Lemmatizer.applyRule
  simp only [ht, hg, if_true, hk, bind, Except.bind]
  cases z.lmLemma w tag stem es r.suffix <;> rfl

theorem skip_start (he : r.ending ≠ []) (h : ∀ start, w = start ++ r.ending → start ≠ [] → r.minLength ≤ start.length →
    r.guard z w = true → r.kind.apply start = .ok none) : z.applyRule w tag r = .ok none := by
  unfold Lemmatizer.applyRule
  cases ht : tokenStart w r.ending r.minLength with
  | none => rfl
  | some start =>
    obtain ⟨h1, h2, h3⟩ := (Props.C13_token_start w r.ending start r.minLength he).mp ht
    simp only
    by_cases hg : r.guard z w = true
    · rw [if_pos hg, h start h1 h2 h3 hg]
      rfl
    · rw [if_neg hg]

theorem skip_suffix (he : r.ending ≠ []) (h : ¬ r.ending <:+ w) : z.applyRule w tag r = .ok none :=
  skip_start he fun start hw _ _ _ => absurd ⟨start, hw.symm⟩ h

theorem apply_double {start : Str} : RuleKind.double.apply start = .ok none ↔
    ¬ ∃ (s : Str) (v c : Char), start = s ++ [v, c, c] ∧ vowel v ∧ consonant c := by
  rw [RuleKind.apply]
  cases hv : vowelDoubleConsonantEndings start with
  | none =>
    refine ⟨?_, fun _ => rfl⟩
    rintro - ⟨s, v, c, h1, h2, h3⟩
    have := (Props.C13_vowel_double_consonant start [[c], [c, c]]).mpr ⟨s, v, c, h1, (vowel_iff v).mpr h2, (consonant_iff c).mpr h3, rfl⟩
    rw [hv] at this
    cases this
  | some l =>
    obtain ⟨s, v, c, h1, h2, h3, -⟩ := (Props.C13_vowel_double_consonant start l).mp hv
    refine ⟨fun h => by simp at h, fun h => ?_⟩
    exact absurd ⟨s, v, c, h1, (vowel_iff v).mp h2, (consonant_iff c).mp h3⟩ h

theorem apply_double_some {s : Str} {v c : Char} (hv : vowel v) (hc : consonant c) :
    RuleKind.double.apply (s ++ [v, c, c]) = .ok (some (s ++ [v], [[c], [c, c]])) := by
  rw [RuleKind.apply, (Props.C13_vowel_double_consonant (s ++ [v, c, c]) [[c], [c, c]]).mpr
    ⟨s, v, c, rfl, (vowel_iff v).mpr hv, (consonant_iff c).mpr hc, rfl⟩]
  have := sliceTo_neg (s ++ [v, c, c]) 2 (by decide)
  have e : (-((2 : Nat) : Int)) = -2 := rfl
  rw [e] at this
  rw [Option.map_some, this]
  congr 3
  rw [show s ++ [v, c, c] = (s ++ [v]) ++ [c, c] by simp, List.take_left' (by simp)]

theorem apply_consonant {es : List Str} (s : Str) (c : Char) : (RuleKind.consonant es).apply (s ++ [c]) =
    .ok (if c ∈ consonants then some (s ++ [c], es) else none) := by
  simp only [RuleKind.apply, endsWithConsonant, index_last_append, bind, Except.bind, pure, Except.pure, decide_eq_true_eq]

theorem apply_last {es : List Str} (s : Str) (c : Char) : (RuleKind.last es).apply (s ++ [c]) =
    .ok (some (s, es.map (c :: ·))) := by
  simp only [RuleKind.apply, index_last_append, bind, Except.bind, pure, Except.pure, sliceTo_neg_one, List.dropLast_concat]

theorem skip_doubled (hk : r.kind = .double) (he : r.ending ≠ []) (hm : r.minLength = 4) (h : ¬ Doubled r.ending w) :
    z.applyRule w tag r = .ok none := by
  refine skip_start he fun start hw hs hl _ => ?_
  rw [hk, apply_double]
  rintro ⟨s, v, c, rfl, h1, h2⟩
  refine h ⟨s, v, c, hw, h1, h2, ?_⟩
  rintro rfl
  rw [hm] at hl
  simp at hl

theorem skip_consonant {es : List Str} {n : Nat} (hk : r.kind = .consonant es) (he : r.ending ≠ []) (hm : r.minLength = n)
    (h : ¬ AfterConsonant n r.ending w) : z.applyRule w tag r = .ok none := by
  refine skip_start he fun start hw hs hl _ => ?_
  obtain ⟨s, c, rfl⟩ : ∃ s c, start = s ++ [c] := by
    obtain ⟨s, c, e⟩ := List.eq_nil_or_concat start |>.resolve_left hs
    exact ⟨s, c, by simpa using e⟩
  rw [hk, apply_consonant, if_neg]
  intro hc
  refine h ⟨s, c, hw, (consonant_iff c).mp hc, ?_⟩
  rw [hm] at hl
  simp at hl
  omega

theorem skip_after {n : Nat} (he : r.ending ≠ []) (hm : r.minLength = n) (h : ¬ After n r.ending w) :
    z.applyRule w tag r = .ok none := by
  refine skip_start he fun start hw hs hl _ => absurd ⟨start, hw, ?_⟩ h
  rw [hm] at hl
  omega

theorem skip_guard (he : r.ending ≠ []) (hg : r.guard z w = false) : z.applyRule w tag r = .ok none :=
  skip_start he fun _ _ _ _ h => by rw [hg] at h; cases h

/-! ### Endings that exclude one another -/

theorem doubled_last {e s : Str} {c : Char} (h : Doubled e (s ++ [c] ++ e)) : consonant c ∧ ∃ d, s.getLast? = some d ∧ d = c := by
  obtain ⟨s', v, c', h1, -, h3, -⟩ := h
  have h4 := List.append_cancel_right h1
  rw [show s' ++ [v, c', c'] = (s' ++ [v, c']) ++ [c'] by simp] at h4
  obtain ⟨rfl, h5⟩ := List.append_inj' h4 rfl
  have : c = c' := by simpa using h5
  subst this
  exact ⟨h3, c, by simp, rfl⟩

theorem afterConsonant_cut {n : Nat} {e f w : Str} (h : AfterConsonant n (e ++ f) w) : After (n + e.length) f w := by
  obtain ⟨s, c, rfl, -, hn⟩ := h
  exact ⟨s ++ [c] ++ e, by simp, by simp; omega⟩

theorem after_mono {n k : Nat} {e w : Str} (h : After n e w) (hk : k ≤ n) : After k e w := by
  obtain ⟨s, rfl, hn⟩ := h
  exact ⟨s, rfl, by omega⟩

theorem after_cut {n : Nat} {e f w : Str} (h : After n (e ++ f) w) : After (n + e.length) f w := by
  obtain ⟨s, rfl, hn⟩ := h
  exact ⟨s ++ e, by simp, by simp; omega⟩

theorem afterConsonant_suffix {n : Nat} {e w : Str} (h : AfterConsonant n e w) : e <:+ w := by
  obtain ⟨s, c, rfl, -, -⟩ := h
  exact List.suffix_append _ _

theorem after_suffix {n : Nat} {e w : Str} (h : After n e w) : e <:+ w := by
  obtain ⟨s, rfl, -⟩ := h
  exact List.suffix_append _ _

theorem doubled_suffix {e w : Str} (h : Doubled e w) : e <:+ w := by
  obtain ⟨s, v, c, rfl, -⟩ := h
  exact List.suffix_append _ _

/-- Skip a rule whose ending does not fit. -/
local macro "skip_end" : tactic =>
  `(tactic| rw [tryRules_next (skip_suffix (by decide) (no_suffix (by decide) (by decide)))])

theorem not_doubled_of {e s : Str} {c : Char} (h : ¬ consonant c) : ¬ Doubled e (s ++ [c] ++ e) := fun h' => h (doubled_last h').1

theorem not_doubled_ne {e s : Str} {c d : Char} (h : d ≠ c) : ¬ Doubled e (s ++ [d] ++ [c] ++ e) := by
  intro h'
  obtain ⟨x, hx, rfl⟩ := (doubled_last h').2
  simp at hx
  exact h hx

/-- A word with a doubled consonant before its ending. -/
theorem not_ck {e s : Str} {v c : Char} (f : Str) : ¬ (f ++ ['c', 'k'] ++ e) <:+ s ++ [v, c, c] ++ e := by
  rintro ⟨t, ht⟩
  rw [← List.append_assoc, ← List.append_assoc] at ht
  have h1 := List.append_cancel_right ht
  rw [show s ++ [v, c, c] = (s ++ [v]) ++ [c, c] by simp] at h1
  obtain ⟨-, h2⟩ := List.append_inj' h1 rfl
  simp only [List.cons.injEq, and_true] at h2
  exact absurd (h2.1.trans h2.2.symm) (by decide)

theorem ne_nil_length {s : Str} (h : s ≠ []) : 1 ≤ s.length := List.length_pos_iff.mpr h

/-- The rule that applies is the one of the reading. -/
theorem reading_rules {stem : Str} {es : List Str} {sfx : Suffix}
    (h : Reading (fun g => z.lm.hasNgram g 1 = true) z.adjs tag w stem es sfx) :
    z.tryRules w tag (rulesFor tag) = z.lmLemma w tag stem es sfx := by
  have cons : ∀ {c}, consonant c → ∀ (s : Str) (es : List Str),
      (RuleKind.consonant es).apply (s ++ [c]) = .ok (some (s ++ [c], es)) := by
    intro c hc s es
    rw [apply_consonant, if_pos ((consonant_iff c).mpr hc)]
  cases h with
  | icking s c hc hs =>
    show z.tryRules _ _ verbRules = _
    have := ne_nil_length hs
    exact tryRules_hit (by decide) rfl (by simp) (by simp; omega) rfl (cons hc _ _)
  | ingDoubled s v c hv hc hs =>
    show z.tryRules _ _ verbRules = _
    have := ne_nil_length hs
    unfold verbRules
    rw [tryRules_next (skip_suffix (by decide) (not_ck c!"i"))]
    skip_end
    exact tryRules_hit (by decide) rfl (by simp) (by simp; omega) rfl (apply_double_some hv hc)
  | ing s c hs h1 h2 =>
    show z.tryRules _ _ verbRules = _
    unfold verbRules
    rw [tryRules_next (skip_consonant rfl (by decide) rfl h1)]
    skip_end
    rw [tryRules_next (skip_doubled rfl (by decide) rfl h2)]
    exact tryRules_hit (by decide) rfl (by simp) (by simp; omega) rfl (apply_last _ _)
  | icked s c hc hs =>
    show z.tryRules _ _ verbRules = _
    have := ne_nil_length hs
    unfold verbRules
    skip_end
    exact tryRules_hit (by decide) rfl (by simp) (by simp; omega) rfl (cons hc _ _)
  | edDoubled s v c hv hc hs =>
    show z.tryRules _ _ verbRules = _
    have := ne_nil_length hs
    unfold verbRules
    skip_end
    rw [tryRules_next (skip_suffix (by decide) (not_ck c!"i"))]
    skip_end
    skip_end
    skip_end
    exact tryRules_hit (by decide) rfl (by simp) (by simp; omega) rfl (apply_double_some hv hc)
  | ied s c hc hs =>
    show z.tryRules _ _ verbRules = _
    have := ne_nil_length hs
    unfold verbRules
    skip_end
    skip_end
    skip_end
    skip_end
    skip_end
    rw [tryRules_next (skip_doubled rfl (by decide) rfl (by
      have := not_doubled_of (e := c!"ed") (s := s ++ [c]) (c := 'i') (by unfold consonant; decide)
      simpa using this))]
    exact tryRules_hit (by decide) rfl (by simp) (by simp; omega) rfl (cons hc _ _)
  | ed s c hs h1 h2 h3 =>
    show z.tryRules _ _ verbRules = _
    have := ne_nil_length hs
    unfold verbRules
    skip_end
    rw [tryRules_next (skip_consonant rfl (by decide) rfl h1)]
    skip_end
    skip_end
    skip_end
    rw [tryRules_next (skip_doubled rfl (by decide) rfl h2), tryRules_next (skip_consonant rfl (by decide) rfl h3)]
    skip_end
    exact tryRules_hit (by decide) rfl (by simp) (by simp; omega) rfl (apply_last _ _)
  | icks s c hc hs =>
    show z.tryRules _ _ verbRules = _
    have := ne_nil_length hs
    unfold verbRules
    skip_end
    skip_end
    skip_end
    skip_end
    exact tryRules_hit (by decide) rfl (by simp) (by simp; omega) rfl (cons hc _ _)
  | verbIes s c hc =>
    show z.tryRules _ _ verbRules = _
    unfold verbRules
    skip_end
    skip_end
    skip_end
    skip_end
    skip_end
    skip_end
    skip_end
    exact tryRules_hit (by decide) rfl (by simp) (by simp) rfl (cons hc _ _)
  | verbEs s c hs h1 =>
    show z.tryRules _ _ verbRules = _
    have := ne_nil_length hs
    unfold verbRules
    skip_end
    skip_end
    skip_end
    skip_end
    skip_end
    skip_end
    skip_end
    rw [tryRules_next (skip_consonant rfl (by decide) rfl h1)]
    skip_end
    exact tryRules_hit (by decide) rfl (by simp) (by simp; omega) rfl (apply_last _ _)
  | verbS s c hs h1 h2 =>
    show z.tryRules _ _ verbRules = _
    have := ne_nil_length hs
    unfold verbRules
    skip_end
    skip_end
    skip_end
    skip_end
    rw [tryRules_next (skip_consonant rfl (by decide) rfl h1)]
    skip_end
    skip_end
    rw [tryRules_next (skip_consonant rfl (by decide) rfl fun h => h2 (afterConsonant_cut (e := c!"i") (f := c!"es") h))]
    skip_end
    rw [tryRules_next (skip_after (by decide) rfl h2)]
    exact tryRules_hit (by decide) rfl (by simp) (by simp; omega) rfl (apply_last _ _)
  | a s hs =>
    show z.tryRules _ _ nounRules = _
    exact tryRules_hit (by decide) rfl (by rintro rfl; simp at hs) (by simp; omega) rfl rfl
  | ieves s c hc =>
    show z.tryRules _ _ nounRules = _
    unfold nounRules
    skip_end
    exact tryRules_hit (by decide) rfl (by simp) (by simp) rfl (cons hc _ _)
  | i s hs =>
    show z.tryRules _ _ nounRules = _
    unfold nounRules
    skip_end
    skip_end
    exact tryRules_hit (by decide) rfl (by rintro rfl; simp at hs) (by simp; omega) rfl rfl
  | nounIes s c hc hs =>
    show z.tryRules _ _ nounRules = _
    have := ne_nil_length hs
    unfold nounRules
    skip_end
    skip_end
    skip_end
    exact tryRules_hit (by decide) rfl (by simp) (by simp; omega) rfl (cons hc _ _)
  | ves s hs h1 =>
    show z.tryRules _ _ nounRules = _
    unfold nounRules
    skip_end
    rw [tryRules_next (skip_consonant rfl (by decide) rfl h1)]
    skip_end
    skip_end
    exact tryRules_hit (by decide) rfl (by rintro rfl; simp at hs) (by simp; omega) rfl rfl
  | men s hs =>
    show z.tryRules _ _ nounRules = _
    unfold nounRules
    skip_end
    skip_end
    skip_end
    skip_end
    skip_end
    exact tryRules_hit (by decide) rfl (by rintro rfl; simp at hs) (by simp; omega) rfl rfl
  | nounEs s c hs h1 h2 =>
    show z.tryRules _ _ nounRules = _
    have := ne_nil_length hs
    unfold nounRules
    skip_end
    rw [tryRules_next (skip_consonant rfl (by decide) rfl fun h =>
      h2 (after_mono (afterConsonant_cut (e := c!"ie") (f := c!"ves") h) (by decide)))]
    skip_end
    rw [tryRules_next (skip_consonant rfl (by decide) rfl h1), tryRules_next (skip_after (by decide) rfl h2)]
    skip_end
    exact tryRules_hit (by decide) rfl (by simp) (by simp; omega) rfl (apply_last _ _)
  | nounS s c hs h1 h2 h3 =>
    show z.tryRules _ _ nounRules = _
    have := ne_nil_length hs
    unfold nounRules
    skip_end
    rw [tryRules_next (skip_consonant rfl (by decide) rfl fun h =>
      h3 (after_mono (afterConsonant_cut (e := c!"iev") (f := c!"es") h) (by decide)))]
    skip_end
    rw [tryRules_next (skip_consonant rfl (by decide) rfl fun h =>
        h3 (after_mono (afterConsonant_cut (e := c!"i") (f := c!"es") h) (by decide))),
      tryRules_next (skip_after (by decide) rfl fun h => h3 (after_mono (after_cut (e := c!"v") (f := c!"es") h) (by decide)))]
    skip_end
    rw [tryRules_next (skip_after (by decide) rfl h3)]
    refine tryRules_hit (by decide) rfl (by simp) (by simp; omega) ?_ (apply_last _ _)
    have h4 : endsWith (stem ++ [c] ++ c!"s") c!"ss" = false := by
      rw [Bool.eq_false_iff]
      intro h
      obtain ⟨t, ht⟩ := List.isSuffixOf_iff_suffix.mp h
      rw [show t ++ c!"ss" = t ++ ['s'] ++ c!"s" by simp] at ht
      obtain ⟨-, h5⟩ := List.append_inj' (List.append_cancel_right ht) rfl
      exact h1 (by simpa using h5.symm)
    have h5 : z.lm.hasNgram (stem ++ [c] ++ c!"s" ++ c!"es") 1 = false := by
      rw [Bool.eq_false_iff]
      simpa using h2
    simp only [h4, h5]
    rfl
  | estDoubled s v c hv hc hs =>
    show z.tryRules _ _ adjRules = _
    have := ne_nil_length hs
    exact tryRules_hit (by decide) rfl (by simp) (by simp; omega) rfl (apply_double_some hv hc)
  | iest s c hc hs =>
    show z.tryRules _ _ adjRules = _
    have := ne_nil_length hs
    unfold adjRules
    rw [tryRules_next (skip_doubled rfl (by decide) rfl (by
      have := not_doubled_of (e := c!"est") (s := s ++ [c]) (c := 'i') (by unfold consonant; decide)
      simpa using this))]
    skip_end
    exact tryRules_hit (by decide) rfl (by simp) (by simp; omega) rfl (cons hc _ _)
  | est s c hs h1 h2 =>
    show z.tryRules _ _ adjRules = _
    unfold adjRules
    rw [tryRules_next (skip_doubled rfl (by decide) rfl h1)]
    skip_end
    rw [tryRules_next (skip_consonant rfl (by decide) rfl h2)]
    exact tryRules_hit (by decide) rfl (by simp) (by simp; omega) rfl (apply_last _ _)
  | erDoubled s v c hv hc hs =>
    show z.tryRules _ _ adjRules = _
    have := ne_nil_length hs
    unfold adjRules
    skip_end
    exact tryRules_hit (by decide) rfl (by simp) (by simp; omega) rfl (apply_double_some hv hc)
  | ier s c hc hs =>
    show z.tryRules _ _ adjRules = _
    have := ne_nil_length hs
    unfold adjRules
    skip_end
    rw [tryRules_next (skip_doubled rfl (by decide) rfl (by
      have := not_doubled_of (e := c!"er") (s := s ++ [c]) (c := 'i') (by unfold consonant; decide)
      simpa using this))]
    skip_end
    skip_end
    exact tryRules_hit (by decide) rfl (by simp) (by simp; omega) rfl (cons hc _ _)
  | er s c hs h1 h2 h3 =>
    show z.tryRules _ _ adjRules = _
    unfold adjRules
    skip_end
    rw [tryRules_next (skip_doubled rfl (by decide) rfl h1)]
    skip_end
    skip_end
    rw [tryRules_next (skip_consonant rfl (by decide) rfl h2)]
    refine tryRules_hit (by decide) rfl (by simp) (by simp; omega) ?_ (apply_last _ _)
    simp only [h3, decide_false, Bool.not_false]

/-! ### Words that have no reading -/

theorem hasLast {n : Nat} {e w : Str} (h : After (n + 1) e w) : ∃ (s : Str) (c : Char), w = s ++ [c] ++ e ∧ n ≤ s.length := by
  obtain ⟨t, rfl, ht⟩ := h
  obtain ⟨s, c, rfl⟩ := List.eq_nil_or_concat t |>.resolve_left (by rintro rfl; simp at ht)
  exact ⟨s, c, by simp, by simpa using ht⟩

theorem not_nil {s : Str} (h : 1 ≤ s.length) : s ≠ [] := by rintro rfl; simp at h

theorem no_reading_verb (h : ∀ stem es sfx, ¬ Reading (fun g => z.lm.hasNgram g 1 = true) z.adjs .VERB w stem es sfx) :
    z.tryRules w .VERB verbRules = .ok (w, none) := by
  have h1 : ¬ AfterConsonant 2 c!"icking" w := by
    rintro ⟨s, c, rfl, hc, hn⟩; exact h _ _ _ (.icking s c hc (not_nil (by omega)))
  have h2 : ¬ AfterConsonant 2 c!"icked" w := by
    rintro ⟨s, c, rfl, hc, hn⟩; exact h _ _ _ (.icked s c hc (not_nil (by omega)))
  have h3 : ¬ Doubled c!"ing" w := by
    rintro ⟨s, v, c, rfl, hv, hc, hn⟩; exact h _ _ _ (.ingDoubled s v c hv hc hn)
  have h4 : ¬ After 3 c!"ing" w := by
    intro hh
    obtain ⟨s, c, rfl, hn⟩ := hasLast hh
    exact h _ _ _ (.ing s c hn h1 h3)
  have h5 : ¬ AfterConsonant 2 c!"icks" w := by
    rintro ⟨s, c, rfl, hc, hn⟩; exact h _ _ _ (.icks s c hc (not_nil (by omega)))
  have h6 : ¬ Doubled c!"ed" w := by
    rintro ⟨s, v, c, rfl, hv, hc, hn⟩; exact h _ _ _ (.edDoubled s v c hv hc hn)
  have h7 : ¬ AfterConsonant 2 c!"ied" w := by
    rintro ⟨s, c, rfl, hc, hn⟩; exact h _ _ _ (.ied s c hc (not_nil (by omega)))
  have h8 : ¬ AfterConsonant 1 c!"ies" w := by
    rintro ⟨s, c, rfl, hc, hn⟩; exact h _ _ _ (.verbIes s c hc)
  have h9 : ¬ After 2 c!"ed" w := by
    intro hh
    obtain ⟨s, c, rfl, hn⟩ := hasLast hh
    exact h _ _ _ (.ed s c (not_nil hn) h2 h6 h7)
  have h10 : ¬ After 2 c!"es" w := by
    intro hh
    obtain ⟨s, c, rfl, hn⟩ := hasLast hh
    exact h _ _ _ (.verbEs s c (not_nil hn) h8)
  have h11 : ¬ After 2 c!"s" w := by
    intro hh
    obtain ⟨s, c, rfl, hn⟩ := hasLast hh
    exact h _ _ _ (.verbS s c (not_nil hn) h5 h10)
  unfold verbRules
  rw [tryRules_next (skip_consonant rfl (by decide) rfl h1), tryRules_next (skip_consonant rfl (by decide) rfl h2),
    tryRules_next (skip_doubled rfl (by decide) rfl h3), tryRules_next (skip_after (by decide) rfl h4),
    tryRules_next (skip_consonant rfl (by decide) rfl h5), tryRules_next (skip_doubled rfl (by decide) rfl h6),
    tryRules_next (skip_consonant rfl (by decide) rfl h7), tryRules_next (skip_consonant rfl (by decide) rfl h8),
    tryRules_next (skip_after (by decide) rfl h9), tryRules_next (skip_after (by decide) rfl h10),
    tryRules_next (skip_after (by decide) rfl h11)]
  rfl

theorem no_reading_noun (h : ∀ stem es sfx, ¬ Reading (fun g => z.lm.hasNgram g 1 = true) z.adjs .NOUN w stem es sfx) :
    z.tryRules w .NOUN nounRules = .ok (w, none) := by
  have h1 : ¬ After 5 c!"a" w := by
    rintro ⟨s, rfl, hn⟩; exact h _ _ _ (.a s hn)
  have h2 : ¬ AfterConsonant 1 c!"ieves" w := by
    rintro ⟨s, c, rfl, hc, hn⟩; exact h _ _ _ (.ieves s c hc)
  have h3 : ¬ After 4 c!"i" w := by
    rintro ⟨s, rfl, hn⟩; exact h _ _ _ (.i s hn)
  have h4 : ¬ AfterConsonant 2 c!"ies" w := by
    rintro ⟨s, c, rfl, hc, hn⟩; exact h _ _ _ (.nounIes s c hc (not_nil (by omega)))
  have h5 : ¬ After 2 c!"ves" w := by
    rintro ⟨s, rfl, hn⟩; exact h _ _ _ (.ves s hn h2)
  have h6 : ¬ After 2 c!"men" w := by
    rintro ⟨s, rfl, hn⟩; exact h _ _ _ (.men s hn)
  have h7 : ¬ After 2 c!"es" w := by
    intro hh
    obtain ⟨s, c, rfl, hn⟩ := hasLast hh
    exact h _ _ _ (.nounEs s c (not_nil hn) h4 h5)
  unfold nounRules
  rw [tryRules_next (skip_after (by decide) rfl h1), tryRules_next (skip_consonant rfl (by decide) rfl h2),
    tryRules_next (skip_after (by decide) rfl h3), tryRules_next (skip_consonant rfl (by decide) rfl h4),
    tryRules_next (skip_after (by decide) rfl h5), tryRules_next (skip_after (by decide) rfl h6),
    tryRules_next (skip_after (by decide) rfl h7), tryRules_next]
  · rfl
  · by_cases h8 : After 2 c!"s" w
    · refine skip_guard (by decide) ?_
      obtain ⟨s, c, rfl, hn⟩ := hasLast h8
      simp only [Bool.not_eq_false', Bool.or_eq_true]
      by_cases hc : c = 's'
      · left
        subst hc
        exact List.isSuffixOf_iff_suffix.mpr ⟨s, by simp⟩
      · right
        by_contra hk
        exact h _ _ _ (.nounS s c (not_nil hn) hc (by simpa using hk) h7)
    · exact skip_after (by decide) rfl h8

theorem no_reading_adj (h : ∀ stem es sfx, ¬ Reading (fun g => z.lm.hasNgram g 1 = true) z.adjs .ADJ w stem es sfx) :
    z.tryRules w .ADJ adjRules = .ok (w, none) := by
  have h1 : ¬ Doubled c!"est" w := by
    rintro ⟨s, v, c, rfl, hv, hc, hn⟩; exact h _ _ _ (.estDoubled s v c hv hc hn)
  have h2 : ¬ Doubled c!"er" w := by
    rintro ⟨s, v, c, rfl, hv, hc, hn⟩; exact h _ _ _ (.erDoubled s v c hv hc hn)
  have h3 : ¬ AfterConsonant 2 c!"iest" w := by
    rintro ⟨s, c, rfl, hc, hn⟩; exact h _ _ _ (.iest s c hc (not_nil (by omega)))
  have h4 : ¬ AfterConsonant 2 c!"ier" w := by
    rintro ⟨s, c, rfl, hc, hn⟩; exact h _ _ _ (.ier s c hc (not_nil (by omega)))
  have h5 : ¬ After 3 c!"est" w := by
    intro hh
    obtain ⟨s, c, rfl, hn⟩ := hasLast hh
    exact h _ _ _ (.est s c hn h1 h3)
  unfold adjRules
  rw [tryRules_next (skip_doubled rfl (by decide) rfl h1), tryRules_next (skip_doubled rfl (by decide) rfl h2),
    tryRules_next (skip_consonant rfl (by decide) rfl h3), tryRules_next (skip_after (by decide) rfl h5),
    tryRules_next (skip_consonant rfl (by decide) rfl h4), tryRules_next]
  · rfl
  · by_cases h6 : After 3 c!"er" w
    · refine skip_guard (by decide) ?_
      obtain ⟨s, c, rfl, hn⟩ := hasLast h6
      simp only [Bool.not_eq_false', decide_eq_true_eq]
      by_contra hk
      exact h _ _ _ (.er s c hn h2 h4 hk)
    · exact skip_after (by decide) rfl h6

/-- A word without a reading is its own lemma. -/
theorem no_reading_rules (h : ∀ stem es sfx, ¬ Reading (fun g => z.lm.hasNgram g 1 = true) z.adjs tag w stem es sfx) :
    z.tryRules w tag (rulesFor tag) = .ok (w, none) := by
  unfold rulesFor
  split
  · rename_i ht; subst ht; exact no_reading_adj h
  · split
    · rename_i ht; subst ht; exact no_reading_verb h
    · split
      · rename_i ht; subst ht; exact no_reading_noun h
      · rfl

/-! ### The choice of the language model -/

section
variable {R : Rounding} {log : ℚ → ℚ} {files : List (Int × Str)}

theorem firstMax_unique {α κ} [LinearOrder κ] {key : α → κ} {l : List α} {a b : α} (h : FirstMax key l a) (h' : FirstMax key l b) :
    a = b := by
  obtain ⟨p, q, e, h1, h2⟩ := h
  obtain ⟨p', q', e', h1', h2'⟩ := h'
  have hl : p.length = p'.length := by
    rcases Nat.lt_trichotomy p.length p'.length with hlt | heq | hgt
    · have ha : a ∈ p' := by
        have : (p' ++ b :: q')[p.length]? = some a := by rw [← e', e]; simp
        rw [List.getElem?_append_left hlt] at this
        exact List.mem_of_getElem? this
      have hb : b ∈ q := by
        have : (p ++ a :: q)[p'.length]? = some b := by rw [← e, e']; simp
        rw [List.getElem?_append_right (by omega)] at this
        obtain ⟨k, hk⟩ : ∃ k, p'.length - p.length = k + 1 := ⟨p'.length - p.length - 1, by omega⟩
        rw [hk, List.getElem?_cons_succ] at this
        exact List.mem_of_getElem? this
      exact absurd (h1' a ha) (not_lt.mpr (h2 b hb))
    · exact heq
    · have hb : b ∈ p := by
        have : (p ++ a :: q)[p'.length]? = some b := by rw [← e, e']; simp
        rw [List.getElem?_append_left hgt] at this
        exact List.mem_of_getElem? this
      have ha : a ∈ q' := by
        have : (p' ++ b :: q')[p.length]? = some a := by rw [← e', e]; simp
        rw [List.getElem?_append_right (by omega)] at this
        obtain ⟨k, hk⟩ : ∃ k, p.length - p'.length = k + 1 := ⟨p.length - p'.length - 1, by omega⟩
        rw [hk, List.getElem?_cons_succ] at this
        exact List.mem_of_getElem? this
      exact absurd (h1 b hb) (not_lt.mpr (h2' a ha))
  rw [e] at e'
  exact (List.cons.inj (List.append_inj e' hl).2).1

theorem bestNgram_first (h : LM.load R log files = .ok z.lm) {gs : List Str} {g : Str} (hk : z.lm.contains g = true)
    (hg : FirstMax z.lm.logp gs g) : z.lm.bestNgram gs = .ok (some g) := by
  obtain ⟨⟨r, h1⟩, h2, h3⟩ := Props.C29_best_ngram h gs
  cases r with
  | none =>
    have hm : g ∈ gs := by
      obtain ⟨p, q, e, -⟩ := hg
      rw [e]; simp
    rw [h2.mp h1 g hm] at hk
    cases hk
  | some r => rw [h1, firstMax_unique (h3 r h1).2 hg]

theorem inContext_eq (cands : List Str) :
    (cands.flatMap fun c => (tokensBefore cands tag).map fun t => join c!" " [t, c]) = inContext tag cands := by
  have e : tokensBefore cands tag = wordsBefore tag cands := rfl
  rw [e]
  unfold inContext
  exact List.flatMap_congr fun c _ => List.map_congr_left fun t _ => by simp [join]

theorem bestCandidate_chosen (h : LM.load R log files = .ok z.lm) {stem r : Str} {es : List Str}
    (hn : ∀ e ∈ es, NoBlank (stem ++ e)) (hc : Chosen z.lm tag (es.map (stem ++ ·)) r) :
    z.bestCandidate stem es tag = .ok (some r) := by
  have hlen : (es.map (stem ++ ·)).length = es.length := by simp
  unfold Lemmatizer.bestCandidate
  cases hc with
  | only h1 h2 =>
    obtain ⟨e, rfl, h3⟩ := List.map_eq_singleton_iff.mp h1
    simp only [h3, h2, if_true]
  | pair t h1 ht hr h2 h3 =>
    rw [hlen] at h1
    split
    · simp at h1
    · simp only
      rw [inContext_eq, bestNgram_first h h2 h3]
      obtain ⟨e, he, rfl⟩ := List.mem_map.mp hr
      have e1 : t ++ ' ' :: (stem ++ e) = join c!" " [t, stem ++ e] := by simp [join]
      simp only [bind, Except.bind, e1, splitWs_space, splitWs_noBlank_self (hn e he), index_last_append]
      rfl
  | alone h1 h2 h3 h4 =>
    rw [hlen] at h1
    split
    · simp at h1
    · simp only
      rw [inContext_eq, (Props.C29_best_ngram h _).2.1.mpr h2]
      exact bestNgram_first h h3 h4

theorem bestCandidate_unattested (h : LM.load R log files = .ok z.lm) {stem : Str} {es : List Str}
    (hu : Unattested z.lm tag (es.map (stem ++ ·))) : z.bestCandidate stem es tag = .ok none := by
  obtain ⟨h1, h2⟩ := hu
  unfold Lemmatizer.bestCandidate
  split
  · rename_i e
    simp [h1 (stem ++ e) rfl]
  · rename_i hne
    have hl : (es.map (stem ++ ·)).length ≠ 1 := by
      rw [List.length_map]
      intro hl
      obtain ⟨e, rfl⟩ := List.length_eq_one_iff.mp hl
      exact hne e rfl
    obtain ⟨h3, h4⟩ := h2 hl
    simp only
    rw [inContext_eq, (Props.C29_best_ngram h _).2.1.mpr h3]
    exact (Props.C29_best_ngram h _).2.1.mpr h4

theorem chosen_or_unattested (h : LM.load R log files = .ok z.lm) (cands : List Str) :
    (∃ r, Chosen z.lm tag cands r) ∨ Unattested z.lm tag cands := by
  by_cases hl : cands.length = 1
  · obtain ⟨c, rfl⟩ := List.length_eq_one_iff.mp hl
    cases hc : z.lm.hasNgram c 1 with
    | true => exact .inl ⟨c, .only rfl hc⟩
    | false =>
      refine .inr ⟨fun r hr => ?_, fun h => absurd hl h⟩
      rw [← (List.cons.inj hr).1]
      exact hc
  · obtain ⟨⟨r, h1⟩, h2, h3⟩ := Props.C29_best_ngram h (inContext tag cands)
    cases r with
    | some g =>
      left
      obtain ⟨hk, hf⟩ := h3 g h1
      have hm : g ∈ inContext tag cands := by
        obtain ⟨p, q, e, -⟩ := hf
        rw [e]; simp
      obtain ⟨c, hc, hm⟩ := List.mem_flatMap.mp hm
      obtain ⟨t, ht, rfl⟩ := List.mem_map.mp hm
      exact ⟨c, .pair t hl ht hc hk hf⟩
    | none =>
      obtain ⟨⟨r, h4⟩, h5, h6⟩ := Props.C29_best_ngram h cands
      cases r with
      | some c => exact .inl ⟨c, .alone hl (h2.mp h1) (h6 c h4).1 (h6 c h4).2⟩
      | none => exact .inr ⟨fun r hr => absurd (by rw [hr]; rfl) hl, fun _ => ⟨h2.mp h1, h5.mp h4⟩⟩

theorem lmLemma_chosen {stem r : Str} {es : List Str} {s : Suffix} (h : z.bestCandidate stem es tag = .ok (some r)) :
    z.lmLemma w tag stem es s = .ok (r, some s) := by
  unfold Lemmatizer.lmLemma
  rw [h]
  rfl

theorem lmLemma_prefix {stem pre base r : Str} {es : List Str} {s : Suffix} (h : z.bestCandidate stem es tag = .ok none)
    (hp : tokenPrefix stem z.prefixes = some (pre, base)) (hr : z.bestCandidate base es tag = .ok (some r)) :
    z.lmLemma w tag stem es s = .ok (pre ++ r, some s) := by
  unfold Lemmatizer.lmLemma
  rw [h]
  simp only [bind, Except.bind, hp, hr]
  rfl

theorem lmLemma_none {stem : Str} {es : List Str} {s : Suffix} (h : z.bestCandidate stem es tag = .ok none)
    (hp : ∀ pre base, tokenPrefix stem z.prefixes = some (pre, base) → z.bestCandidate base es tag = .ok none) :
    z.lmLemma w tag stem es s = .ok (w, none) := by
  unfold Lemmatizer.lmLemma
  rw [h]
  cases ht : tokenPrefix stem z.prefixes with
  | none => simp only [bind, Except.bind]; rfl
  | some pb =>
    obtain ⟨pre, base⟩ := pb
    simp only [bind, Except.bind, hp pre base ht]
    rfl

end

/-- The candidates of a word without white space have none. -/
theorem reading_noBlank {known : Str → Prop} {adjs : List Str} {stem base : Str} {es : List Str} {sfx : Suffix}
    (h : Reading known adjs tag w stem es sfx) (hw : ∀ c ∈ w, isSpace c = false) (hb : ∀ c ∈ base, c ∈ stem) :
    ∀ e ∈ es, NoBlank (base ++ e) := by
  have key : (∀ c ∈ stem, isSpace c = false) ∧ ∀ e ∈ es, e ≠ [] ∧ ∀ c ∈ e, isSpace c = false := by
    have hl : ∀ c ∈ c!"icyfeonusvma", isSpace c = false := by decide
    cases h <;> refine ⟨fun x hx => hw x (by simp at hx ⊢; tauto), ?_⟩ <;>
      simp only [List.mem_cons, List.not_mem_nil, or_false, forall_eq_or_imp, forall_eq, ne_eq, reduceCtorEq, not_false_eq_true,
        true_and] <;> (try decide) <;> (try (have := hw _ (List.mem_append_left _ (List.mem_append_right _ (List.mem_singleton_self _))))) <;>
      (try (refine ⟨this, ?_⟩)) <;> (try decide) <;> (try simp_all)
  intro e he
  exact ⟨by simp [(key.2 e he).1], fun c hc => by
    rcases List.mem_append.mp hc with hc | hc
    · exact key.1 c (hb c hc)
    · exact (key.2 e he).2 c hc⟩

end Model
