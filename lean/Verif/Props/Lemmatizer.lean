import Verif.Lemmas.Normalization

/-! C35 to C38, and C14 for the prefixes of the lemmatizer. -/

namespace Props
open Py Model

variable {R : Rounding} {log : ℚ → ℚ} {files : List (Int × Str)} {z : Lemmatizer}

/-! ### C35 -/

/-- **C35.** The lemmatizer never raises, whatever the word, the tag and the dictionaries, for a language model loaded
from files whose n-grams all have a word. -/
theorem C35_total (h : LM.load R log files = .ok z.lm) (hw : HasWords z.lm) (word : Str) (tag : Tag) :
    ∃ r, z.call word tag = .ok r := by
  unfold Lemmatizer.call
  simp only
  split
  · exact ⟨_, rfl⟩
  · split
    · exact ⟨_, rfl⟩
    · split
      · exact ⟨_, rfl⟩
      · exact tryRules_ok h hw _ _ _ (rules_wellformed tag)

/-- A lemmatizer with empty dictionaries. -/
def bareLemmatizer (lm : LM) : Lemmatizer :=
  { lower := id, prefixes := lemmatizerPrefixes, lm := lm, adjs := [], preteritLemma := [], ppLemma := [], pluralLemma := []
    comparativeLemma := [], superlativeLemma := [] }

/-- The condition on the language model is needed: with an n-gram made of blanks, `split()[-1]` raises. -/
theorem C35_blank_ngram_raises : ∃ m, LM.load Rounding.exact (fun p => p) [(1, c!"       \t3\t0.5\n")] = .ok m ∧
    (bareLemmatizer m).call c!"   est" .ADJ = .error .index :=
  ⟨⟨1, [(c!"       ", 3, 1 / 2, ((1 / 2 : ℚ) : WithBot ℚ))], []⟩, by decide +kernel, by decide +kernel⟩

/-- The rows of a file with words give such a model. -/
theorem hasWords_of_rows {m : LM} (h : LM.load R log files = .ok m)
    (hr : ∀ r ∈ rowsOf R log files, ∃ c ∈ r.1, isSpace c = false) : HasWords m := by
  intro g hg
  obtain ⟨r, h1, rfl⟩ := (C28_contains h g).mp hg
  exact hr r h1

/-! ### C36 -/

/-- The suffixes a tag may have. -/
def suffixesOf : Tag → List Suffix
  | .VERB => [.THIRD_PERSON, .PAST, .PROGRESSIVE]
  | .NOUN => [.PLURAL]
  | .ADJ => [.COMPARATIVE, .SUPERLATIVE]
  | .ADV => [.COMPARATIVE, .SUPERLATIVE]
  | _ => []

theorem rules_suffix (tag : Tag) : ∀ r ∈ rulesFor tag, r.suffix ∈ suffixesOf tag := by
  intro r hr
  unfold rulesFor at hr
  split at hr
  · rename_i ht
    subst ht
    simp only [adjRules, List.mem_cons, List.not_mem_nil, or_false] at hr
    rcases hr with rfl | rfl | rfl | rfl | rfl | rfl <;> decide
  · split at hr
    · rename_i ht
      subst ht
      simp only [verbRules, List.mem_cons, List.not_mem_nil, or_false] at hr
      rcases hr with rfl | rfl | rfl | rfl | rfl | rfl | rfl | rfl | rfl | rfl | rfl <;> decide
    · split at hr
      · rename_i ht
        subst ht
        simp only [nounRules, List.mem_cons, List.not_mem_nil, or_false] at hr
        rcases hr with rfl | rfl | rfl | rfl | rfl | rfl | rfl | rfl <;> decide
      · simp at hr

theorem irregular_suffix {word l : Str} {tag : Tag} {s : Option Suffix} (h : z.irregularLemma word tag = some (l, s)) :
    ∃ t, s = some t ∧ t ∈ suffixesOf tag := by
  unfold Lemmatizer.irregularLemma at h
  split at h
  · rename_i ht
    subst ht
    simp only [Option.map_eq_some_iff, Prod.mk.injEq] at h
    obtain ⟨_, _, _, rfl⟩ := h
    exact ⟨_, rfl, by decide⟩
  · split at h
    · rename_i ht
      subst ht
      split at h
      · simp only [Option.some.injEq, Prod.mk.injEq] at h
        exact ⟨_, h.2.symm, by decide⟩
      · simp only [Option.map_eq_some_iff, Prod.mk.injEq] at h
        obtain ⟨_, _, _, rfl⟩ := h
        exact ⟨_, rfl, by decide⟩
    · split at h
      · rename_i ht
        subst ht
        split at h
        · simp only [Option.some.injEq, Prod.mk.injEq] at h
          exact ⟨_, h.2.symm, by decide⟩
        · simp only [Option.map_eq_some_iff, Prod.mk.injEq] at h
          obtain ⟨_, _, _, rfl⟩ := h
          exact ⟨_, rfl, by decide⟩
      · simp at h

/-- The fixed forms: tag, word, lemma, suffix. -/
def fixedForms : List (Tag × Str × Str × Option Suffix) :=
  [(.VERB, c!"'m", c!"be", none), (.VERB, c!"am", c!"be", none), (.VERB, c!"'re", c!"be", none),
   (.VERB, c!"are", c!"be", none), (.VERB, c!"'s", c!"be", some .THIRD_PERSON), (.VERB, c!"is", c!"be", some .THIRD_PERSON),
   (.VERB, c!"being", c!"be", some .PROGRESSIVE), (.VERB, c!"has", c!"have", some .THIRD_PERSON),
   (.VERB, c!"doing", c!"do", some .PROGRESSIVE), (.VERB, c!"need", c!"need", none),
   (.ADJ, c!"better", c!"good", some .COMPARATIVE), (.ADJ, c!"best", c!"good", some .SUPERLATIVE),
   (.ADV, c!"better", c!"well", some .COMPARATIVE), (.ADV, c!"best", c!"well", some .SUPERLATIVE),
   (.ADV, c!"'", c!"'s", none),
   (.NOUN, c!"'s", c!"we", none), (.PROPN, c!"'s", c!"we", none), (.PRON, c!"'s", c!"we", none),
   (.SYM, c!"'s", c!"we", none), (.NUM, c!"'s", c!"we", none),
   (.NOUN, c!"acumen", c!"acumen", none), (.PROPN, c!"acumen", c!"acumen", none), (.PRON, c!"acumen", c!"acumen", none),
   (.SYM, c!"acumen", c!"acumen", none), (.NUM, c!"acumen", c!"acumen", none)]

/-- The full matches of the code are the fixed forms. -/
theorem fixedLemma_iff (word l : Str) (tag : Tag) (s : Option Suffix) :
    fixedLemma word tag = some (l, s) ↔ (tag, word, l, s) ∈ fixedForms := by
  constructor
  · intro h
    unfold fixedLemma fixedVerb at h
    cases tag <;> simp only [reduceCtorEq, if_false, if_true, nounTags, List.mem_cons, List.not_mem_nil, or_false, or_true,
      or_self, false_or, true_or] at h <;> (try (simp at h; done)) <;>
      (repeat' split at h) <;> simp only [Option.some.injEq, Prod.mk.injEq, reduceCtorEq] at h <;>
      (obtain ⟨rfl, rfl⟩ := h) <;> (rename_i hw; first | subst hw; decide | (rcases hw with rfl | rfl | rfl | rfl <;> decide) | (rcases hw with rfl | rfl <;> decide))
  · intro h
    simp only [fixedForms, List.mem_cons, List.not_mem_nil, or_false] at h
    rcases h with h | h | h | h | h | h | h | h | h | h | h | h | h | h | h | h | h | h | h | h | h | h | h | h | h <;>
      (simp only [Prod.mk.injEq] at h; obtain ⟨rfl, rfl, rfl, rfl⟩ := h; decide)

theorem fixed_suffix {word l : Str} {tag : Tag} {s : Suffix} (h : fixedLemma word tag = some (l, some s)) :
    s ∈ suffixesOf tag := by
  rw [fixedLemma_iff] at h
  have : ∀ f ∈ fixedForms, ∀ s, f.2.2.2 = some s → s ∈ suffixesOf f.1 := by decide
  exact this _ h s rfl

/-- **C36.** The suffix is `None` or one that the tag may have: third person, past or progressive for verbs, plural for
nouns, comparative or superlative for adjectives and adverbs, nothing for other tags. -/
theorem C36_suffix (word l : Str) (tag : Tag) (s : Suffix) (h : z.call word tag = .ok (l, some s)) : s ∈ suffixesOf tag := by
  unfold Lemmatizer.call at h
  simp only at h
  split at h
  · rename_i r hf
    rw [Except.ok.injEq] at h
    subst h
    exact fixed_suffix hf
  · split at h
    · rename_i r hf
      rw [Except.ok.injEq] at h
      subst h
      obtain ⟨t, e, ht⟩ := irregular_suffix hf
      rw [Option.some.injEq] at e
      exact e ▸ ht
    · split at h
      · rename_i r hf
        rw [Except.ok.injEq] at h
        subst h
        unfold Lemmatizer.prefixedIrregular at hf
        split at hf
        · simp only [Option.map_eq_some_iff, Prod.mk.injEq] at hf
          obtain ⟨⟨l', s'⟩, h1, -, h2⟩ := hf
          obtain ⟨t, e, ht⟩ := irregular_suffix h1
          rw [e, Option.some.injEq] at h2
          exact h2 ▸ ht
        · simp at hf
      · rcases tryRules_cases _ h with h1 | ⟨rule, hr, start, stem, es, -, -, -, h2⟩
        · simp at h1
        · rcases lmLemma_cases h2 with ⟨b, -, e⟩ | ⟨_, _, b, -, -, e⟩ | e
          · rw [Prod.mk.injEq, Option.some.injEq] at e
            exact e.2 ▸ rules_suffix tag rule hr
          · rw [Prod.mk.injEq, Option.some.injEq] at e
            exact e.2 ▸ rules_suffix tag rule hr
          · simp at e

/-! ### C37 -/

/-- Endings that may replace the inflection in a rule. -/
def ruleEndings : RuleKind → List Str
  | .double => []
  | .consonant l => l
  | .plain l => l
  | .last l => l

theorem rules_endings (tag : Tag) : ∀ r ∈ rulesFor tag, (∀ e ∈ ruleEndings r.kind, ∀ c ∈ e, isSpace c = false) ∧
    (match r.kind with | .consonant l => ∀ e ∈ l, e ≠ [] | .plain l => ∀ e ∈ l, e ≠ [] | _ => True) := by
  intro r hr
  unfold rulesFor at hr
  split at hr
  · simp only [adjRules, List.mem_cons, List.not_mem_nil, or_false] at hr
    rcases hr with rfl | rfl | rfl | rfl | rfl | rfl <;> decide
  · split at hr
    · simp only [verbRules, List.mem_cons, List.not_mem_nil, or_false] at hr
      rcases hr with rfl | rfl | rfl | rfl | rfl | rfl | rfl | rfl | rfl | rfl | rfl <;> decide
    · split at hr
      · simp only [nounRules, List.mem_cons, List.not_mem_nil, or_false] at hr
        rcases hr with rfl | rfl | rfl | rfl | rfl | rfl | rfl | rfl <;> decide
      · simp at hr

theorem candidates_noBlank {tag : Tag} {rule : Rule} (hr : rule ∈ rulesFor tag) {start stem : Str} {es : List Str}
    (hk : rule.kind.apply start = .ok (some (stem, es))) (hs : ∀ c ∈ start, isSpace c = false) {base : Str}
    (hb : ∀ c ∈ base, c ∈ stem) : ∀ e ∈ es, NoBlank (base ++ e) := by
  obtain ⟨h1, h2⟩ := kind_apply_some hk
  obtain ⟨h3, h4⟩ := rules_endings tag rule hr
  intro e he
  refine ⟨?_, ?_⟩
  · have hne : e ≠ [] := by
      cases hkk : rule.kind with
      | double =>
        rw [hkk] at hk
        simp only [RuleKind.apply, Except.ok.injEq] at hk
        cases hv : vowelDoubleConsonantEndings start with
        | none => rw [hv] at hk; simp at hk
        | some l =>
          rw [hv] at hk
          simp only [Option.map_some, Option.some.injEq, Prod.mk.injEq] at hk
          obtain ⟨-, rfl⟩ := hk
          obtain ⟨s, v, c, -, -, -, rfl⟩ := (C13_vowel_double_consonant start l).mp hv
          simp only [List.mem_cons, List.not_mem_nil, or_false] at he
          rcases he with rfl | rfl <;> simp
      | plain l =>
        rw [hkk] at hk h4
        simp only [RuleKind.apply, Except.ok.injEq, Option.some.injEq, Prod.mk.injEq] at hk
        exact h4 e (hk.2 ▸ he)
      | consonant l =>
        rw [hkk] at hk h4
        simp only [RuleKind.apply] at hk
        cases hc : endsWithConsonant start with
        | error e => rw [hc] at hk; simp [bind, Except.bind] at hk
        | ok b =>
          rw [hc] at hk
          cases b with
          | false => simp [bind, Except.bind, pure, Except.pure] at hk
          | true =>
            simp only [bind, Except.bind, pure, Except.pure, if_true, Except.ok.injEq, Option.some.injEq, Prod.mk.injEq] at hk
            exact h4 e (hk.2 ▸ he)
      | last l =>
        rw [hkk] at hk
        simp only [RuleKind.apply] at hk
        cases hi : index start (-1) with
        | error e => rw [hi] at hk; simp [bind, Except.bind] at hk
        | ok c =>
          rw [hi] at hk
          simp only [bind, Except.bind, pure, Except.pure, Except.ok.injEq, Option.some.injEq, Prod.mk.injEq] at hk
          rw [← hk.2] at he
          obtain ⟨y, -, rfl⟩ := List.mem_map.mp he
          simp
    simp [hne]
  · intro c hc
    rcases List.mem_append.mp hc with hc | hc
    · exact hs c (h1.subset (hb c hc))
    · rcases h2 e he c hc with h | h
      · exact hs c h
      · obtain ⟨ending, ml, kind, sfx, guard⟩ := rule
        cases kind with
        | double => exact h.elim
        | consonant l => obtain ⟨x, hx, hcx⟩ := h; exact h3 x hx c hcx
        | plain l => obtain ⟨x, hx, hcx⟩ := h; exact h3 x hx c hcx
        | last l => obtain ⟨x, hx, hcx⟩ := h; exact h3 x hx c hcx

/-- A regular lemma: a rule of the tag takes an inflection off the word, and the rest (or what remains of its stem, `pre`
and `base`, behind a prefix) with an ending of the rule is supported by the language model. -/
def RegularLemma (z : Lemmatizer) (w : Str) (tag : Tag) (l : Str) (s : Option Suffix) : Prop :=
  ∃ rule ∈ rulesFor tag, ∃ start stem es pre base e, w = start ++ rule.ending ∧ rule.minLength ≤ start.length ∧
    rule.kind.apply start = .ok (some (stem, es)) ∧ stem <+: start ∧ e ∈ es ∧ stem = pre ++ base ∧
    (pre = [] ∨ tokenPrefix stem z.prefixes = some (pre, base)) ∧ l = pre ++ (base ++ e) ∧ s = some rule.suffix ∧
    Supported z.lm tag (es.map (base ++ ·)) (base ++ e)

/-- **C37.** For a word without white space, a lemma is a fixed form, or comes from an irregular table, possibly behind
a prefix, or is a regular lemma supported by the language model, or it is the lower-cased word itself with no
suffix. -/
theorem C37_sources (h : LM.load R log files = .ok z.lm) (word l : Str) (tag : Tag) (s : Option Suffix)
    (hb : ∀ c ∈ z.lower word, isSpace c = false) (hc : z.call word tag = .ok (l, s)) :
    (tag, z.lower word, l, s) ∈ fixedForms ∨
    z.irregularLemma (z.lower word) tag = some (l, s) ∨
    (∃ pre base l', tokenPrefix (z.lower word) z.prefixes = some (pre, base) ∧
      z.irregularLemma base tag = some (l', s) ∧ l = pre ++ l') ∨
    RegularLemma z (z.lower word) tag l s ∨
    (l = z.lower word ∧ s = none) := by
  unfold Lemmatizer.call at hc
  simp only at hc
  generalize z.lower word = w at hc hb
  split at hc
  · rename_i r hf
    rw [Except.ok.injEq] at hc
    subst hc
    exact Or.inl ((fixedLemma_iff _ _ _ _).mp hf)
  · split at hc
    · rename_i r hf
      rw [Except.ok.injEq] at hc
      subst hc
      exact Or.inr (Or.inl hf)
    · split at hc
      · rename_i r hf
        rw [Except.ok.injEq] at hc
        subst hc
        right; right; left
        unfold Lemmatizer.prefixedIrregular at hf
        split at hf
        · rename_i pre base hp
          simp only [Option.map_eq_some_iff, Prod.mk.injEq] at hf
          obtain ⟨⟨l', s'⟩, h1, h2, h3⟩ := hf
          simp only at h2 h3
          subst h3
          exact ⟨pre, base, l', hp, h1, h2.symm⟩
        · simp at hf
      · right; right; right
        rcases tryRules_cases _ hc with h1 | ⟨rule, hr, start, stem, es, ht, -, hk, h2⟩
        · rw [Prod.mk.injEq] at h1
          exact Or.inr h1
        · obtain ⟨hw, -, hm⟩ := (C13_token_start _ _ _ _ (rules_wellformed tag rule hr).1).mp ht
          have hst : ∀ c ∈ start, isSpace c = false := fun c hcm => hb c (by rw [hw]; exact List.mem_append_left _ hcm)
          have hpre := (kind_apply_some hk).1
          rcases lmLemma_cases h2 with ⟨b, hbc, e⟩ | ⟨pre, base, b, hp, hbc, e⟩ | e
          · rw [Prod.mk.injEq] at e
            obtain ⟨e', he, rfl, hsup⟩ := bestCandidate_some h (candidates_noBlank hr hk hst (base := stem) (fun _ h => h)) hbc
            left
            exact ⟨rule, hr, start, stem, es, [], stem, e', hw, hm, hk, hpre, he, rfl, Or.inl rfl, e.1, e.2, hsup⟩
          · rw [Prod.mk.injEq] at e
            have happ := tokenPrefix_append hp
            obtain ⟨e', he, rfl, hsup⟩ := bestCandidate_some h (candidates_noBlank hr hk hst (base := base)
              (fun c hcm => by rw [happ]; exact List.mem_append_right _ hcm)) hbc
            left
            exact ⟨rule, hr, start, stem, es, pre, base, e', hw, hm, hk, hpre, he, happ, Or.inr hp, e.1, e.2, hsup⟩
          · rw [Prod.mk.injEq] at e
            exact Or.inr e

/-- **C37.** With an empty language model and no irregular forms, a word that is no fixed form is only lower-cased. -/
theorem C37_empty_model (h : LM.load R log files = .ok z.lm) (hlm : ∀ g, z.lm.contains g = false)
    (hirr : ∀ w tag, z.irregularLemma w tag = none) (word : Str) (tag : Tag)
    (hfix : ∀ l s, (tag, z.lower word, l, s) ∉ fixedForms) : z.call word tag = .ok (z.lower word, none) := by
  obtain ⟨⟨l, s⟩, hr⟩ := C35_total h (fun g hg => by rw [hlm] at hg; simp at hg) word tag
  rw [hr]
  have hf : fixedLemma (z.lower word) tag = none := by
    cases hfl : fixedLemma (z.lower word) tag with
    | none => rfl
    | some r => exact absurd ((fixedLemma_iff _ _ _ _).mp hfl) (hfix r.1 r.2)
  have hp : z.prefixedIrregular (z.lower word) tag = none := by
    unfold Lemmatizer.prefixedIrregular
    split
    · rw [hirr]; rfl
    · rfl
  unfold Lemmatizer.call at hr
  simp only [hf, hirr, hp] at hr
  have hnone : ∀ gs, z.lm.bestNgram gs = .ok none := by
    intro gs
    rcases bestNgram_cases h gs with ⟨h1, -⟩ | ⟨r, -, -, h2⟩
    · exact h1
    · rw [hlm] at h2; simp at h2
  have hbc : ∀ stem es b, z.bestCandidate stem es tag ≠ .ok (some b) := by
    intro stem es b hb
    unfold Lemmatizer.bestCandidate at hb
    split at hb
    · rename_i e
      by_cases hk : z.lm.hasNgram (stem ++ e) 1 = true
      · have := contains_of_hasNgram hk
        rw [hlm] at this
        simp at this
      · simp [hk] at hb
    · simp only [hnone, bind, Except.bind] at hb
      simp at hb
  rcases tryRules_cases _ hr with h1 | ⟨rule, -, start, stem, es, -, -, -, h2⟩
  · rw [h1]
  · rcases lmLemma_cases h2 with ⟨b, h3, -⟩ | ⟨_, _, b, -, h3, -⟩ | h3
    · exact absurd h3 (hbc _ _ _)
    · exact absurd h3 (hbc _ _ _)
    · rw [h3]

/-- White space in the word matters: the words before the last one may be lost, `x doed` becoming `do`. -/
theorem C37_multi_word_loses : ∃ m, LM.load Rounding.exact (fun p => p) [(1, c!"i x do\t3\t0.5\n")] = .ok m ∧
    (bareLemmatizer m).call c!"x doed" .VERB = .ok (c!"do", some .PAST) :=
  ⟨⟨1, [(c!"i x do", 3, 1 / 2, ((1 / 2 : ℚ) : WithBot ℚ))], []⟩, by decide +kernel, by decide +kernel⟩

/-! ### C38 -/

/-- **C38.** Lemmatization ignores case (`lower` being idempotent, as `str.lower` is). -/
theorem C38_ignores_case (hl : ∀ w, z.lower (z.lower w) = z.lower w) (word : Str) (tag : Tag) :
    z.call word tag = z.call (z.lower word) tag := by
  unfold Lemmatizer.call
  simp only [hl]

/-- **C38.** Two words that differ only in case have the same lemma and suffix. -/
theorem C38_same_lower (a b : Str) (hab : z.lower a = z.lower b) (tag : Tag) : z.call a tag = z.call b tag := by
  unfold Lemmatizer.call
  simp only [hab]

/-- **C38.** Words with another tag than those of verbs, nouns and other nominals, adjectives and adverbs are only
lower-cased. -/
theorem C38_other_tags (word : Str) (tag : Tag)
    (ht : tag ∉ [Tag.VERB, .NOUN, .PROPN, .PRON, .SYM, .NUM, .ADJ, .ADV]) : z.call word tag = .ok (z.lower word, none) := by
  have h1 : fixedLemma (z.lower word) tag = none := by
    unfold fixedLemma nounTags
    cases tag <;> simp_all
  have h2 : ∀ w, z.irregularLemma w tag = none := by
    intro w
    unfold Lemmatizer.irregularLemma
    cases tag <;> simp_all
  have h3 : z.prefixedIrregular (z.lower word) tag = none := by
    unfold Lemmatizer.prefixedIrregular
    split
    · rw [h2]; rfl
    · rfl
  have h4 : rulesFor tag = [] := by
    unfold rulesFor
    cases tag <;> simp_all
  unfold Lemmatizer.call
  simp only [h1, h2, h3, h4]
  rfl

/-! ### C14 -/

/-- **C14.** With the prefixes of the lemmatizer, detection does not depend on the order in which the set is
enumerated. -/
theorem C14_lemmatizer_prefixes (token : Str) (l : List Str) (hl : l.Perm lemmatizerPrefixes) :
    tokenPrefix token l = tokenPrefix token lemmatizerPrefixes :=
  (C14_token_prefix_order token lemmatizerPrefixes l hl.symm (by decide)).symm

/-- **C14.** So neither does lemmatization. -/
theorem C14_lemmatizer_order (l : List Str) (hl : l.Perm lemmatizerPrefixes) (word : Str) (tag : Tag) :
    ({ z with prefixes := l } : Lemmatizer).call word tag =
      ({ z with prefixes := lemmatizerPrefixes } : Lemmatizer).call word tag := by
  have hp := fun t => C14_lemmatizer_prefixes t l hl
  have h1 : ∀ (w : Str), ({ z with prefixes := l } : Lemmatizer).prefixedIrregular w tag =
      ({ z with prefixes := lemmatizerPrefixes } : Lemmatizer).prefixedIrregular w tag := by
    intro w
    unfold Lemmatizer.prefixedIrregular
    simp only [hp]
    rfl
  have h2 : ∀ (w stem : Str) (es : List Str) (s : Suffix),
      ({ z with prefixes := l } : Lemmatizer).lmLemma w tag stem es s =
        ({ z with prefixes := lemmatizerPrefixes } : Lemmatizer).lmLemma w tag stem es s := by
    intro w stem es s
    unfold Lemmatizer.lmLemma
    simp only [hp]
    rfl
  have hg : ∀ r ∈ rulesFor tag, ∀ w, r.guard { z with prefixes := l } w =
      r.guard { z with prefixes := lemmatizerPrefixes } w := by
    intro r hr w
    unfold rulesFor at hr
    split at hr
    · simp only [adjRules, List.mem_cons, List.not_mem_nil, or_false] at hr
      rcases hr with rfl | rfl | rfl | rfl | rfl | rfl <;> rfl
    · split at hr
      · simp only [verbRules, List.mem_cons, List.not_mem_nil, or_false] at hr
        rcases hr with rfl | rfl | rfl | rfl | rfl | rfl | rfl | rfl | rfl | rfl | rfl <;> rfl
      · split at hr
        · simp only [nounRules, List.mem_cons, List.not_mem_nil, or_false] at hr
          rcases hr with rfl | rfl | rfl | rfl | rfl | rfl | rfl | rfl <;> rfl
        · simp at hr
  have h3 : ∀ (w : Str) (rs : List Rule), (∀ r ∈ rs, r ∈ rulesFor tag) →
      ({ z with prefixes := l } : Lemmatizer).tryRules w tag rs =
        ({ z with prefixes := lemmatizerPrefixes } : Lemmatizer).tryRules w tag rs := by
    intro w rs hrs
    induction rs with
    | nil => rfl
    | cons r rs ih =>
      unfold Lemmatizer.tryRules
      have : ({ z with prefixes := l } : Lemmatizer).applyRule w tag r =
          ({ z with prefixes := lemmatizerPrefixes } : Lemmatizer).applyRule w tag r := by
        unfold Lemmatizer.applyRule
        rw [hg r (hrs r (by simp)) w]
        simp only [h2]
      rw [this, ih (fun q hq => hrs q (List.mem_cons_of_mem _ hq))]
  unfold Lemmatizer.call
  simp only [h1, h3 _ _ (fun _ h => h)]
  rfl

/-! ### Concrete cases -/

/-- A language model that knows a few words. -/
def demoWords : List (Int × Str) :=
  [(1, c!"format\t9\t0.5\nbake\t5\t0.25\nfox\t5\t0.25\n"), (1, c!"i bake\t2\t0.5\nthey format\t2\t0.5\n")]

def demoWordsLM : LM :=
  ⟨2, [(c!"format", 9, 1 / 2, ((1 / 2 : ℚ) : WithBot ℚ)), (c!"bake", 5, 1 / 4, ((1 / 4 : ℚ) : WithBot ℚ)),
       (c!"fox", 5, 1 / 4, ((1 / 4 : ℚ) : WithBot ℚ)), (c!"i bake", 2, 1 / 2, ((1 / 2 : ℚ) : WithBot ℚ)),
       (c!"they format", 2, 1 / 2, ((1 / 2 : ℚ) : WithBot ℚ))],
   [(c!"i", [(c!"bake", 1 / 2)]), (c!"they", [(c!"format", 1 / 2)])]⟩

example : LM.load Rounding.exact (fun p => p) demoWords = .ok demoWordsLM := by decide +kernel

def demoLemmatizer : Lemmatizer := { bareLemmatizer demoWordsLM with ppLemma := [(c!"made", c!"make")] }

example : demoLemmatizer.call c!"formatted" .VERB = .ok (c!"format", some .PAST) := by decide +kernel
example : demoLemmatizer.call c!"re-formatted" .VERB = .ok (c!"re-format", some .PAST) := by decide +kernel
example : demoLemmatizer.call c!"remade" .VERB = .ok (c!"remake", some .PAST) := by decide +kernel
example : demoLemmatizer.call c!"baking" .VERB = .ok (c!"bake", some .PROGRESSIVE) := by decide +kernel
example : demoLemmatizer.call c!"foxes" .NOUN = .ok (c!"fox", some .PLURAL) := by decide +kernel
example : demoLemmatizer.call c!"'s" .NOUN = .ok (c!"we", none) := by decide +kernel
example : demoLemmatizer.call c!"" .ADJ = .ok (c!"", none) := by decide +kernel

end Props
