import Verif.Lemmas.Irregular
import Verif.Props.Normalization
import Mathlib.Data.List.Infix

/-! C87 and C88: the shipped tables of irregular forms. -/

namespace Props
open Py Model

variable {t : Tables}

/-! ### C87 -/

/-- **C87.** The five shipped tables load, and hold what their lines say: one value for each key. -/
theorem C87_tables_load : ∃ t, shippedTables = .ok t ∧
    (∀ k v, Dict.get? t.preterits k = some v ↔ k ++ '\t' :: v ∈ irregularPreteritsLines) ∧
    (∀ k v, Dict.get? t.pps k = some v ↔ k ++ '\t' :: v ∈ irregularPastParticiplesLines) ∧
    (∀ k v, Dict.get? t.plurals k = some v ↔ k ++ '\t' :: v ∈ irregularPluralsLines) ∧
    (∀ k v, Dict.get? t.comparatives k = some v ↔ k ++ '\t' :: v ∈ irregularComparativesLines) ∧
    (∀ k v, Dict.get? t.superlatives k = some v ↔ k ++ '\t' :: v ∈ irregularSuperlativesLines) :=
  ⟨shipped, shipped_eq, fun _ _ => get?_rows good_preterits, fun _ _ => get?_rows good_pps,
    fun _ _ => get?_rows good_plurals, fun _ _ => get?_rows good_comparatives, fun _ _ => get?_rows good_superlatives⟩

/-- **C87.** Each listed form is lemmatized to the lemma of its line with the suffix of its table, whatever the language
model: verbs in the past, plural nouns, comparative and superlative adjectives. -/
theorem C87_listed_forms (ht : shippedTables = .ok t) (lower : Str → Str) (lm : LM) (adjs : List Str)
    (e : Tag × Suffix × List Str) (he : e ∈ [(.VERB, .PAST, irregularPreteritsLines),
      (.VERB, .PAST, irregularPastParticiplesLines), (.NOUN, .PLURAL, irregularPluralsLines),
      (.ADJ, .COMPARATIVE, irregularComparativesLines), (.ADJ, .SUPERLATIVE, irregularSuperlativesLines)])
    (form lem w : Str) (h : form ++ '\t' :: lem ∈ e.2.2) (hw : lower w = form) :
    (t.lemmatizer lower lm adjs).call w e.1 = .ok (lem, some e.2.1) := by
  rw [shipped_eq, Except.ok.injEq] at ht
  subst ht
  apply call_of_tableLemma
  rw [show (shipped.lemmatizer lower lm adjs).lower w = form from hw, tableLemma_shipped]
  exact tableLemma_listed he (row_of_line (good_shipped he) h)

/-- **C87.** So is such a form behind one of the eight prefixes, or behind anything and a hyphen; the lemma keeps what
stands before. -/
theorem C87_prefixed_forms (ht : shippedTables = .ok t) (lower : Str → Str) (lm : LM) (adjs : List Str)
    (e : Tag × Suffix × List Str) (he : e ∈ [(.VERB, .PAST, irregularPreteritsLines),
      (.VERB, .PAST, irregularPastParticiplesLines), (.NOUN, .PLURAL, irregularPluralsLines),
      (.ADJ, .COMPARATIVE, irregularComparativesLines), (.ADJ, .SUPERLATIVE, irregularSuperlativesLines)])
    (form lem w pre : Str) (h : form ++ '\t' :: lem ∈ e.2.2)
    (hp : pre ∈ [c!"re", c!"un", c!"mis", c!"dis", c!"out", c!"co", c!"sub", c!"grand"] ∨
      ∃ a, '-' ∉ a ∧ pre = a ++ ['-']) (hw : lower w = pre ++ form) :
    (t.lemmatizer lower lm adjs).call w e.1 = .ok (pre ++ lem, some e.2.1) := by
  rw [shipped_eq, Except.ok.injEq] at ht
  subst ht
  apply call_of_tableLemma
  rw [show (shipped.lemmatizer lower lm adjs).lower w = pre ++ form from hw, tableLemma_shipped]
  rcases hp with hp | ⟨a, ha, rfl⟩
  · exact tableLemma_prefixed he (row_of_line (good_shipped he) h) hp
  · have := tableLemma_hyphen he (row_of_line (good_shipped he) h) ha
    simpa using this

/-- **C87.** `reverse_dict` loses nothing of the shipped past participles: the table of the inflector holds exactly their
lines, the other way round. -/
theorem C87_reversed (ht : shippedTables = .ok t) (lem pp : Str) :
    Dict.get? t.lemmaPP lem = some pp ↔ pp ++ '\t' :: lem ∈ irregularPastParticiplesLines := by
  rw [shipped_eq, Except.ok.injEq] at ht
  subst ht
  show Dict.get? (reverseDict (rowsOfLines irregularPastParticiplesLines)) lem = some pp ↔ _
  rw [C16_reverse_dict_inverse _ (wf_of_good good_pps) pps_values_nodup]
  exact get?_rows good_pps

/-- **C87.** The inflector gives back the listed participle of a lemma. -/
theorem C87_past_participle (ht : shippedTables = .ok t) (lm : LM) (ctx : List Str) (lem pp : Str)
    (h : pp ++ '\t' :: lem ∈ irregularPastParticiplesLines) : pastParticiple lm ctx t.lemmaPP lem = .ok pp :=
  C39_irregular ctx _ lem pp ((C87_reversed ht lem pp).mpr h)

/-- **C87.** Lemmatizing a listed participle and inflecting the lemma gives the participle back. -/
theorem C87_round_trip (ht : shippedTables = .ok t) (lower : Str → Str) (lm : LM) (adjs ctx : List Str) (w lem : Str)
    (h : lower w ++ '\t' :: lem ∈ irregularPastParticiplesLines) :
    ∃ l s, (t.lemmatizer lower lm adjs).call w .VERB = .ok (l, s) ∧ pastParticiple lm ctx t.lemmaPP l = .ok (lower w) :=
  ⟨lem, some .PAST, C87_listed_forms ht lower lm adjs (.VERB, .PAST, irregularPastParticiplesLines) (by simp) _ _ w h rfl,
    C87_past_participle ht lm ctx lem _ h⟩

example : c!"written" ++ '\t' :: c!"write" ∈ irregularPastParticiplesLines ∧
    c!"went" ++ '\t' :: c!"go" ∈ irregularPreteritsLines ∧ c!"mice" ++ '\t' :: c!"mouse" ∈ irregularPluralsLines ∧
    irregularPastParticiplesLines.length = 179 := by decide +kernel

/-! ### C88 -/

/-- The endings of inflected words that the lemmatizer knows for a tag. -/
def inflections (tag : Tag) : List Str :=
  if tag = .VERB then [c!"ing", c!"ed", c!"s"] else if tag = .NOUN then [c!"a", c!"i", c!"s", c!"men"]
  else if tag = .ADJ then [c!"er", c!"est"] else []

/-- The words listed for a tag in the tables of a lemmatizer. -/
def listed (z : Lemmatizer) (tag : Tag) : List Str :=
  if tag = .VERB then Dict.keys z.ppLemma ++ Dict.keys z.preteritLemma else if tag = .NOUN then Dict.keys z.pluralLemma
  else if tag = .ADJ then Dict.keys z.comparativeLemma ++ Dict.keys z.superlativeLemma else []

/-- **C88** (partial: full statement refuted by `C88_lemma_of_lemma_false`). *The lemma of a word is its own lemma.* It
holds that a word is its own lemma when it is no fixed form, is not listed, nor is its part after a prefix or hyphen, and
has no ending of inflected words, whatever the language model. -/
theorem C88_uninflected_partial (z : Lemmatizer) (word : Str) (tag : Tag)
    (hfix : ∀ l s, (tag, z.lower word, l, s) ∉ fixedForms) (hlist : z.lower word ∉ listed z tag)
    (hpre : ∀ pre base, z.lower word = pre ++ base → (pre ∈ z.prefixes ∨ ∃ a, pre = a ++ ['-']) → base ∉ listed z tag)
    (hend : ∀ e ∈ inflections tag, ¬ e <:+ z.lower word) : z.call word tag = .ok (z.lower word, none) := by
  have h1 : fixedLemma (z.lower word) tag = none := by
    cases h : fixedLemma (z.lower word) tag with
    | none => rfl
    | some r => exact absurd ((fixedLemma_iff _ r.1 tag r.2).mp h) (hfix _ _)
  have hirr : ∀ w, w ∉ listed z tag → z.irregularLemma w tag = none := by
    intro w hw
    have hk : ∀ d : Dict Str Str, w ∉ Dict.keys d → Dict.get? d w = none := by
      intro d hd
      cases h : Dict.get? d w with
      | none => rfl
      | some v => exact absurd (List.mem_map.mpr ⟨_, Dict.mem_of_get? h, rfl⟩) hd
    unfold listed at hw
    unfold Lemmatizer.irregularLemma
    by_cases hv : tag = .VERB
    · subst hv
      simp only [if_true, List.mem_append, not_or] at hw
      rw [if_neg (by decide), if_pos rfl, hk _ hw.1, hk _ hw.2]; rfl
    · rw [if_neg hv] at hw
      by_cases hn : tag = .NOUN
      · rw [if_pos hn] at hw ⊢
        rw [hk _ hw]; rfl
      · rw [if_neg hn] at hw
        rw [if_neg hn, if_neg hv]
        by_cases ha : tag = .ADJ
        · rw [if_pos ha] at hw ⊢
          simp only [List.mem_append, not_or] at hw
          rw [hk _ hw.1, hk _ hw.2]; rfl
        · rw [if_neg ha]
  have h3 : z.prefixedIrregular (z.lower word) tag = none := by
    unfold Lemmatizer.prefixedIrregular
    cases h : tokenPrefix (z.lower word) z.prefixes with
    | none => rfl
    | some pb =>
      obtain ⟨pre, base⟩ := pb
      rcases (C14_token_prefix _ _ _ _).mp h with ⟨a, -, -, rfl, he⟩ | ⟨-, he, l₁, l₂, hl, -⟩
      · have := hirr base (hpre (a ++ ['-']) base (by simpa using he) (Or.inr ⟨a, rfl⟩))
        simp [this]
      · have := hirr base (hpre pre base he (Or.inl (by rw [hl]; simp)))
        simp [this]
  unfold Lemmatizer.call
  simp only
  rw [h1, hirr _ hlist, h3]
  simp only
  have hstart : ∀ r ∈ rulesFor tag, tokenStart (z.lower word) r.ending r.minLength = none := by
    intro r hr
    have : ∃ e ∈ inflections tag, e <:+ r.ending := by
      unfold rulesFor at hr
      split at hr
      · rename_i ht
        subst ht
        simp only [adjRules, List.mem_cons, List.not_mem_nil, or_false] at hr
        rcases hr with rfl | rfl | rfl | rfl | rfl | rfl <;> decide
      · split at hr
        · rename_i ht
          subst ht
          simp only [verbRules, List.mem_cons, List.not_mem_nil, or_false] at hr
          rcases hr with rfl | rfl | rfl | rfl | rfl | rfl | rfl | rfl | rfl | rfl | rfl <;> decide
        · split at hr
          · rename_i ht
            subst ht
            simp only [nounRules, List.mem_cons, List.not_mem_nil, or_false] at hr
            rcases hr with rfl | rfl | rfl | rfl | rfl | rfl | rfl | rfl <;> decide
          · simp at hr
    obtain ⟨e, he, hs⟩ := this
    have hn := hend e he
    unfold tokenStart
    have : endsWith (z.lower word) r.ending = false := by
      rw [← Bool.not_eq_true, endsWith, List.isSuffixOf_iff_suffix]
      exact fun h => hn (hs.trans h)
    simp [this]
  exact tryRules_skip hstart

/-- **C88** (partial). The lemmas of all shipped tables are their own lemmas, whatever the language model, but for six
verbs. A lemma that is itself listed has the suffix of its table, others none. -/
theorem C88_listed_lemmas_partial (ht : shippedTables = .ok t) (lower : Str → Str) (lm : LM) (adjs : List Str)
    (e : Tag × Suffix × List Str) (he : e ∈ [(.VERB, .PAST, irregularPreteritsLines),
      (.VERB, .PAST, irregularPastParticiplesLines), (.NOUN, .PLURAL, irregularPluralsLines),
      (.ADJ, .COMPARATIVE, irregularComparativesLines), (.ADJ, .SUPERLATIVE, irregularSuperlativesLines)])
    (form lem w : Str) (h : form ++ '\t' :: lem ∈ e.2.2) (hw : lower w = lem)
    (hlem : lem ∉ [c!"bleed", c!"breed", c!"feed", c!"speed", c!"spring", c!"string"]) :
    ∃ s, (t.lemmatizer lower lm adjs).call w e.1 = .ok (lem, s) ∧
      (s = none ∨ s = some e.2.1 ∧ ∃ e' ∈ shippedForms, e'.1 = e.1 ∧ lem ++ '\t' :: lem ∈ e'.2.2) := by
  rw [shipped_eq, Except.ok.injEq] at ht
  subst ht
  have hr := row_of_line (good_shipped he) h
  have hc := List.all_eq_true.mp (List.all_eq_true.mp listed_lemmas e he) _ hr
  simp only [stableLemma, Bool.or_eq_true, decide_eq_true_eq, Bool.and_eq_true] at hc
  rcases hc with (hc | ⟨hc, hs⟩) | ⟨hc, hs⟩
  · exact absurd hc hlem
  · refine ⟨some e.2.1, call_of_tableLemma ?_, Or.inr ⟨rfl, ?_⟩⟩
    · rw [show (shipped.lemmatizer lower lm adjs).lower w = lem from hw, tableLemma_shipped]
      exact hc
    · obtain ⟨e', he', h1⟩ := List.any_eq_true.mp hs
      simp only [Bool.and_eq_true, decide_eq_true_eq] at h1
      exact ⟨e', he', h1.1, h1.2⟩
  · refine ⟨none, ?_, Or.inl rfl⟩
    have := call_of_noTable (z := shipped.lemmatizer lower lm adjs) (w := w) (tag := e.1)
      (by rw [show (shipped.lemmatizer lower lm adjs).lower w = lem from hw, tableLemma_shipped]; exact hc)
      (fun r hm => by
        rw [show (shipped.lemmatizer lower lm adjs).lower w = lem from hw]
        simpa using List.all_eq_true.mp hs r hm)
    rw [this]
    rw [show (shipped.lemmatizer lower lm adjs).lower w = lem from hw]

/-- **C88** (negation). With two rows of the shipped unigrams (data/langmodel/1_grams.txt), `fed` has the lemma `feed`,
which is no lemma: its own lemma is `fee`. -/
theorem C88_lemma_of_lemma_false (ht : shippedTables = .ok t) : ∃ m, LM.load Rounding.exact (fun p => p)
      [(1, c!"feed\t49\t0.00006032397147629\nfee\t17\t0.00002857451280456\n")] = .ok m ∧
    (t.lemmatizer id m []).call c!"fed" .VERB = .ok (c!"feed", some .PAST) ∧
    (t.lemmatizer id m []).call c!"feed" .VERB = .ok (c!"fee", some .PAST) := by
  rw [shipped_eq, Except.ok.injEq] at ht
  subst ht
  refine ⟨⟨1, [(c!"feed", 49, 6032397147629 / 10 ^ 17, ((6032397147629 / 10 ^ 17 : ℚ) : WithBot ℚ)),
    (c!"fee", 17, 2857451280456 / 10 ^ 17, ((2857451280456 / 10 ^ 17 : ℚ) : WithBot ℚ))], []⟩, ?_, ?_, ?_⟩
  · decide +kernel
  · decide +kernel
  · decide +kernel

/-- **C88** (negation). Nor is a verb in its base form its own lemma: `pass` becomes the third person of `pas` as soon as
the language model knows `pas`, however rare it is compared to `pass`. The shipped unigrams hold `pas` three times. -/
theorem C88_base_form_false (ht : shippedTables = .ok t) (lower : Str → Str) (lm : LM) (adjs : List Str)
    (hl : lower c!"pass" = c!"pass") (hlm : lm.hasNgram c!"pas" 1 = true) :
    (t.lemmatizer lower lm adjs).call c!"pass" .VERB = .ok (c!"pas", some .THIRD_PERSON) := by
  rw [shipped_eq, Except.ok.injEq] at ht
  subst ht
  rw [call_of_rules (by
    rw [show (shipped.lemmatizer lower lm adjs).lower c!"pass" = c!"pass" from hl, tableLemma_shipped]
    decide +kernel), show (shipped.lemmatizer lower lm adjs).lower c!"pass" = c!"pass" from hl]
  have hsplit : rulesFor .VERB = verbRules.take 10 ++ verbRules.drop 10 := (List.take_append_drop 10 verbRules).symm
  rw [hsplit, tryRules_append (fun r hr => by
    have : (verbRules.take 10).all (fun r => decide (tokenStart c!"pass" r.ending r.minLength = none)) = true := by
      decide +kernel
    simpa using List.all_eq_true.mp this r hr)]
  have hb : (shipped.lemmatizer lower lm adjs).bestCandidate c!"pa" [c!"s"] .VERB = .ok (some c!"pas") := by
    unfold Lemmatizer.bestCandidate
    show Except.ok (if lm.hasNgram c!"pas" 1 then _ else _) = _
    rw [hlm]; rfl
  have hr : (shipped.lemmatizer lower lm adjs).lmLemma c!"pass" .VERB c!"pa" [c!"s"] .THIRD_PERSON =
      .ok (c!"pas", some .THIRD_PERSON) := by
    unfold Lemmatizer.lmLemma
    rw [hb]; rfl
  have hd : verbRules.drop 10 = [{ ending := c!"s", minLength := 2, kind := .last [c!""], suffix := .THIRD_PERSON }] := rfl
  have h1 : tokenStart c!"pass" c!"s" 2 = some c!"pas" := by decide +kernel
  have h2 : RuleKind.apply (.last [c!""]) c!"pas" = .ok (some (c!"pa", [c!"s"])) := by decide +kernel
  rw [hd]
  unfold Lemmatizer.tryRules Lemmatizer.applyRule
  simp only [h1, h2, bind, Except.bind, if_true]
  rw [hr]
  rfl

/-- A word that meets the hypotheses of `C88_uninflected_partial`, whatever the language model. -/
example (lm : LM) : (shipped.lemmatizer id lm []).call c!"walk" .VERB = .ok (c!"walk", none) := by
  have hl : c!"walk".tails.all (fun b => decide (b ∉ listed (shipped.lemmatizer id ⟨1, [], []⟩ []) .VERB)) = true := by
    decide +kernel
  have hl' : ∀ b, b <:+ c!"walk" → b ∉ listed (shipped.lemmatizer id lm []) .VERB := fun b hb =>
    of_decide_eq_true (List.all_eq_true.mp hl b ((List.mem_tails _ _).mpr hb))
  have hf : fixedForms.all (fun f => decide (f.2.1 ≠ c!"walk")) = true := by decide +kernel
  refine C88_uninflected_partial _ _ _ (fun l s h => of_decide_eq_true (List.all_eq_true.mp hf _ h) rfl)
    (hl' _ List.suffix_rfl) (fun pre base he _ => hl' _ ⟨pre, he.symm⟩) ?_
  show ∀ e ∈ inflections .VERB, ¬ e <:+ c!"walk"
  decide

example : c!"fed" ++ '\t' :: c!"feed" ∈ irregularPreteritsLines ∧ c!"ran" ++ '\t' :: c!"run" ∈ irregularPreteritsLines ∧
    c!"run" ∉ [c!"bleed", c!"breed", c!"feed", c!"speed", c!"spring", c!"string"] := by decide +kernel
example : ∃ m, LM.load Rounding.exact (fun p => p) [(1, c!"pas\t3\t0.5\npass\t300\t0.5\n")] = .ok m ∧
    m.hasNgram c!"pas" 1 = true :=
  ⟨⟨1, [(c!"pas", 3, 5 / 10, ((5 / 10 : ℚ) : WithBot ℚ)), (c!"pass", 300, 5 / 10, ((5 / 10 : ℚ) : WithBot ℚ))], []⟩,
    by decide +kernel, by decide +kernel⟩

end Props
