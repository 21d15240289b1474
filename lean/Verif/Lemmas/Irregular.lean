import Verif.Lemmas.Lexicon
import Verif.Props.Text

/-! Lemmas on the irregular forms of the shipped tables. -/

namespace Model
open Py

theorem row_of_line {lines : List Str} (hg : goodLines lines = true) {form lem : Str}
    (h : form ++ '\t' :: lem ∈ lines) : (form, lem) ∈ rowsOfLines lines := by
  unfold goodLines at hg
  simp only [Bool.and_eq_true, decide_eq_true_eq] at hg
  obtain ⟨⟨h1, h2⟩, -⟩ := hg
  rw [← rowsOfLines_join h1] at h
  obtain ⟨r, hr, he⟩ := List.mem_map.mp h
  have hc := List.all_eq_true.mp h2 r hr
  simp only [decide_eq_true_eq] at hc
  have hs := congrArg (fun t => splitOn t '\t') he
  rw [splitOn_pair.mpr ⟨rfl, hc.1.1, hc.2.1⟩] at hs
  have hcount := congrArg (List.count '\t') he
  simp only [List.count_append, List.count_cons_self, List.count_eq_zero_of_not_mem hc.1.1,
    List.count_eq_zero_of_not_mem hc.2.1] at hcount
  have hf : '\t' ∉ form := List.count_eq_zero.mp (by omega)
  have hm : '\t' ∉ lem := List.count_eq_zero.mp (by omega)
  rw [splitOn_pair.mpr ⟨rfl, hf, hm⟩] at hs
  simp only [List.cons.injEq, and_true] at hs
  rw [← hs.1, ← hs.2]
  exact hr

theorem wf_of_good {lines : List Str} (hg : goodLines lines = true) : Dict.Wf (rowsOfLines lines) := by
  unfold goodLines at hg
  simp only [Bool.and_eq_true, decide_eq_true_eq] at hg
  exact hg.2

theorem good_shipped {e : Tag × Suffix × List Str} (he : e ∈ shippedForms) : goodLines e.2.2 = true := by
  simp only [shippedForms, List.mem_cons, List.not_mem_nil, or_false] at he
  rcases he with rfl | rfl | rfl | rfl | rfl
  · exact good_preterits
  · exact good_pps
  · exact good_plurals
  · exact good_comparatives
  · exact good_superlatives

/-- The irregular lemma of a listed form. -/
theorem irregular_listed {e : Tag × Suffix × List Str} (he : e ∈ shippedForms) {form lem : Str}
    (h : (form, lem) ∈ rowsOfLines e.2.2) : shippedBare.irregularLemma form e.1 = some (lem, some e.2.1) := by
  have hget := Dict.get?_of_mem (wf_of_good (good_shipped he)) h
  simp only [shippedForms, List.mem_cons, List.not_mem_nil, or_false] at he
  rcases he with rfl | rfl | rfl | rfl | rfl
  · have h1 := List.all_eq_true.mp preterits_pps (form, lem) h
    unfold Lemmatizer.irregularLemma
    rw [if_neg (by decide), if_pos rfl]
    show (match Dict.get? shipped.pps form with | some l => _ | none => _) = _
    cases hp : Dict.get? shipped.pps form with
    | none =>
      show (Dict.get? shipped.preterits form).map _ = _
      rw [show Dict.get? shipped.preterits form = some lem from hget]; rfl
    | some l =>
      simp only [hp, Option.all_some, decide_eq_true_eq] at h1
      simp [h1]
  · unfold Lemmatizer.irregularLemma
    rw [if_neg (by decide), if_pos rfl]
    show (match Dict.get? shipped.pps form with | some l => _ | none => _) = _
    rw [show Dict.get? shipped.pps form = some lem from hget]
  · unfold Lemmatizer.irregularLemma
    rw [if_pos rfl]
    show (Dict.get? shipped.plurals form).map _ = _
    rw [show Dict.get? shipped.plurals form = some lem from hget]; rfl
  · unfold Lemmatizer.irregularLemma
    rw [if_neg (by decide), if_neg (by decide), if_pos rfl]
    show (match Dict.get? shipped.comparatives form with | some l => _ | none => _) = _
    rw [show Dict.get? shipped.comparatives form = some lem from hget]
  · have h1 := List.all_eq_true.mp superlatives_comparatives (form, lem) h
    simp only [decide_eq_true_eq] at h1
    unfold Lemmatizer.irregularLemma
    rw [if_neg (by decide), if_neg (by decide), if_pos rfl]
    show (match Dict.get? shipped.comparatives form with | some l => _ | none => _) = _
    rw [h1]
    show (Dict.get? shipped.superlatives form).map _ = _
    rw [show Dict.get? shipped.superlatives form = some lem from hget]; rfl

theorem tag_shipped {e : Tag × Suffix × List Str} (he : e ∈ shippedForms) : e.1 ∈ [Tag.VERB, .NOUN, .ADJ] := by
  simp only [shippedForms, List.mem_cons, List.not_mem_nil, or_false] at he
  rcases he with rfl | rfl | rfl | rfl | rfl <;> decide

theorem listed_mem {e : Tag × Suffix × List Str} (he : e ∈ shippedForms) {form lem : Str}
    (h : (form, lem) ∈ rowsOfLines e.2.2) : form ∈ listedWords e.1 := by
  unfold listedWords
  rw [List.mem_flatMap]
  exact ⟨e, he, by rw [if_pos rfl]; exact List.mem_map.mpr ⟨_, h, rfl⟩⟩

/-- Only listed words have an irregular lemma. -/
theorem irregular_iff_listed {w : Str} {tag : Tag} : (∃ r, shippedBare.irregularLemma w tag = some r) ↔ w ∈ listedWords tag := by
  constructor
  · rintro ⟨r, h⟩
    have key : ∀ e ∈ shippedForms, e.1 = tag → ∀ l, Dict.get? (rowsOfLines e.2.2) w = some l → w ∈ listedWords tag := by
      rintro e he rfl l hl
      exact listed_mem he (Dict.mem_of_get? hl)
    unfold Lemmatizer.irregularLemma at h
    split at h
    · rename_i ht
      obtain ⟨l, hl, -⟩ := Option.map_eq_some_iff.mp h
      exact key (.NOUN, .PLURAL, irregularPluralsLines) (by simp [shippedForms]) ht.symm l hl
    · split at h
      · rename_i ht
        split at h
        · rename_i l hl
          exact key (.VERB, .PAST, irregularPastParticiplesLines) (by simp [shippedForms]) ht.symm l hl
        · obtain ⟨l, hl, -⟩ := Option.map_eq_some_iff.mp h
          exact key (.VERB, .PAST, irregularPreteritsLines) (by simp [shippedForms]) ht.symm l hl
      · split at h
        · rename_i ht
          split at h
          · rename_i l hl
            exact key (.ADJ, .COMPARATIVE, irregularComparativesLines) (by simp [shippedForms]) ht.symm l hl
          · obtain ⟨l, hl, -⟩ := Option.map_eq_some_iff.mp h
            exact key (.ADJ, .SUPERLATIVE, irregularSuperlativesLines) (by simp [shippedForms]) ht.symm l hl
        · cases h
  · intro h
    unfold listedWords at h
    obtain ⟨e, he, hm⟩ := List.mem_flatMap.mp h
    split at hm
    · rename_i ht
      subst ht
      obtain ⟨r, hr, rfl⟩ := List.mem_map.mp hm
      exact ⟨_, irregular_listed he hr⟩
    · simp at hm

theorem tableLemma_listed {e : Tag × Suffix × List Str} (he : e ∈ shippedForms) {form lem : Str}
    (h : (form, lem) ∈ rowsOfLines e.2.2) : shippedBare.tableLemma form e.1 = some (lem, some e.2.1) := by
  unfold Lemmatizer.tableLemma
  have h1 := List.all_eq_true.mp (List.all_eq_true.mp fixed_listed e he) _ h
  rw [irregular_listed he h]
  cases hf : fixedLemma form e.1 with
  | none => rfl
  | some r =>
    simp only [hf, Option.all_some, decide_eq_true_eq] at h1
    simp [h1]

theorem fixed_prefixed {p w : Str} {tag : Tag} (hp : p ∈ lemmatizerPrefixes) : fixedLemma (p ++ w) tag = none := by
  cases h : fixedLemma (p ++ w) tag with
  | none => rfl
  | some r =>
    have hm := (Props.fixedLemma_iff (p ++ w) r.1 tag r.2).mp h
    have := List.all_eq_true.mp (List.all_eq_true.mp fixed_no_prefix _ hm) p hp
    simp only [Bool.not_eq_true'] at this
    rw [List.isPrefixOf_iff_prefix.mpr (List.prefix_append p w)] at this
    cases this

theorem fixed_hyphen {w : Str} {tag : Tag} (hw : '-' ∈ w) : fixedLemma w tag = none := by
  cases h : fixedLemma w tag with
  | none => rfl
  | some r =>
    have hm := (Props.fixedLemma_iff w r.1 tag r.2).mp h
    have := List.all_eq_true.mp fixed_no_hyphen _ hm
    simp [hw] at this

theorem listed_hyphen {w : Str} {tag : Tag} (ht : tag ∈ [Tag.VERB, .NOUN, .ADJ]) (h : w ∈ listedWords tag) : '-' ∉ w := by
  have := List.all_eq_true.mp (List.all_eq_true.mp listed_no_hyphen tag ht) w h
  simpa using this

theorem prefixes_no_hyphen : ∀ p ∈ lemmatizerPrefixes, '-' ∉ p := by decide

theorem tokenPrefix_prefix {p w : Str} (hp : p ∈ lemmatizerPrefixes) (hw : '-' ∉ w) :
    tokenPrefix (p ++ w) lemmatizerPrefixes = some (p, w) := by
  rw [Props.C14_token_prefix]
  right
  refine ⟨?_, rfl, ?_⟩
  · rintro ⟨a, b, -, -, h⟩
    have : '-' ∈ p ++ w := by rw [h]; simp
    rcases List.mem_append.mp this with h | h
    · exact prefixes_no_hyphen p hp h
    · exact hw h
  · obtain ⟨l₁, l₂, hl⟩ := List.mem_iff_append.mp hp
    refine ⟨l₁, l₂, hl, ?_⟩
    intro q hq hqp
    have hfree : ∀ a ∈ lemmatizerPrefixes, ∀ b ∈ lemmatizerPrefixes, a <+: b → a = b := by decide
    have hqm : q ∈ lemmatizerPrefixes := by rw [hl]; simp [hq]
    have : q = p := by
      rcases List.prefix_or_prefix_of_prefix hqp (List.prefix_append p w) with h | h
      · exact hfree q hqm p hp h
      · exact (hfree p hp q hqm h).symm
    have hnd : lemmatizerPrefixes.Nodup := by decide
    subst this
    rw [hl] at hnd
    rw [List.nodup_append] at hnd
    exact hnd.2.2 q hq q (by simp) rfl

theorem tableLemma_prefixed {e : Tag × Suffix × List Str} (he : e ∈ shippedForms) {form lem p : Str}
    (h : (form, lem) ∈ rowsOfLines e.2.2) (hp : p ∈ lemmatizerPrefixes) :
    shippedBare.tableLemma (p ++ form) e.1 = some (p ++ lem, some e.2.1) := by
  have hi := irregular_listed he h
  have ht := tag_shipped he
  unfold Lemmatizer.tableLemma
  rw [fixed_prefixed hp]
  simp only
  cases hr : shippedBare.irregularLemma (p ++ form) e.1 with
  | none =>
    simp only
    unfold Lemmatizer.prefixedIrregular
    rw [show shippedBare.prefixes = lemmatizerPrefixes from rfl,
      tokenPrefix_prefix hp (listed_hyphen ht (listed_mem he h))]
    simp [hi]
  | some r =>
    have hl := irregular_iff_listed.mp ⟨r, hr⟩
    have := List.all_eq_true.mp (List.all_eq_true.mp (List.all_eq_true.mp listed_prefixes e.1 ht) _ hl) p hp
    unfold prefixAgrees at this
    simp only [List.drop_left, hi, Option.all_some, hr, Option.some.injEq, Bool.or_eq_true, Bool.not_eq_true',
      decide_eq_true_eq] at this
    rcases this with h | h
    · have : p.isPrefixOf (p ++ form) = true := List.isPrefixOf_iff_prefix.mpr (List.prefix_append _ _)
      rw [this] at h; cases h
    · simp [h]

theorem tableLemma_hyphen {e : Tag × Suffix × List Str} (he : e ∈ shippedForms) {form lem a : Str}
    (h : (form, lem) ∈ rowsOfLines e.2.2) (ha : '-' ∉ a) :
    shippedBare.tableLemma (a ++ '-' :: form) e.1 = some (a ++ '-' :: lem, some e.2.1) := by
  have ht := tag_shipped he
  unfold Lemmatizer.tableLemma
  rw [fixed_hyphen (by simp)]
  simp only
  have hn : shippedBare.irregularLemma (a ++ '-' :: form) e.1 = none := by
    cases hr : shippedBare.irregularLemma (a ++ '-' :: form) e.1 with
    | none => rfl
    | some r => exact absurd (by simp) (listed_hyphen ht (irregular_iff_listed.mp ⟨r, hr⟩))
  rw [hn]
  simp only
  unfold Lemmatizer.prefixedIrregular
  have : tokenPrefix (a ++ '-' :: form) shippedBare.prefixes = some (a ++ ['-'], form) := by
    rw [Props.C14_token_prefix]
    exact .inl ⟨a, ha, listed_hyphen ht (listed_mem he h), rfl, rfl⟩
  rw [this]
  simp [irregular_listed he h]

theorem get?_rows {lines : List Str} (hg : goodLines lines = true) {k v : Str} :
    Dict.get? (rowsOfLines lines) k = some v ↔ k ++ '\t' :: v ∈ lines := by
  constructor
  · intro h
    have hm := Dict.mem_of_get? h
    unfold goodLines at hg
    simp only [Bool.and_eq_true] at hg
    rw [← rowsOfLines_join hg.1.1]
    exact List.mem_map.mpr ⟨_, hm, rfl⟩
  · exact fun h => Dict.get?_of_mem (wf_of_good hg) (row_of_line hg h)

set_option maxRecDepth 100000 in
theorem pps_values_nodup : (Dict.values (rowsOfLines irregularPastParticiplesLines)).Nodup := by decide +kernel

theorem tryRules_skip {z : Lemmatizer} {word : Str} {tag : Tag} : ∀ {rs : List Rule},
    (∀ r ∈ rs, tokenStart word r.ending r.minLength = none) → z.tryRules word tag rs = .ok (word, none)
  | [], _ => rfl
  | r :: rs, h => by
    unfold Lemmatizer.tryRules Lemmatizer.applyRule
    rw [h r (by simp)]
    exact tryRules_skip fun x hx => h x (List.mem_cons_of_mem _ hx)

theorem tryRules_append {z : Lemmatizer} {word : Str} {tag : Tag} {rs' : List Rule} : ∀ {rs : List Rule},
    (∀ r ∈ rs, tokenStart word r.ending r.minLength = none) →
      z.tryRules word tag (rs ++ rs') = z.tryRules word tag rs'
  | [], _ => rfl
  | r :: rs, h => by
    rw [List.cons_append]
    conv_lhs => unfold Lemmatizer.tryRules Lemmatizer.applyRule
    rw [h r (by simp)]
    exact tryRules_append fun x hx => h x (List.mem_cons_of_mem _ hx)

theorem call_of_rules {z : Lemmatizer} {w : Str} {tag : Tag} (h : z.tableLemma (z.lower w) tag = none) :
    z.call w tag = z.tryRules (z.lower w) tag (rulesFor tag) := by
  unfold Lemmatizer.tableLemma at h
  unfold Lemmatizer.call
  simp only
  split at h
  · cases h
  · rename_i hf
    rw [hf]
    split at h
    · cases h
    · rename_i hi
      rw [hi, h]

theorem call_of_noTable {z : Lemmatizer} {w : Str} {tag : Tag} (h : z.tableLemma (z.lower w) tag = none)
    (hs : ∀ r ∈ rulesFor tag, tokenStart (z.lower w) r.ending r.minLength = none) :
    z.call w tag = .ok (z.lower w, none) := by
  unfold Lemmatizer.tableLemma at h
  unfold Lemmatizer.call
  simp only
  split at h
  · cases h
  · rename_i hf
    rw [hf]
    split at h
    · cases h
    · rename_i hi
      rw [hi, h]
      exact tryRules_skip hs

/-- Whether a lemma of a table is its own lemma. -/
def stableLemma (tag : Tag) (s : Suffix) (lem : Str) : Bool :=
  decide (lem ∈ [c!"bleed", c!"breed", c!"feed", c!"speed", c!"spring", c!"string"]) ||
    (decide (shippedBare.tableLemma lem tag = some (lem, some s)) &&
      shippedForms.any fun e => decide (e.1 = tag) && decide (lem ++ '\t' :: lem ∈ e.2.2)) ||
    (decide (shippedBare.tableLemma lem tag = none) &&
      (rulesFor tag).all fun r => decide (tokenStart lem r.ending r.minLength = none))

set_option maxRecDepth 100000 in
theorem listed_lemmas : (shippedForms.all fun e => (rowsOfLines e.2.2).all fun r => stableLemma e.1 e.2.1 r.2) = true := by
  decide +kernel

end Model
