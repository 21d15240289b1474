import Verif.Model.Lexicon
import Verif.Props.Files
import Verif.Props.Lemmatizer

/-! Facts on the shipped tables of irregular forms, by evaluation. -/

namespace Model
open Py

/-- The rows of lines of two columns. -/
def rowsOfLines (lines : List Str) : List (Str × Str) :=
  lines.map fun l => (l.takeWhile (· != '\t'), (l.dropWhile (· != '\t')).drop 1)

/-- The shipped tables. -/
def shipped : Tables :=
  ⟨rowsOfLines irregularPreteritsLines, rowsOfLines irregularPastParticiplesLines, rowsOfLines irregularPluralsLines,
    rowsOfLines irregularComparativesLines, rowsOfLines irregularSuperlativesLines⟩

/-- Lines that load as the table of their rows. -/
def goodLines (lines : List Str) : Bool :=
  (lines.all fun l => l.contains '\t') && ((rowsOfLines lines).all fun r => decide (Spec.Column r.1 ∧ Spec.Column r.2)) &&
    decide ((rowsOfLines lines).map Prod.fst).Nodup

theorem rowsOfLines_join {lines : List Str} (h : (lines.all fun l => l.contains '\t') = true) :
    (rowsOfLines lines).map (fun r => r.1 ++ '\t' :: r.2) = lines := by
  unfold rowsOfLines
  rw [List.map_map]
  conv_rhs => rw [← List.map_id lines]
  refine List.map_congr_left fun l hl => ?_
  have hc := List.all_eq_true.mp h l hl
  simp only [Function.comp_apply, id_eq]
  have hd : ∀ l : Str, '\t' ∈ l → l.takeWhile (· != '\t') ++ '\t' :: (l.dropWhile (· != '\t')).drop 1 = l := by
    intro l
    induction l with
    | nil => simp
    | cons c l ih =>
      intro h
      by_cases hc : c = '\t'
      · subst hc; simp
      · have := ih (by simpa [Ne.symm hc] using h)
        simp only [List.takeWhile_cons, List.dropWhile_cons, bne_iff_ne, ne_eq, hc, not_false_iff, if_true, List.cons_append]
        rw [this]
  exact hd l (by simpa using hc)

theorem loadDict_lines {lines : List Str} (h : goodLines lines = true) :
    loadDict (fileContent lines) = .ok (rowsOfLines lines) := by
  unfold goodLines at h
  simp only [Bool.and_eq_true, decide_eq_true_eq] at h
  obtain ⟨⟨h1, h2⟩, h3⟩ := h
  obtain ⟨d, hd, -, hn⟩ := Props.C86_load_dict_written (rowsOfLines lines) c!"\n" (by simp)
    (fun r hr => by simpa using List.all_eq_true.mp h2 r hr) true
  rw [rowsOfLines_join h1] at hd
  have : fileContent lines = Spec.textLines lines c!"\n" true := rfl
  rw [this, hd, hn h3]

set_option maxRecDepth 100000 in
theorem good_preterits : goodLines irregularPreteritsLines = true := by decide +kernel
set_option maxRecDepth 100000 in
theorem good_pps : goodLines irregularPastParticiplesLines = true := by decide +kernel
theorem good_plurals : goodLines irregularPluralsLines = true := by decide +kernel
theorem good_comparatives : goodLines irregularComparativesLines = true := by decide +kernel
theorem good_superlatives : goodLines irregularSuperlativesLines = true := by decide +kernel

theorem shipped_eq : shippedTables = .ok shipped := by
  unfold shippedTables Tables.load
  rw [loadDict_lines good_preterits, loadDict_lines good_pps, loadDict_lines good_plurals,
    loadDict_lines good_comparatives, loadDict_lines good_superlatives]
  rfl

/-- What the tables and the fixed forms decide. -/
def Lemmatizer.tableLemma (z : Lemmatizer) (word : Str) (tag : Tag) : Option LemmaSuffix :=
  match fixedLemma word tag with
  | some r => some r
  | none =>
    match z.irregularLemma word tag with
    | some r => some r
    | none => z.prefixedIrregular word tag

theorem call_of_tableLemma {z : Lemmatizer} {w : Str} {tag : Tag} {r : LemmaSuffix}
    (h : z.tableLemma (z.lower w) tag = some r) : z.call w tag = .ok r := by
  unfold Lemmatizer.tableLemma at h
  unfold Lemmatizer.call
  simp only
  split at h
  · rename_i hf
    rw [hf]
    simp only [Option.some.injEq] at h
    simp [h]
  · rename_i hf
    rw [hf]
    split at h
    · rename_i hi
      rw [hi]
      simp only [Option.some.injEq] at h
      simp [h]
    · rename_i hi
      rw [hi, h]

/-- The shipped tables with a language model that knows nothing. -/
def shippedBare : Lemmatizer := shipped.lemmatizer id ⟨0, [], []⟩ []

theorem tableLemma_shipped (lower : Str → Str) (lm : LM) (adjs : List Str) (w : Str) (tag : Tag) :
    (shipped.lemmatizer lower lm adjs).tableLemma w tag = shippedBare.tableLemma w tag := rfl

/-- The shipped tables: tag, suffix, lines. -/
def shippedForms : List (Tag × Suffix × List Str) :=
  [(.VERB, .PAST, irregularPreteritsLines), (.VERB, .PAST, irregularPastParticiplesLines),
   (.NOUN, .PLURAL, irregularPluralsLines), (.ADJ, .COMPARATIVE, irregularComparativesLines),
   (.ADJ, .SUPERLATIVE, irregularSuperlativesLines)]

/-! ### Evaluated facts -/

/-- The words with an entry for a tag. -/
def listedWords (tag : Tag) : List Str := shippedForms.flatMap fun e => if e.1 = tag then (rowsOfLines e.2.2).map Prod.fst else []

set_option maxRecDepth 100000 in
/-- A preterit that is also listed as a participle has the same lemma there. -/
theorem preterits_pps : (shipped.preterits.all fun r => (Dict.get? shipped.pps r.1).all (· = r.2)) = true := by
  decide +kernel

theorem superlatives_comparatives :
    (shipped.superlatives.all fun r => decide (Dict.get? shipped.comparatives r.1 = none)) = true := by decide +kernel

set_option maxRecDepth 100000 in
/-- A listed form that is also a fixed form has the same lemma and suffix there. -/
theorem fixed_listed : (shippedForms.all fun e => (rowsOfLines e.2.2).all fun r =>
    (fixedLemma r.1 e.1).all (· = (r.2, some e.2.1))) = true := by decide +kernel

set_option maxRecDepth 100000 in
theorem listed_no_hyphen : ([Tag.VERB, .NOUN, .ADJ].all fun tag => (listedWords tag).all fun w => !w.contains '-') = true := by
  decide +kernel

theorem fixed_no_hyphen : (Props.fixedForms.all fun f => !f.2.1.contains '-') = true := by decide +kernel

theorem fixed_no_prefix : (Props.fixedForms.all fun f => lemmatizerPrefixes.all fun p => !p.isPrefixOf f.2.1) = true := by
  decide +kernel

/-- What a listed word says of its part after a prefix. -/
def prefixAgrees (tag : Tag) (w p : Str) : Bool :=
  !p.isPrefixOf w || (shippedBare.irregularLemma (w.drop p.length) tag).all fun r =>
    decide (shippedBare.irregularLemma w tag = some (p ++ r.1, r.2))

set_option maxRecDepth 100000 in
theorem listed_prefixes : ([Tag.VERB, .NOUN, .ADJ].all fun tag => (listedWords tag).all fun w =>
    lemmatizerPrefixes.all fun p => prefixAgrees tag w p) = true := by decide +kernel

end Model
