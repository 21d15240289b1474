import Verif.Lemmas.English
import Verif.Props.Inflection

/-! # Property C112: plurals, third persons, progressives, comparatives and superlatives -/

namespace Props
open Py Model Spec

variable {R : Rounding} {log : ℚ → ℚ} {files : List (Int × Str)} {z : Lemmatizer}

/-! ### C112

Full statement: the lemma of a regular form of a word, with its suffix, is this word, when the language model knows the word
and none of the other words the form may come from, and no table has the form.  False of the code for several common words. -/

/-- The language model knows none of the other words the form may be read as, alone or as the last word of a pair. -/
def NoRival (z : Lemmatizer) (tag : Tag) (form base : Str) (s : Suffix) : Prop :=
  ∀ stem es, Reads z tag form stem es s → ∀ e ∈ es, stem ++ e ≠ base →
    z.lm.contains (stem ++ e) = false ∧ ∀ t, z.lm.contains (t ++ ' ' :: (stem ++ e)) = false

theorem chosen_alone (h : LM.load R log files = .ok z.lm) {tag : Tag} {cands : List Str} {v : Str} (hv : v ∈ cands)
    (hk : z.lm.hasNgram v 1 = true)
    (hu : ∀ u ∈ cands, u ≠ v → z.lm.contains u = false ∧ ∀ t, z.lm.contains (t ++ ' ' :: u) = false) :
    Chosen z.lm tag cands v := by
  have hkc := contains_of_hasNgram hk
  rcases chosen_or_unattested (tag := tag) h cands with ⟨r, hr⟩ | hn
  · have : r = v := by
      by_contra hne
      cases hr with
      | only h1 h2 => rw [h1] at hv; exact hne (List.mem_singleton.mp hv).symm
      | pair t h1 ht hr h2 h3 =>
        rw [(hu r hr hne).2 t] at h2
        cases h2
      | alone h1 h2 h3 h4 =>
        have hm : r ∈ cands := by
          obtain ⟨p, q, e, -⟩ := h4
          rw [e]; simp
        rw [(hu r hm hne).1] at h3
        cases h3
    exact this ▸ hr
  · exfalso
    by_cases hl : cands.length = 1
    · obtain ⟨c, rfl⟩ := List.length_eq_one_iff.mp hl
      obtain rfl : v = c := by simpa using hv
      rw [hn.1 v rfl] at hk
      cases hk
    · rw [(hn.2 hl).2 v hv] at hkc
      cases hkc

/-- **C112.** A regular form, in any case, is lemmatized to its word: for words whose forms are legible; a plural in `s` must
not have a known plural of its own, like `bus`, nor a comparative be an adjective of its own, like `clever`. -/
theorem C112_round_trip_partial (h : LM.load R log files = .ok z.lm) {f : Formation} {base form word : Str}
    (hf : Inflects f base form) (hl : Legible f base) (hw : z.lower word = form) (hb : ∀ c ∈ form, isSpace c = false)
    (hx : NoException z form f.tag) (hk : z.lm.hasNgram base 1 = true) (hn : NoRival z f.tag form base f.suffix)
    (hp : f = .pluralS → z.lm.hasNgram (form ++ c!"es") 1 = false) (ha : f = .er ∨ f = .erDrop → form ∉ z.adjs) :
    z.call word f.tag = .ok (base, some f.suffix) := by
  obtain ⟨stem, es, hr, hm⟩ := inflects_read (known := fun g => z.lm.hasNgram g 1 = true) (adjs := z.adjs) hf hl
    (fun e => by simp [hp e]) ha
  subst hw
  refine C103_chosen h hx hb hr (chosen_alone h hm hk fun u hu hne => ?_)
  obtain ⟨e, he, rfl⟩ := List.mem_map.mp hu
  exact hn stem es hr e he hne

/-- A language model that knows these words, all equally probable, and no pair. -/
def knownWords : List Str := [c!"go", c!"use", c!"lie", c!"trick", c!"sieve", c!"pelvis", c!"quiz", c!"box", c!"city", c!"wolf",
  c!"bake", c!"run", c!"big", c!"happy", c!"large"]

def englishFile : List (Int × Str) := [(1, knownWords.flatMap fun w => w ++ c!"\t5\t0.5\n")]

def englishLM : LM := ⟨1, knownWords.map fun w => (w, 5, 1 / 2, ((1 / 2 : ℚ) : WithBot ℚ)), []⟩

theorem englishLM_loaded : LM.load Rounding.exact (fun p => p) englishFile = .ok englishLM := by decide +kernel

def english : Lemmatizer := bareLemmatizer englishLM

/-- **C112.** False of the code for `go`, `use`, `lie`, `trick`, `sieve` and `pelvis`: their regular forms are left as they are,
though the language model knows these words. -/
theorem C112_words_false :
    (∀ w ∈ [c!"go", c!"use", c!"lie", c!"trick", c!"sieve", c!"pelvis"], english.lm.hasNgram w 1 = true) ∧
    (Inflects .ing c!"go" c!"going" ∧ english.call c!"going" .VERB = .ok (c!"going", none)) ∧
    (Inflects .ingDrop c!"use" c!"using" ∧ english.call c!"using" .VERB = .ok (c!"using", none)) ∧
    (Inflects .ingIe c!"lie" c!"lying" ∧ english.call c!"lying" .VERB = .ok (c!"lying", none)) ∧
    (Inflects .ing c!"trick" c!"tricking" ∧ english.call c!"tricking" .VERB = .ok (c!"tricking", none)) ∧
    (Inflects .pluralS c!"sieve" c!"sieves" ∧ english.call c!"sieves" .NOUN = .ok (c!"sieves", none)) ∧
    (Inflects .pluralIs c!"pelvis" c!"pelves" ∧ english.call c!"pelves" .NOUN = .ok (c!"pelves", none)) := by
  refine ⟨by decide +kernel, ⟨.ing c!"go", by decide +kernel⟩, ⟨.ingDrop c!"u" 's' (by decide), by decide +kernel⟩,
    ⟨.ingIe c!"l", by decide +kernel⟩, ⟨.ing c!"trick", by decide +kernel⟩, ⟨.pluralS c!"sieve" ?_ ?_, by decide +kernel⟩,
    ⟨.pluralIs c!"pelv", by decide +kernel⟩⟩
  · rintro ⟨e, he, hs⟩
    revert e
    decide
  · intro h
    exact absurd (afterConsonant_suffix h) (by decide)

/-! Forms of legible words -/
example : english.call c!"boxes" .NOUN = .ok (c!"box", some .PLURAL) := by decide +kernel
example : english.call c!"cities" .NOUN = .ok (c!"city", some .PLURAL) := by decide +kernel
example : english.call c!"goes" .VERB = .ok (c!"go", some .THIRD_PERSON) := by decide +kernel
example : english.call c!"baking" .VERB = .ok (c!"bake", some .PROGRESSIVE) := by decide +kernel
example : english.call c!"running" .VERB = .ok (c!"run", some .PROGRESSIVE) := by decide +kernel
example : english.call c!"bigger" .ADJ = .ok (c!"big", some .COMPARATIVE) := by decide +kernel
example : english.call c!"happiest" .ADJ = .ok (c!"happy", some .SUPERLATIVE) := by decide +kernel
example : english.call c!"larger" .ADJ = .ok (c!"large", some .COMPARATIVE) := by decide +kernel

theorem english_no_pair (t u : Str) : english.lm.contains (t ++ ' ' :: u) = false := by
  rw [Bool.eq_false_iff]
  intro h
  have hm : t ++ ' ' :: u ∈ englishLM.details.keys := (Dict.has_iff _ _).mp h
  have hk : ∀ w ∈ englishLM.details.keys, ' ' ∉ w := by decide +kernel
  exact hk _ hm (by simp)

theorem reading_start {known : Str → Prop} {adjs : List Str} {tag : Tag} {w stem : Str} {es : List Str} {sfx : Suffix}
    (h : Reading known adjs tag w stem es sfx) : stem ≠ [] ∧ stem <+: w := by
  cases h <;> refine ⟨?_, ?_⟩ <;> first
    | simp; done
    | assumption
    | exact not_nil (by omega)
    | exact ⟨_, by simp⟩

theorem english_no_rival {tag : Tag} {form base : Str} {sfx : Suffix} {c : Char} (hc : form.head? = some c)
    (hk : ∀ u ∈ knownWords, u.head? = some c → u = base) : NoRival english tag form base sfx := by
  intro stem es hr e he hne
  refine ⟨?_, fun t => english_no_pair t _⟩
  rw [Bool.eq_false_iff]
  intro h
  have hm : stem ++ e ∈ englishLM.details.keys := (Dict.has_iff _ _).mp h
  have hm : stem ++ e ∈ knownWords := by
    have e : englishLM.details.keys = knownWords := by decide +kernel
    rwa [← e]
  obtain ⟨h1, r, h2⟩ := reading_start hr
  refine hne (hk _ hm ?_)
  cases stem with
  | nil => exact absurd rfl h1
  | cons d stem =>
    rw [← h2] at hc
    simpa using hc

/-- **C112.** The full statement is false of the code: of all that it demands, `going` fulfils everything. -/
theorem C112_round_trip_false : ¬ ∀ (R : Rounding) (log : ℚ → ℚ) (files : List (Int × Str)) (z : Lemmatizer),
    LM.load R log files = .ok z.lm → ∀ (f : Formation) (base form : Str), Inflects f base form → z.lower form = form →
    (∀ c ∈ form, isSpace c = false) → NoException z form f.tag → z.lm.hasNgram base 1 = true →
    NoRival z f.tag form base f.suffix → (f = .pluralS → z.lm.hasNgram (form ++ c!"es") 1 = false) →
    (f = .er ∨ f = .erDrop → form ∉ z.adjs) → z.call form f.tag = .ok (base, some f.suffix) := by
  intro h
  have h1 : english.call c!"going" .VERB = .ok (c!"go", some .PROGRESSIVE) :=
    h _ _ _ english englishLM_loaded .ing c!"go" c!"going" (.ing _) rfl (by decide) (noException_bare (not_fixed (by decide)))
      (by decide +kernel) (english_no_rival (c := 'g') rfl (by decide)) (fun h => by cases h) (fun h => by rcases h with h | h <;> cases h)
  have h2 : english.call c!"going" .VERB = .ok (c!"going", none) := by decide +kernel
  rw [h1] at h2
  cases h2

/-- The theorem applied to `wolves`, which could be of `wolfe` or `wolve`. -/
example : english.call c!"wolves" .NOUN = .ok (c!"wolf", some .PLURAL) :=
  C112_round_trip_partial (z := english) (f := .pluralVes) englishLM_loaded (.pluralF c!"wol")
    ⟨by decide, fun h => absurd h (by decide)⟩ rfl (by decide) (noException_bare (not_fixed (by decide))) (by decide +kernel)
    (english_no_rival (c := 'w') rfl (by decide)) (fun h => by cases h) (fun h => by rcases h with h | h <;> cases h)

end Props
