import Verif.Lemmas.Inflection
import Verif.Props.Normalization

/-! C103 and C104: regular inflected words and the lemmas chosen for them. -/

namespace Props
open Py Model Spec

variable {R : Rounding} {log : ℚ → ℚ} {files : List (Int × Str)} {z : Lemmatizer}

/-- The word is no fixed form and not in a table of irregular forms, nor is what follows a prefix of it. -/
structure NoException (z : Lemmatizer) (w : Str) (tag : Tag) : Prop where
  fixed : ∀ l s, (tag, w, l, s) ∉ fixedForms
  irregular : z.irregularLemma w tag = none
  prefixed : ∀ pre base, tokenPrefix w z.prefixes = some (pre, base) → z.irregularLemma base tag = none

theorem NoException.call {word : Str} {tag : Tag} (h : NoException z (z.lower word) tag) :
    z.call word tag = z.tryRules (z.lower word) tag (rulesFor tag) := by
  have h1 : fixedLemma (z.lower word) tag = none := by
    cases hf : fixedLemma (z.lower word) tag with
    | none => rfl
    | some r => exact absurd ((fixedLemma_iff _ _ _ _).mp hf) (h.fixed r.1 r.2)
  have h2 : z.prefixedIrregular (z.lower word) tag = none := by
    unfold Lemmatizer.prefixedIrregular
    split
    · rename_i pre base hp
      rw [h.prefixed pre base hp]
      rfl
    · rfl
  unfold Lemmatizer.call
  simp only [h1, h.irregular, h2]

/-- The words an inflected word may be read as, for this lemmatizer. -/
abbrev Reads (z : Lemmatizer) := Reading (fun g => z.lm.hasNgram g 1 = true) z.adjs

/-! ### C103 -/

/-- **C103.** A regular inflected word has as lemma the candidate preferred by the language model: the one of the most
probable pair with a subject or an auxiliary for verbs, with a candidate otherwise; without such pairs the most probable
one. -/
theorem C103_chosen (h : LM.load R log files = .ok z.lm) {word stem r : Str} {tag : Tag} {es : List Str} {s : Suffix}
    (hx : NoException z (z.lower word) tag) (hb : ∀ c ∈ z.lower word, isSpace c = false)
    (hr : Reads z tag (z.lower word) stem es s) (hc : Chosen z.lm tag (es.map (stem ++ ·)) r) :
    z.call word tag = .ok (r, some s) := by
  rw [hx.call, reading_rules hr]
  exact lmLemma_chosen (bestCandidate_chosen h (reading_noBlank hr hb fun _ h => h) hc)

/-- **C103.** When no candidate is attested, the prefix of the stem is put aside and the choice is made without it. -/
theorem C103_prefixed (h : LM.load R log files = .ok z.lm) {word stem pre base r : Str} {tag : Tag} {es : List Str} {s : Suffix}
    (hx : NoException z (z.lower word) tag) (hb : ∀ c ∈ z.lower word, isSpace c = false)
    (hr : Reads z tag (z.lower word) stem es s) (hu : Unattested z.lm tag (es.map (stem ++ ·)))
    (hp : tokenPrefix stem z.prefixes = some (pre, base)) (hc : Chosen z.lm tag (es.map (base ++ ·)) r) :
    z.call word tag = .ok (pre ++ r, some s) := by
  rw [hx.call, reading_rules hr]
  refine lmLemma_prefix (bestCandidate_unattested h hu) hp (bestCandidate_chosen h (reading_noBlank hr hb fun c hc => ?_) hc)
  rw [tokenPrefix_append hp]
  exact List.mem_append_right _ hc

/-- **C103.** When no candidate is attested, with or without a prefix, the word is its own lemma. -/
theorem C103_unattested (h : LM.load R log files = .ok z.lm) {word stem : Str} {tag : Tag} {es : List Str} {s : Suffix}
    (hx : NoException z (z.lower word) tag) (hr : Reads z tag (z.lower word) stem es s)
    (hu : Unattested z.lm tag (es.map (stem ++ ·)))
    (hp : ∀ pre base, tokenPrefix stem z.prefixes = some (pre, base) → Unattested z.lm tag (es.map (base ++ ·))) :
    z.call word tag = .ok (z.lower word, none) := by
  rw [hx.call, reading_rules hr]
  exact lmLemma_none (bestCandidate_unattested h hu) fun pre base hpb => bestCandidate_unattested h (hp pre base hpb)

/-- **C103.** These are all the cases: the candidates of a reading are attested or not. -/
theorem C103_cases (h : LM.load R log files = .ok z.lm) (tag : Tag) (cands : List Str) :
    (∃ r, Chosen z.lm tag cands r) ∨ Unattested z.lm tag cands := chosen_or_unattested h cands

/-- **C103.** A word that cannot be read as a regular inflected form is its own lemma. -/
theorem C103_no_reading {word : Str} {tag : Tag} (hx : NoException z (z.lower word) tag)
    (hr : ∀ stem es s, ¬ Reads z tag (z.lower word) stem es s) : z.call word tag = .ok (z.lower word, none) := by
  rw [hx.call]
  exact no_reading_rules hr

/-! ### Concrete cases -/

/-- A language model that has seen `you hope` more often than `we hop`, and `hop` more often than `hope`. -/
def hopeWords : List (Int × Str) :=
  [(1, c!"hop\t9\t0.5\nhope\t5\t0.25\ntrick\t5\t0.125\nuntie\t5\t0.125\nboxe\t2\t0.125\nbox\t5\t0.25\n"),
   (1, c!"you hope\t4\t0.5\nwe hop\t2\t0.25\ni trick\t2\t0.25\n")]

def hopeLM : LM :=
  ⟨2, [(c!"hop", 9, 1 / 2, ((1 / 2 : ℚ) : WithBot ℚ)), (c!"hope", 5, 1 / 4, ((1 / 4 : ℚ) : WithBot ℚ)),
       (c!"trick", 5, 1 / 8, ((1 / 8 : ℚ) : WithBot ℚ)), (c!"untie", 5, 1 / 8, ((1 / 8 : ℚ) : WithBot ℚ)),
       (c!"boxe", 2, 1 / 8, ((1 / 8 : ℚ) : WithBot ℚ)), (c!"box", 5, 1 / 4, ((1 / 4 : ℚ) : WithBot ℚ)),
       (c!"you hope", 4, 1 / 2, ((1 / 2 : ℚ) : WithBot ℚ)), (c!"we hop", 2, 1 / 4, ((1 / 4 : ℚ) : WithBot ℚ)),
       (c!"i trick", 2, 1 / 4, ((1 / 4 : ℚ) : WithBot ℚ))],
   [(c!"you", [(c!"hope", 1 / 2)]), (c!"we", [(c!"hop", 1 / 4)]), (c!"i", [(c!"trick", 1 / 4)])]⟩

theorem hopeLM_loaded : LM.load Rounding.exact (fun p => p) hopeWords = .ok hopeLM := by decide +kernel

def hopeLemmatizer : Lemmatizer := bareLemmatizer hopeLM

theorem noException_bare {lm : LM} {w : Str} {tag : Tag} (h : ∀ l s, (tag, w, l, s) ∉ fixedForms) :
    NoException (bareLemmatizer lm) w tag := by
  have : ∀ v, (bareLemmatizer lm).irregularLemma v tag = none := by
    intro v
    cases tag <;> rfl
  exact ⟨h, this w, fun _ base _ => this base⟩

theorem not_fixed {tag : Tag} {w : Str} (h : (tag, w) ∉ fixedForms.map fun f => (f.1, f.2.1)) : ∀ l s, (tag, w, l, s) ∉ fixedForms :=
  fun l s hm => h (List.mem_map.mpr ⟨_, hm, rfl⟩)

theorem hoping_reading : Reads hopeLemmatizer .VERB c!"hoping" c!"ho" [c!"p", c!"pe"] .PROGRESSIVE := by
  refine Reading.ing c!"ho" 'p' (by decide) ?_ ?_
  · rintro h
    exact absurd (afterConsonant_suffix h) (by decide)
  · intro h
    obtain ⟨d, h1, h2⟩ := (doubled_last (s := c!"ho") (c := 'p') h).2
    subst h2
    exact absurd h1 (by decide)

/-- `hoping` is of `hope`, since `you hope` is more probable than `we hop`, though `hop` is more probable than `hope`. -/
example : hopeLemmatizer.call c!"hoping" .VERB = .ok (c!"hope", some .PROGRESSIVE) :=
  C103_chosen (z := hopeLemmatizer) (s := .PROGRESSIVE) hopeLM_loaded
    (noException_bare (not_fixed (by decide))) (by decide) hoping_reading
    (.pair c!"you" (by decide) (by decide) (by decide) (by decide +kernel)
      ⟨(inContext .VERB [c!"hop", c!"hope"]).take 11, (inContext .VERB [c!"hop", c!"hope"]).drop 12, by decide +kernel, by decide +kernel,
        by decide +kernel⟩)

/-- As a noun, `boxes` is of `box`. -/
example : hopeLemmatizer.call c!"boxes" .NOUN = .ok (c!"box", some .PLURAL) := by decide +kernel
/-- Behind a prefix. -/
example : hopeLemmatizer.call c!"rehoping" .VERB = .ok (c!"rehope", some .PROGRESSIVE) := by decide +kernel
/-- Not attested. -/
example : hopeLemmatizer.call c!"zooming" .VERB = .ok (c!"zooming", none) := by decide +kernel

/-! ### C104 -/

/-- A word the language model has not seen, alone or behind a subject or an auxiliary. -/
def Unseen (m : LM) (u : Str) : Prop :=
  m.contains u = false ∧
  ∀ t ∈ [c!"i", c!"you", c!"we", c!"they", c!"may", c!"might", c!"can", c!"could", c!"would", c!"should"],
    m.contains (t ++ ' ' :: u) = false

theorem chosen_sole (h : LM.load R log files = .ok z.lm) {cands : List Str} {v : Str} (hv : v ∈ cands)
    (hk : z.lm.hasNgram v 1 = true) (hu : ∀ u ∈ cands, u ≠ v → Unseen z.lm u) : Chosen z.lm .VERB cands v := by
  have hkc := contains_of_hasNgram hk
  rcases chosen_or_unattested (tag := .VERB) h cands with ⟨r, hr⟩ | hn
  · have : r = v := by
      by_contra hne
      cases hr with
      | only h1 h2 => rw [h1] at hv; exact hne (List.mem_singleton.mp hv).symm
      | pair t h1 ht hr h2 h3 =>
        rw [(hu r hr hne).2 t ht] at h2
        cases h2
      | alone h1 h2 h3 h4 =>
        have hm : r ∈ cands := by
          obtain ⟨p, q, e, -⟩ := h4
          rw [e]; simp
        rw [(hu r hm hne).1] at h3
        cases h3
    exact this ▸ hr
  · exfalso
    by_cases hl : cands.length = 1
    · obtain ⟨c, rfl⟩ := List.length_eq_one_iff.mp hl
      obtain rfl : v = c := by simpa using hv
      rw [hn.1 v rfl] at hk
      cases hk
    · rw [(hn.2 hl).2 v hv] at hkc
      cases hkc

/-- Verbs whose past participle is not read as that of another verb: none in `ick` or `ie` after a consonant, like `trick`
and `untie`, in `i`, like `taxi`, or in a doubled consonant and `e`, like `grille`. -/
structure PlainVerb (v : Str) : Prop where
  length : 3 ≤ v.length
  ick : ¬ AfterConsonant 2 c!"ick" v
  icke : ¬ AfterConsonant 2 c!"icke" v
  ie : ¬ AfterConsonant 2 c!"ie" v
  i : ¬ AfterConsonant 2 c!"i" v
  doubled : ¬ Doubled c!"e" v

/-- The words a participle could come from by dropping `ed`, `d`, or `ed` and a consonant. -/
def ComesFrom (pp u : Str) : Prop := pp = u ++ c!"ed" ∨ pp = u ++ c!"d" ∨ ∃ c, pp = u ++ [c] ++ c!"ed"

theorem afterConsonant_cancel {n : Nat} {e f v : Str} (h : AfterConsonant n (e ++ f) (v ++ f)) : AfterConsonant n e v := by
  obtain ⟨s, c, h1, h2, h3⟩ := h
  rw [← List.append_assoc] at h1
  exact ⟨s, c, List.append_cancel_right h1, h2, h3⟩

/-- The verb is among the readings of its regular past participle. -/
theorem participle_reading {known : Str → Prop} {adjs : List Str} {lm : LM} {ctx : List Str} {v pp : Str} (hv : PlainVerb v)
    (h : RegularPP lm ctx v pp) : ∃ stem es, Reading known adjs .VERB pp stem es .PAST ∧ v ∈ es.map (stem ++ ·) ∧
      ∀ u ∈ es.map (stem ++ ·), u ≠ v → ComesFrom pp u := by
  have plain : ∀ (s : Str) (c : Char) (e : Str), 1 ≤ s.length → v ∈ [s ++ [c], s ++ [c, 'e']] →
      ¬ AfterConsonant 2 c!"icked" (s ++ [c] ++ c!"ed") → ¬ Doubled c!"ed" (s ++ [c] ++ c!"ed") →
      ¬ AfterConsonant 2 c!"ied" (s ++ [c] ++ c!"ed") → pp = s ++ [c] ++ c!"ed" →
      ∃ stem es, Reading known adjs .VERB pp stem es .PAST ∧ v ∈ es.map (stem ++ ·) ∧
      ∀ u ∈ es.map (stem ++ ·), u ≠ v → ComesFrom pp u := by
    rintro s c e hs hm h1 h2 h3 rfl
    exact ⟨s, [[c], [c, 'e']], .ed s c (not_nil hs) h1 h2 h3, by simpa using hm, by
      simp [ComesFrom]⟩
  have endsE : ∀ (s : Str) (c : Char), 1 ≤ s.length → v = s ++ [c, 'e'] → pp = v ++ c!"d" →
      ∃ stem es, Reading known adjs .VERB pp stem es .PAST ∧ v ∈ es.map (stem ++ ·) ∧
      ∀ u ∈ es.map (stem ++ ·), u ≠ v → ComesFrom pp u := by
    rintro s c hs rfl rfl
    have e : s ++ [c, 'e'] ++ c!"d" = s ++ [c] ++ c!"ed" := by simp
    refine plain s c [] hs (by simp) ?_ ?_ ?_ e <;> rw [← e]
    · exact fun h => hv.icke (afterConsonant_cancel (e := c!"icke") h)
    · rintro ⟨t, x, d, h1, h2, h3, h4⟩
      rw [show t ++ [x, d, d] ++ c!"ed" = t ++ [x, d, d] ++ c!"e" ++ c!"d" by simp] at h1
      exact hv.doubled ⟨t, x, d, List.append_cancel_right h1, h2, h3, h4⟩
    · exact fun h => hv.ie (afterConsonant_cancel (e := c!"ie") h)
  cases h with
  | d root c hc =>
    have := hv.length
    exact endsE root c (by simp at this; omega) rfl rfl
  | ie root c hc => exact endsE (root ++ [c]) 'i' (by simp) (by simp) rfl
  | ed _ _ _ =>
    by_cases hd : Doubled c!"ed" (v ++ c!"ed")
    · obtain ⟨s, x, d, h1, h2, h3, h4⟩ := hd
      obtain rfl := List.append_cancel_right h1
      exact ⟨s ++ [x], [[d], [d, d]], .edDoubled s x d h2 h3 h4, by simp, by simp [ComesFrom]⟩
    · obtain ⟨s, c, rfl⟩ : ∃ s c, v = s ++ [c] := by
        have := hv.length
        obtain ⟨s, c, e⟩ := List.eq_nil_or_concat v |>.resolve_left (by rintro rfl; simp at this)
        exact ⟨s, c, by simpa using e⟩
      have := hv.length
      exact plain s c [] (by simp at this; omega) (by simp) (fun h => hv.ick (afterConsonant_cancel (e := c!"ick") h)) hd
        (fun h => hv.i (afterConsonant_cancel (e := c!"i") h)) rfl
  | double root x c hx hc _ =>
    have := hv.length
    exact ⟨root ++ [x], [[c], [c, c]], .edDoubled root x c hx ((consonant_iff c).mp hc) (not_nil (by simp at this; omega)), by simp,
      by simp [ComesFrom]⟩
  | y root c hc =>
    have := hv.length
    exact ⟨root ++ [c], [c!"y"], .ied root c ((consonant_iff c).mp hc) (not_nil (by simp at this; omega)), by simp, by simp⟩

/-- **C104.** A regular verb is the lemma of its past participle, for verbs that are not read otherwise, when the language
model knows the verb and none of the other words the participle could come from. -/
theorem C104_round_trip_partial (h : LM.load R log files = .ok z.lm) {lm : LM} {ctx : List Str} {table : Dict Str Str} {v pp : Str}
    (ht : Dict.get? table v = none) (hp : pastParticiple lm ctx table v = .ok pp) (hv : PlainVerb v)
    (hl : z.lower pp = pp) (hb : ∀ c ∈ pp, isSpace c = false) (hx : NoException z pp .VERB)
    (hk : z.lm.hasNgram v 1 = true)
    (hu : ∀ u, ComesFrom pp u → u ≠ v → Unseen z.lm u) :
    z.call pp .VERB = .ok (v, some .PAST) := by
  obtain ⟨pp', h1, h2⟩ := C39_regular (lm := lm) ctx table v ht
  obtain rfl : pp = pp' := by rw [hp] at h1; exact Except.ok.inj h1
  obtain ⟨stem, es, h3, h4, h5⟩ := participle_reading (known := fun g => z.lm.hasNgram g 1 = true) (adjs := z.adjs) hv h2
  exact C103_chosen h (by rwa [hl]) (by rwa [hl]) (by rw [hl]; exact h3)
    (chosen_sole h h4 hk fun u hm hne => hu u (h5 u hm hne) hne)

/-- **C104.** False of other verbs: the participles of `trick` and `untie`, which the language model knows, are left as they
are. -/
theorem C104_round_trip_false :
    hopeLemmatizer.lm.hasNgram c!"trick" 1 = true ∧ pastParticiple hopeLM [[]] [] c!"trick" = .ok c!"tricked" ∧
    hopeLemmatizer.call c!"tricked" .VERB = .ok (c!"tricked", none) ∧
    hopeLemmatizer.lm.hasNgram c!"untie" 1 = true ∧ pastParticiple hopeLM [[]] [] c!"untie" = .ok c!"untied" ∧
    hopeLemmatizer.call c!"untied" .VERB = .ok (c!"untied", none) := by decide +kernel

theorem baked_plain : PlainVerb c!"bake" := by
  refine ⟨by decide, fun h => ?_, fun h => ?_, fun h => ?_, fun h => ?_, fun h => ?_⟩
  · exact absurd (afterConsonant_suffix h) (by decide)
  · exact absurd (afterConsonant_suffix h) (by decide)
  · exact absurd (afterConsonant_suffix h) (by decide)
  · exact absurd (afterConsonant_suffix h) (by decide)
  · obtain ⟨d, h1, h2⟩ := (doubled_last (s := c!"ba") (c := 'k') h).2
    subst h2
    exact absurd h1 (by decide)

theorem demoWords_loaded : LM.load Rounding.exact (fun p => p) demoWords = .ok demoWordsLM := by decide +kernel

/-- `bake` is the lemma of `baked`. -/
example : demoLemmatizer.call c!"baked" .VERB = .ok (c!"bake", some .PAST) := by
  refine C104_round_trip_partial (z := demoLemmatizer) (lm := demoWordsLM) (ctx := [[]]) (table := []) demoWords_loaded rfl
    (by decide +kernel) baked_plain rfl (by decide) ⟨not_fixed (by decide), by decide, ?_⟩ (by decide +kernel) ?_
  · intro pre base hp
    have : tokenPrefix c!"baked" demoLemmatizer.prefixes = none := by decide +kernel
    rw [this] at hp
    cases hp
  · rintro u (h | h | ⟨c, h⟩) hne
    · obtain rfl : c!"bak" = u := List.append_cancel_right (bs := c!"ed") h
      unfold Unseen
      decide +kernel
    · obtain rfl : c!"bake" = u := List.append_cancel_right (bs := c!"d") h
      exact absurd rfl hne
    · obtain ⟨rfl, -⟩ := List.append_inj' (List.append_cancel_right (as := c!"ba" ++ c!"k") (bs := c!"ed") h) rfl
      unfold Unseen
      decide +kernel

end Props
