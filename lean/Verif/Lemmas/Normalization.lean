import Verif.Model.Normalization
import Verif.Lemmas.LmQuery
import Verif.Props.Text
import Verif.Props.LangModel

namespace Model
open Py

/-! ### White space -/

theorem splitWsAux_space (rest : Str) : ∀ (t cur : Str), splitWsAux (t ++ ' ' :: rest) cur =
    splitWsAux t cur ++ splitWsAux rest []
  | [], cur => by
    have : isSpace ' ' = true := by decide
    by_cases h : cur.isEmpty = true <;> simp [splitWsAux, this, h]
  | c :: t, cur => by
    simp only [List.cons_append, splitWsAux]
    by_cases hc : isSpace c = true
    · by_cases h : cur.isEmpty = true
      · simp [hc, h, splitWsAux_space rest t]
      · simp [hc, h, splitWsAux_space rest t]
    · simp [hc, splitWsAux_space rest t]

theorem splitWs_space (t c : Str) : splitWs (join c!" " [t, c]) = splitWs t ++ splitWs c := by
  have e : join c!" " [t, c] = t ++ ' ' :: c := by simp [join]
  rw [e]
  exact splitWsAux_space c t []

theorem splitWs_noBlank_self {c : Str} (h : NoBlank c) : splitWs c = [c] := by
  have := splitWs_join [c] (by intro w hw; rw [List.mem_singleton] at hw; exact hw ▸ h)
  simpa [join] using this

theorem index_last_append {α} (a : List α) (x : α) : index (a ++ [x]) (-1) = .ok x := by
  have := index_neg (a ++ [x]) 1 (by decide)
  have e : (-((1 : Nat) : Int)) = -1 := rfl
  rw [e] at this
  rw [this, dif_pos (by simp)]
  simp

theorem splitWsAux_ne_nil : ∀ (t cur : Str), (cur ≠ [] ∨ ∃ c ∈ t, isSpace c = false) → splitWsAux t cur ≠ []
  | [], cur, h => by
    have : cur ≠ [] := by simpa using h
    simp [splitWsAux, this]
  | c :: t, cur, h => by
    unfold splitWsAux
    by_cases hc : isSpace c = true
    · rw [if_pos hc]
      by_cases he : cur.isEmpty = true
      · rw [if_pos he]
        apply splitWsAux_ne_nil t []
        right
        rcases h with h | ⟨d, hd, hs⟩
        · exact absurd (by simpa using he) h
        · rcases List.mem_cons.mp hd with rfl | hd
          · rw [hc] at hs; simp at hs
          · exact ⟨d, hd, hs⟩
      · rw [if_neg he]; simp
    · rw [if_neg hc]
      exact splitWsAux_ne_nil t (c :: cur) (Or.inl (by simp))

/-! ### The language model -/

/-- What `best_ngram` gives, for a loaded model. -/
theorem bestNgram_cases {R : Rounding} {log : ℚ → ℚ} {files : List (Int × Str)} {m : LM}
    (h : LM.load R log files = .ok m) (gs : List Str) :
    (m.bestNgram gs = .ok none ∧ ∀ g ∈ gs, m.contains g = false) ∨
    ∃ r ∈ gs, m.bestNgram gs = .ok (some r) ∧ m.contains r = true := by
  obtain ⟨⟨r, h1⟩, h2, h3⟩ := Props.C29_best_ngram h gs
  cases r with
  | none => exact Or.inl ⟨h1, h2.mp h1⟩
  | some r =>
    obtain ⟨h4, pre, post, h5, -⟩ := h3 r h1
    exact Or.inr ⟨r, by rw [h5]; simp, h1, h4⟩

theorem contains_of_hasNgram {m : LM} {g : Str} {k : Int} (h : m.hasNgram g k = true) : m.contains g = true := by
  unfold LM.hasNgram LM.detailsOf at h
  unfold LM.contains Dict.has
  split at h
  · simp at h
  · cases hg : Dict.get? m.details g with
    | some v => rfl
    | none =>
      rw [hg] at h
      simp only [Option.getD_none, decide_eq_true_eq] at h
      omega

/-! ### The lemmatizer -/

/-- A language model all of whose n-grams have a word. -/
def HasWords (m : LM) : Prop := ∀ g, m.contains g = true → ∃ c ∈ g, isSpace c = false

variable {R : Rounding} {log : ℚ → ℚ} {files : List (Int × Str)} {z : Lemmatizer}

/-- A candidate is supported by the model: it is known, or it is known behind one of the words put before it. -/
def Supported (m : LM) (tag : Tag) (candidates : List Str) (c : Str) : Prop :=
  m.contains c = true ∨ ∃ t ∈ tokensBefore candidates tag, m.contains (t ++ c!" " ++ c) = true

theorem bestCandidate_ok (h : LM.load R log files = .ok z.lm) (hw : HasWords z.lm) (stem : Str) (es : List Str) (tag : Tag) :
    ∃ r, z.bestCandidate stem es tag = .ok r := by
  unfold Lemmatizer.bestCandidate
  split
  · exact ⟨_, rfl⟩
  · simp only
    rcases bestNgram_cases h ((es.map (stem ++ ·)).flatMap fun c =>
      (tokensBefore (es.map (stem ++ ·)) tag).map fun t => join c!" " [t, c]) with ⟨h1, -⟩ | ⟨r, hr, h1, h2⟩
    · rw [h1]
      obtain ⟨⟨r, hr⟩, -⟩ := Props.C29_best_ngram h (es.map (stem ++ ·))
      exact ⟨r, hr⟩
    · rw [h1]
      have hne : splitWs r ≠ [] := splitWsAux_ne_nil r [] (Or.inr (hw r h2))
      obtain ⟨a, x, e⟩ := List.eq_nil_or_concat (splitWs r) |>.resolve_left hne
      refine ⟨some x, ?_⟩
      show (do let w ← index (splitWs r) (-1); return some w : Except PyErr (Option Str)) = _
      rw [e, List.concat_eq_append, index_last_append]
      rfl

/-- For a stem and endings without white space: the result is one of the candidates, supported by the model. -/
theorem bestCandidate_some (h : LM.load R log files = .ok z.lm) {stem : Str} {es : List Str} {tag : Tag} {r : Str}
    (hn : ∀ e ∈ es, NoBlank (stem ++ e)) (hr : z.bestCandidate stem es tag = .ok (some r)) :
    ∃ e ∈ es, r = stem ++ e ∧ Supported z.lm tag (es.map (stem ++ ·)) r := by
  unfold Lemmatizer.bestCandidate at hr
  split at hr
  · rename_i e
    by_cases hk : z.lm.hasNgram (stem ++ e) 1 = true
    · simp only [hk, if_true, Except.ok.injEq, Option.some.injEq] at hr
      exact ⟨e, by simp, hr.symm, Or.inl (hr ▸ contains_of_hasNgram hk)⟩
    · simp [hk] at hr
  · simp only at hr
    rcases bestNgram_cases h ((es.map (stem ++ ·)).flatMap fun c =>
      (tokensBefore (es.map (stem ++ ·)) tag).map fun t => join c!" " [t, c]) with ⟨h1, -⟩ | ⟨g, hg, h1, h2⟩
    · rw [h1] at hr
      have hr' : z.lm.bestNgram (es.map (stem ++ ·)) = .ok (some r) := hr
      rcases bestNgram_cases h (es.map (stem ++ ·)) with ⟨h3, -⟩ | ⟨g, hg, h3, h4⟩
      · rw [h3] at hr'; simp at hr'
      · rw [h3, Except.ok.injEq, Option.some.injEq] at hr'
        subst hr'
        obtain ⟨e, he, rfl⟩ := List.mem_map.mp hg
        exact ⟨e, he, rfl, Or.inl h4⟩
    · rw [h1] at hr
      have hr' : (do let w ← index (splitWs g) (-1); return some w : Except PyErr (Option Str)) = .ok (some r) := hr
      obtain ⟨c, hc, hg⟩ := List.mem_flatMap.mp hg
      obtain ⟨t, ht, rfl⟩ := List.mem_map.mp hg
      obtain ⟨e, he, rfl⟩ := List.mem_map.mp hc
      rw [splitWs_space, splitWs_noBlank_self (hn e he), index_last_append] at hr'
      have : stem ++ e = r := by
        simpa [bind, Except.bind, pure, Except.pure] using hr'
      subst this
      refine ⟨e, he, rfl, Or.inr ⟨t, ht, ?_⟩⟩
      have e2 : join c!" " [t, stem ++ e] = t ++ c!" " ++ (stem ++ e) := by simp [join]
      rw [← e2]
      exact h2

/-- What `_lm_lemma` gives. -/
theorem lmLemma_ok (h : LM.load R log files = .ok z.lm) (hw : HasWords z.lm) (word : Str) (tag : Tag) (stem : Str)
    (es : List Str) (s : Suffix) : ∃ r, z.lmLemma word tag stem es s = .ok r := by
  unfold Lemmatizer.lmLemma
  obtain ⟨r, hr⟩ := bestCandidate_ok h hw stem es tag
  rw [hr]
  cases r with
  | some b => exact ⟨_, rfl⟩
  | none =>
    cases ht : tokenPrefix stem z.prefixes with
    | none => exact ⟨_, rfl⟩
    | some pb =>
      obtain ⟨pre, base⟩ := pb
      obtain ⟨r, hr⟩ := bestCandidate_ok h hw base es tag
      simp only [bind, Except.bind, hr]
      cases r with
      | some b => exact ⟨_, rfl⟩
      | none => exact ⟨_, rfl⟩

/-- How `_lm_lemma` answers: the word itself, or a candidate, or a prefix and a candidate. -/
theorem lmLemma_cases {word : Str} {tag : Tag} {stem : Str} {es : List Str} {s : Suffix} {r : LemmaSuffix}
    (hr : z.lmLemma word tag stem es s = .ok r) :
    (∃ b, z.bestCandidate stem es tag = .ok (some b) ∧ r = (b, some s)) ∨
    (∃ pre base b, tokenPrefix stem z.prefixes = some (pre, base) ∧ z.bestCandidate base es tag = .ok (some b) ∧
      r = (pre ++ b, some s)) ∨ r = (word, none) := by
  unfold Lemmatizer.lmLemma at hr
  cases h1 : z.bestCandidate stem es tag with
  | error e => rw [h1] at hr; simp [bind, Except.bind] at hr
  | ok o =>
    rw [h1] at hr
    cases o with
    | some b =>
      left
      exact ⟨b, rfl, by simpa [bind, Except.bind, pure, Except.pure] using hr.symm⟩
    | none =>
      right
      cases ht : tokenPrefix stem z.prefixes with
      | none =>
        right
        simpa [bind, Except.bind, pure, Except.pure, ht] using hr.symm
      | some pb =>
        obtain ⟨pre, base⟩ := pb
        simp only [bind, Except.bind, ht] at hr
        cases h2 : z.bestCandidate base es tag with
        | error e => rw [h2] at hr; simp at hr
        | ok o =>
          rw [h2] at hr
          cases o with
          | none => right; simpa [pure, Except.pure] using hr.symm
          | some b =>
            left
            exact ⟨pre, base, b, rfl, h2, by simpa [pure, Except.pure] using hr.symm⟩

theorem tokenPrefix_append {t pre base : Str} {ps : List Str} (h : tokenPrefix t ps = some (pre, base)) : t = pre ++ base := by
  unfold tokenPrefix at h
  split at h
  · rename_i a b hs
    simp only [Option.some.injEq, Prod.mk.injEq] at h
    obtain ⟨rfl, rfl⟩ := h
    have := (splitOn_spec t '-').2.1
    rw [hs] at this
    simpa [join] using this.symm
  · cases hf : ps.find? fun p => startsWith t p with
    | none => rw [hf] at h; simp at h
    | some p =>
      rw [hf] at h
      simp only [Option.map_some, Option.some.injEq, Prod.mk.injEq] at h
      obtain ⟨rfl, rfl⟩ := h
      have := List.find?_some hf
      simp only [startsWith, List.isPrefixOf_iff_prefix] at this
      obtain ⟨s, rfl⟩ := this
      rw [sliceFrom_nat]
      simp

theorem kind_apply_ok {k : RuleKind} {start : Str} (h : start ≠ []) : ∃ r, k.apply start = .ok r := by
  obtain ⟨a, x, e⟩ := List.eq_nil_or_concat start |>.resolve_left h
  subst e
  cases k with
  | double => exact ⟨_, rfl⟩
  | plain es => exact ⟨_, rfl⟩
  | consonant es =>
    simp only [RuleKind.apply, endsWithConsonant, List.concat_eq_append, index_last_append]
    exact ⟨_, rfl⟩
  | last es =>
    simp only [RuleKind.apply, List.concat_eq_append, index_last_append]
    exact ⟨_, rfl⟩

/-- The stem is a prefix of the start and, with an ending, is not longer than the start by more than the ending; the
candidates have no other white space than the start. -/
theorem kind_apply_some {k : RuleKind} {start stem : Str} {es : List Str} (h : k.apply start = .ok (some (stem, es))) :
    stem <+: start ∧ ∀ e ∈ es, (∀ c ∈ e, c ∈ start ∨ (match k with
      | .double => False | .consonant l => ∃ x ∈ l, c ∈ x | .plain l => ∃ x ∈ l, c ∈ x | .last l => ∃ x ∈ l, c ∈ x)) := by
  cases k with
  | double =>
    simp only [RuleKind.apply, Except.ok.injEq] at h
    cases hv : vowelDoubleConsonantEndings start with
    | none => rw [hv] at h; simp at h
    | some l =>
      rw [hv] at h
      simp only [Option.map_some, Option.some.injEq, Prod.mk.injEq] at h
      obtain ⟨rfl, rfl⟩ := h
      obtain ⟨s, v, c, rfl, hv1, hc1, rfl⟩ := (Props.C13_vowel_double_consonant start l).mp hv
      refine ⟨?_, ?_⟩
      · have := sliceTo_neg (s ++ [v, c, c]) 2 (by decide)
        have e : (-((2 : Nat) : Int)) = -2 := rfl
        rw [e] at this
        rw [this]
        exact List.take_prefix _ _
      · intro e he d hd
        left
        simp only [List.mem_cons, List.not_mem_nil, or_false] at he
        rcases he with rfl | rfl <;> simp at hd <;> simp [hd]
  | plain l =>
    simp only [RuleKind.apply, Except.ok.injEq, Option.some.injEq, Prod.mk.injEq] at h
    obtain ⟨rfl, rfl⟩ := h
    exact ⟨List.prefix_refl _, fun e he c hc => Or.inr ⟨e, he, hc⟩⟩
  | consonant l =>
    simp only [RuleKind.apply] at h
    cases hc : endsWithConsonant start with
    | error e => rw [hc] at h; simp [bind, Except.bind] at h
    | ok b =>
      rw [hc] at h
      cases b with
      | false => simp [bind, Except.bind, pure, Except.pure] at h
      | true =>
        simp only [bind, Except.bind, pure, Except.pure, if_true, Except.ok.injEq, Option.some.injEq, Prod.mk.injEq] at h
        obtain ⟨rfl, rfl⟩ := h
        exact ⟨List.prefix_refl _, fun e he c hc => Or.inr ⟨e, he, hc⟩⟩
  | last l =>
    simp only [RuleKind.apply] at h
    by_cases hs : start = []
    · subst hs
      simp [index, bind, Except.bind] at h
    · obtain ⟨a, x, e⟩ := List.eq_nil_or_concat start |>.resolve_left hs
      subst e
      simp only [List.concat_eq_append, index_last_append, bind, Except.bind, pure, Except.pure, Except.ok.injEq,
        Option.some.injEq, Prod.mk.injEq] at h
      obtain ⟨rfl, rfl⟩ := h
      refine ⟨?_, ?_⟩
      · rw [sliceTo_neg_one]
        simp
      · intro e he c hc
        obtain ⟨y, hy, rfl⟩ := List.mem_map.mp he
        rcases List.mem_cons.mp hc with rfl | hc
        · left; simp
        · right; exact ⟨y, hy, hc⟩

/-- Outcome of a sequence of rules: the first one that applies decides; without any, the word is its own lemma. -/
theorem tryRules_cases {word : Str} {tag : Tag} : ∀ (rs : List Rule) {r : LemmaSuffix}, z.tryRules word tag rs = .ok r →
    r = (word, none) ∨ ∃ rule ∈ rs, ∃ start stem es, tokenStart word rule.ending rule.minLength = some start ∧
      rule.guard z word = true ∧ rule.kind.apply start = .ok (some (stem, es)) ∧
      z.lmLemma word tag stem es rule.suffix = .ok r
  | [], r, h => by
    simp only [Lemmatizer.tryRules, Except.ok.injEq] at h
    exact Or.inl h.symm
  | rule :: rs, r, h => by
    unfold Lemmatizer.tryRules at h
    cases ha : z.applyRule word tag rule with
    | error e => rw [ha] at h; simp [bind, Except.bind] at h
    | ok o =>
      rw [ha] at h
      cases o with
      | none =>
        have h' : z.tryRules word tag rs = .ok r := h
        rcases tryRules_cases rs h' with h1 | ⟨q, hq, rest⟩
        · exact Or.inl h1
        · exact Or.inr ⟨q, List.mem_cons_of_mem _ hq, rest⟩
      | some res =>
        have hres : res = r := by simpa [bind, Except.bind, pure, Except.pure] using h
        subst hres
        right
        refine ⟨rule, by simp, ?_⟩
        unfold Lemmatizer.applyRule at ha
        cases ht : tokenStart word rule.ending rule.minLength with
        | none => rw [ht] at ha; simp at ha
        | some start =>
          rw [ht] at ha
          simp only at ha
          by_cases hg : rule.guard z word = true
          · rw [if_pos hg] at ha
            cases hk : rule.kind.apply start with
            | error e => rw [hk] at ha; simp [bind, Except.bind] at ha
            | ok o =>
              rw [hk] at ha
              cases o with
              | none => simp [bind, Except.bind, pure, Except.pure] at ha
              | some se =>
                obtain ⟨stem, es⟩ := se
                simp only [bind, Except.bind] at ha
                cases hl : z.lmLemma word tag stem es rule.suffix with
                | error e => rw [hl] at ha; simp at ha
                | ok q =>
                  rw [hl] at ha
                  have : q = res := by simpa [pure, Except.pure] using ha
                  exact ⟨start, stem, es, rfl, hg, hk, by rw [hl, this]⟩
          · rw [if_neg hg] at ha; simp at ha

theorem rules_wellformed (tag : Tag) : ∀ r ∈ rulesFor tag, r.ending ≠ [] ∧ 1 ≤ r.minLength := by
  intro r hr
  unfold rulesFor at hr
  split at hr
  · simp only [adjRules, List.mem_cons, List.not_mem_nil, or_false] at hr
    rcases hr with rfl | rfl | rfl | rfl | rfl | rfl <;> decide
  · split at hr
    · simp only [verbRules, List.mem_cons, List.not_mem_nil, or_false] at hr
      rcases hr with rfl | rfl | rfl | rfl | rfl | rfl | rfl | rfl | rfl | rfl | rfl <;> decide
    · split at hr
      · simp only [nounRules, List.mem_cons, List.not_mem_nil, or_false] at hr
        rcases hr with rfl | rfl | rfl | rfl | rfl | rfl | rfl | rfl <;> decide
      · simp at hr

theorem tryRules_ok (h : LM.load R log files = .ok z.lm) (hw : HasWords z.lm) (word : Str) (tag : Tag) :
    ∀ rs : List Rule, (∀ r ∈ rs, r.ending ≠ [] ∧ 1 ≤ r.minLength) → ∃ r, z.tryRules word tag rs = .ok r
  | [], _ => ⟨_, rfl⟩
  | rule :: rs, hr => by
    obtain ⟨q, hq⟩ := tryRules_ok h hw word tag rs (fun r hm => hr r (List.mem_cons_of_mem _ hm))
    have ha : ∃ o, z.applyRule word tag rule = .ok o := by
      unfold Lemmatizer.applyRule
      cases ht : tokenStart word rule.ending rule.minLength with
      | none => exact ⟨_, rfl⟩
      | some start =>
        simp only
        split
        · obtain ⟨_, hne, _⟩ := (Props.C13_token_start _ _ _ _ (hr rule (by simp)).1).mp ht
          obtain ⟨o, ho⟩ := kind_apply_ok (k := rule.kind) hne
          rw [ho]
          cases o with
          | none => exact ⟨_, rfl⟩
          | some se =>
            obtain ⟨stem, es⟩ := se
            obtain ⟨r, hl⟩ := lmLemma_ok h hw word tag stem es rule.suffix
            exact ⟨some r, by simp [bind, Except.bind, pure, Except.pure, hl]⟩
        · exact ⟨_, rfl⟩
    obtain ⟨o, ho⟩ := ha
    unfold Lemmatizer.tryRules
    rw [ho]
    cases o with
    | none => exact ⟨q, hq⟩
    | some r => exact ⟨r, rfl⟩

end Model
