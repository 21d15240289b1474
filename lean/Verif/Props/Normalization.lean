import Verif.Lemmas.Standardizer
import Verif.Props.Lemmatizer

/-! C34, C39 and C40: standardizer, inflector, canonicalizer. -/

namespace Props
open Py Model

variable {R : Rounding} {log : ℚ → ℚ} {files : List (Int × Str)} {lm : LM}

/-! ### C34 -/

/-- A respelling of a token: by one of the five families, or of `ae`, or of `oe`. -/
def Respelling (lm : LM) (token out : Str) : Prop :=
  (∃ f ∈ Spec.spellings, f.Respelled lm.contains lm.logp token out) ∨
    Spec.Ligature 'a' lm.contains lm.logp token out ∨ Spec.Ligature 'o' lm.contains lm.logp token out

/-- The model has something to say on a token: for a family, it is cut in some way and with any cut some alternative is
known; or it has `ae` (or `oe`) and one of both spellings is known. -/
def Decided (lm : LM) (token : Str) : Prop :=
  (∃ f ∈ Spec.spellings, (∃ s m e, f.Cut token s m e) ∧
    ∀ s m e, f.Cut token s m e → ∃ g ∈ f.ngrams s m e, lm.contains g = true) ∨
  ∃ a ∈ ['a', 'o'], 5 ≤ token.length ∧ [a, 'e'] <:+: token ∧
    ∀ u, Spec.Replaced a 'e' ['e'] token u → lm.contains u = true ∨ lm.contains token = true

theorem standardize_attempts (h : LM.load R log files = .ok lm) (token : Str) :
    ∃ l : List (Except PyErr (Option Str)),
      standardize lm token = (if lm.hasNgram token 5 then .ok token else firstSome token l) ∧
      (∀ x ∈ l, ∃ r, x = .ok r) ∧ (∀ out, .ok (some out) ∈ l → Respelling lm token out) ∧
      ((∀ x ∈ l, x = .ok none) → ¬ Decided lm token) := by
  have a1 := alternation_spec h Spec.spellingOr (by unfold SpellingOk LowerWord; decide) token
    (fun s _ _ => .ok [s ++ c!"or", s ++ c!"our"]) (fun b e => b ++ e)
    (by intro s m e _; simp [Spec.Spelling.ngrams, Spec.spellingOr])
    (by intro s m e x _ _; simp [Spec.spellingOr])
  have a2 := alternation_spec h Spec.spellingIze (by unfold SpellingOk LowerWord; decide) token
    (fun s m _ => do
      let v ← index m 0
      return [s ++ [v] ++ c!"ze", s ++ [v] ++ c!"se"]) (fun b e => sliceTo b (-1) ++ e)
    (by
      intro s m e hc
      obtain ⟨l, hl, hs⟩ := hc.middle
      have : m ≠ [] := by
        intro e0
        rw [e0] at hs
        simp only [Spec.spellingIze, List.mem_cons, List.not_mem_nil, or_false] at hl
        rcases hl with rfl | rfl | rfl | rfl <;> cases hs
      obtain ⟨v, m', rfl⟩ := List.exists_cons_of_ne_nil this
      simp [Spec.Spelling.ngrams, Spec.spellingIze, index, bind, Except.bind, pure, Except.pure])
    (by
      intro s m e x _ _
      simp only [Spec.spellingIze]
      rw [sliceTo_neg_one, List.dropLast_concat])
  have a3 := alternation_spec h Spec.spellingCe (by unfold SpellingOk LowerWord; decide) token
    (fun s _ _ => .ok [s ++ c!"se", s ++ c!"ce"]) (fun b e => sliceTo b (-1) ++ e)
    (by intro s m e _; simp [Spec.Spelling.ngrams, Spec.spellingCe])
    (by
      intro s m e x _ _
      simp only [Spec.spellingCe]
      rw [sliceTo_neg_one, List.dropLast_concat])
  have a4 := alternation_spec h Spec.spellingOgue (by unfold SpellingOk LowerWord; decide) token
    (fun s _ _ => .ok [s ++ c!"og", s ++ c!"ogue"]) (fun b e => b ++ e)
    (by intro s m e _; simp [Spec.Spelling.ngrams, Spec.spellingOgue])
    (by intro s m e x _ _; simp [Spec.spellingOgue])
  have a5 := alternation_spec h Spec.spellingEl (by unfold SpellingOk LowerWord; decide) token
    (fun s _ e => .ok [s ++ c!"el" ++ e, s ++ c!"ell" ++ e]) (fun b _ => b)
    (by intro s m e _; simp [Spec.Spelling.ngrams, Spec.spellingEl])
    (by intro s m e x _ _; simp [Spec.spellingEl])
  have a6 := ligature_spec h token 'a'
  have a7 := ligature_spec h token 'o'
  refine ⟨_, rfl, ?_, ?_, ?_⟩
  · intro x hx
    simp only [List.mem_cons, List.not_mem_nil, or_false] at hx
    rcases hx with rfl | rfl | rfl | rfl | rfl | rfl | rfl
    · exact a1.1
    · exact a2.1
    · exact a3.1
    · exact a4.1
    · exact a5.1
    · exact a6.1
    · exact a7.1
  · intro out hx
    simp only [List.mem_cons, List.not_mem_nil, or_false] at hx
    rcases hx with hx | hx | hx | hx | hx | hx | hx
    · exact Or.inl ⟨_, by simp [Spec.spellings], a1.2.1 out hx.symm⟩
    · exact Or.inl ⟨_, by simp [Spec.spellings], a2.2.1 out hx.symm⟩
    · exact Or.inl ⟨_, by simp [Spec.spellings], a3.2.1 out hx.symm⟩
    · exact Or.inl ⟨_, by simp [Spec.spellings], a4.2.1 out hx.symm⟩
    · exact Or.inl ⟨_, by simp [Spec.spellings], a5.2.1 out hx.symm⟩
    · exact Or.inr (Or.inl (a6.2.1 out hx.symm))
    · exact Or.inr (Or.inr (a7.2.1 out hx.symm))
  · intro hx hd
    have key : ∀ f : Spec.Spelling, ((∀ s m e, ¬ f.Cut token s m e) ∨
        ∃ s m e, f.Cut token s m e ∧ ∀ g ∈ f.ngrams s m e, lm.contains g = false) →
        ¬ ((∃ s m e, f.Cut token s m e) ∧ ∀ s m e, f.Cut token s m e → ∃ g ∈ f.ngrams s m e, lm.contains g = true) := by
      rintro f (h1 | ⟨s, m, e, h1, h2⟩) ⟨⟨s', m', e', h3⟩, h4⟩
      · exact h1 _ _ _ h3
      · obtain ⟨g, hg, hk⟩ := h4 s m e h1
        rw [h2 g hg] at hk
        simp at hk
    have key2 : ∀ a : Char, (¬ (5 ≤ token.length ∧ [a, 'e'] <:+: token) ∨
        ∃ u, Spec.Replaced a 'e' ['e'] token u ∧ lm.contains u = false ∧ lm.contains token = false) →
        ¬ (5 ≤ token.length ∧ [a, 'e'] <:+: token ∧
          ∀ u, Spec.Replaced a 'e' ['e'] token u → lm.contains u = true ∨ lm.contains token = true) := by
      rintro a (h1 | ⟨u, h1, h2, h3⟩) ⟨h4, h5, h6⟩
      · exact h1 ⟨h4, h5⟩
      · have := h6 u h1
        rw [h2, h3] at this
        simp at this
    rcases hd with ⟨f, hf, hd⟩ | ⟨a, ha, hd⟩
    · simp only [Spec.spellings, List.mem_cons, List.not_mem_nil, or_false] at hf
      rcases hf with rfl | rfl | rfl | rfl | rfl
      · exact key _ (a1.2.2 (hx _ (by simp only [List.mem_cons]; exact Or.inl rfl))) hd
      · exact key _ (a2.2.2 (hx _ (by simp only [List.mem_cons]; exact Or.inr (Or.inl rfl)))) hd
      · exact key _ (a3.2.2 (hx _ (by simp only [List.mem_cons]; exact Or.inr (Or.inr (Or.inl rfl))))) hd
      · exact key _ (a4.2.2 (hx _ (by simp only [List.mem_cons]; exact Or.inr (Or.inr (Or.inr (Or.inl rfl)))))) hd
      · exact key _ (a5.2.2 (hx _ (by simp only [List.mem_cons]; exact Or.inr (Or.inr (Or.inr (Or.inr (Or.inl rfl))))))) hd
    · simp only [List.mem_cons, List.not_mem_nil, or_false] at ha
      rcases ha with rfl | rfl
      · exact key2 _ (a6.2.2 (hx _ (by simp))) hd
      · exact key2 _ (a7.2.2 (hx _ (by simp))) hd

/-- **C34.** Standardization never raises. -/
theorem C34_total (h : LM.load R log files = .ok lm) (token : Str) : ∃ out, standardize lm token = .ok out := by
  obtain ⟨l, h1, h2, -, -⟩ := standardize_attempts h token
  rw [h1]
  split
  · exact ⟨_, rfl⟩
  · rcases firstSome_ok token l h2 with ⟨-, h3⟩ | ⟨out, -, h3⟩
    · exact ⟨_, h3⟩
    · exact ⟨_, h3⟩

/-- **C34.** A token that the model has seen 5 times is kept. -/
theorem C34_known (token : Str) (hk : lm.hasNgram token 5 = true) : standardize lm token = .ok token := by
  unfold standardize
  rw [if_pos hk]

/-- **C34.** The result is the token, or one respelling of it, justified by a known n-gram, the most probable of the
alternatives. -/
theorem C34_respelling (h : LM.load R log files = .ok lm) (token out : Str) (ho : standardize lm token = .ok out) :
    out = token ∨ Respelling lm token out := by
  obtain ⟨l, h1, h2, h3, -⟩ := standardize_attempts h token
  rw [h1] at ho
  split at ho
  · rw [Except.ok.injEq] at ho
    exact Or.inl ho.symm
  · rcases firstSome_ok token l h2 with ⟨-, h4⟩ | ⟨out', h4, h5⟩
    · rw [h4, Except.ok.injEq] at ho
      exact Or.inl ho.symm
    · rw [h5, Except.ok.injEq] at ho
      subst ho
      exact Or.inr (h3 out' h4)

/-- **C34.** A token that the model has not seen 5 times, but on whose spelling it decides, gets a respelling. -/
theorem C34_decided (h : LM.load R log files = .ok lm) (token out : Str) (hk : lm.hasNgram token 5 = false)
    (hd : Decided lm token) (ho : standardize lm token = .ok out) : Respelling lm token out := by
  obtain ⟨l, h1, h2, h3, h4⟩ := standardize_attempts h token
  rw [h1, if_neg (by simp [hk])] at ho
  rcases firstSome_ok token l h2 with ⟨h5, -⟩ | ⟨out', h5, h6⟩
  · exact absurd hd (h4 h5)
  · rw [h6, Except.ok.injEq] at ho
    exact ho ▸ h3 out' h5

/-- **C34.** With an empty model every token is kept. -/
theorem C34_empty (h : LM.load R log files = .ok lm) (hlm : ∀ g, lm.contains g = false) (token : Str) :
    standardize lm token = .ok token := by
  obtain ⟨out, ho⟩ := C34_total h token
  rcases C34_respelling h token out ho with rfl | ⟨f, -, s, m, e, x, -, -, -, hk, -⟩ | ⟨-, -, u, -, hk, -⟩ | ⟨-, -, u, -, hk, -⟩
  · exact ho
  all_goals rw [hlm] at hk; simp at hk

/-- **C34.** A token of whose alternatives the model knows none is kept. -/
theorem C34_unknown (h : LM.load R log files = .ok lm) (token : Str)
    (hf : ∀ f ∈ Spec.spellings, ∀ s m e, f.Cut token s m e → ∀ g ∈ f.ngrams s m e, lm.contains g = false)
    (hl : ∀ a ∈ ['a', 'o'], [a, 'e'] <:+: token → ∀ u, Spec.Replaced a 'e' ['e'] token u → lm.contains u = false) :
    standardize lm token = .ok token := by
  obtain ⟨out, ho⟩ := C34_total h token
  have lig : ∀ a ∈ ['a', 'o'], Spec.Ligature a lm.contains lm.logp token out → out = token := by
    rintro a ha ⟨-, hi, u, hu, hk, hm⟩
    have hmem : out ∈ [u, token] := by
      obtain ⟨pre, post, e, -⟩ := hm
      simp [e]
    simp only [List.mem_cons, List.not_mem_nil, or_false] at hmem
    rcases hmem with rfl | rfl
    · rw [hl a ha hi out hu] at hk
      exact absurd hk (by simp)
    · rfl
  have : out = token := by
    rcases C34_respelling h token out ho with e | ⟨f, hf', s, m, e, x, hc, -, -, hk, hm⟩ | hg | hg
    · exact e
    · have hmem : s ++ x ++ f.tail e ∈ f.ngrams s m e := by
        obtain ⟨pre, post, e', -⟩ := hm
        rw [e']
        exact List.mem_append_right _ List.mem_cons_self
      rw [hf f hf' s m e hc _ hmem] at hk
      exact absurd hk (by simp)
    · exact lig 'a' (by simp) hg
    · exact lig 'o' (by simp) hg
  rw [ho, this]

def spellLM : LM :=
  ⟨1, [(c!"color", 9, 1 / 2, ((1 / 2 : ℚ) : WithBot ℚ)), (c!"colour", 3, 1 / 4, ((1 / 4 : ℚ) : WithBot ℚ)),
       (c!"organise", 7, 1 / 8, ((1 / 8 : ℚ) : WithBot ℚ)), (c!"leukemia", 7, 1 / 8, ((1 / 8 : ℚ) : WithBot ℚ))], []⟩

example : LM.load Rounding.exact (fun p => p)
    [(1, c!"color\t9\t0.5\ncolour\t3\t0.25\norganise\t7\t0.125\nleukemia\t7\t0.125\n")] = .ok spellLM := by
  decide +kernel
example : standardize spellLM c!"labour" = .ok c!"labour" := by
  refine C34_unknown (R := Rounding.exact) (log := fun p => p)
    (files := [(1, c!"color\t9\t0.5\ncolour\t3\t0.25\norganise\t7\t0.125\nleukemia\t7\t0.125\n")]) (by decide +kernel) _ ?_ ?_
  · intro f _ s m e hc g hg
    obtain ⟨x, -, rfl⟩ := List.mem_map.mp hg
    have h3 : s.take 3 = c!"lab" := by
      have := congrArg (List.take 3) hc.append
      rw [List.append_assoc, List.take_append_of_le_length hc.long] at this
      exact this.symm
    have h4 : (s ++ x ++ f.tail e).take 3 = c!"lab" := by
      rw [List.append_assoc, List.take_append_of_le_length hc.long, h3]
    have key : ∀ w ∈ [c!"color", c!"colour", c!"organise", c!"leukemia"], w.take 3 ≠ c!"lab" := by decide
    have hne : s ++ x ++ f.tail e ∉ [c!"color", c!"colour", c!"organise", c!"leukemia"] := fun hm => key _ hm h4
    generalize s ++ x ++ f.tail e = g at hne
    rw [← Bool.not_eq_true, LM.contains, Dict.has, Dict.get?_isSome_iff]
    exact hne
  · intro a ha hi
    exact absurd hi (by revert a; decide)
example : standardize spellLM c!"colouring" = .ok c!"coloring" := by decide +kernel
example : standardize spellLM c!"colours" = .ok c!"colors" := by decide +kernel
example : standardize spellLM c!"organizations" = .ok c!"organisations" := by decide +kernel
example : standardize spellLM c!"leukaemia" = .ok c!"leukemia" := by decide +kernel
example : standardize spellLM c!"defences" = .ok c!"defences" := by decide +kernel
/-- Matching ignores case but what is written back is lower case. -/
example : standardize spellLM c!"colOUR" = .ok c!"color" := by decide +kernel

/-! ### C39 -/

/-- **C39.** An irregular past participle is that of the table. -/
theorem C39_irregular (ctx : List Str) (table : Dict Str Str) (lem pp : Str) (h : Dict.get? table lem = some pp) :
    pastParticiple lm ctx table lem = .ok pp := by
  unfold pastParticiple Dict.get
  rw [h]

/-- The past participle of a regular verb: `d` after a consonant and `e` or `ie`, the last consonant doubled before `ed` when
the language model prefers it so, `ied` for a `y` after a consonant, and `ed` for all other verbs. -/
inductive RegularPP (lm : LM) (ctx : List Str) : Str → Str → Prop
  | d (root : Str) (c : Char) : c ∈ consonants → RegularPP lm ctx (root ++ [c, 'e']) (root ++ [c, 'e'] ++ c!"d")
  | ie (root : Str) (c : Char) : c ∈ consonants → RegularPP lm ctx (root ++ [c, 'i', 'e']) (root ++ [c, 'i', 'e'] ++ c!"d")
  | ed (lem : Str) : (∀ root c, c ∈ consonants → lem ≠ root ++ [c, 'e'] ∧ lem ≠ root ++ [c, 'i', 'e'] ∧ lem ≠ root ++ [c, 'y']) →
      (∀ root v c, v ∈ c!"aeiouy" → c ∈ consonants → lem = root ++ [v, c] →
        lm.bestToken [lem ++ c!"ed", lem ++ [c] ++ c!"ed"] ctx ctx ≠ .ok (some (lem ++ [c] ++ c!"ed"))) →
      RegularPP lm ctx lem (lem ++ c!"ed")
  | double (root : Str) (v c : Char) : v ∈ c!"aeiouy" → c ∈ consonants →
      lm.bestToken [root ++ [v, c] ++ c!"ed", root ++ [v, c] ++ [c] ++ c!"ed"] ctx ctx = .ok (some (root ++ [v, c] ++ [c] ++ c!"ed")) →
      RegularPP lm ctx (root ++ [v, c]) (root ++ [v, c, c] ++ c!"ed")
  | y (root : Str) (c : Char) : c ∈ consonants → RegularPP lm ctx (root ++ [c, 'y']) (root ++ [c] ++ c!"ied")

theorem index_two (root : Str) (a b : Char) : index (root ++ [a, b]) (-2) = .ok a := by
  have := index_neg (root ++ [a, b]) 2 (by decide)
  have e : (-((2 : Nat) : Int)) = -2 := rfl
  rw [e] at this
  rw [this, dif_pos (by simp)]
  simp

theorem index_three (root : Str) (a b c : Char) : index (root ++ [a, b, c]) (-3) = .ok a := by
  have := index_neg (root ++ [a, b, c]) 3 (by decide)
  have e : (-((3 : Nat) : Int)) = -3 := rfl
  rw [e] at this
  rw [this, dif_pos (by simp)]
  simp

theorem index_one (root : Str) (a b : Char) : index (root ++ [a, b]) (-1) = .ok b := by
  have e : root ++ [a, b] = (root ++ [a]) ++ [b] := by simp
  rw [e]
  exact index_last_append _ _

theorem endsWith_suffix {t s : Str} (h : endsWith t s = true) : s <:+ t := by
  unfold endsWith at h
  exact List.isSuffixOf_iff_suffix.mp h

theorem last_two {s t : Str} {a b c d : Char} (h : s ++ [a, b] = t ++ [c, d]) : s = t ∧ a = c ∧ b = d := by
  obtain ⟨rfl, h2⟩ := List.append_inj' h rfl
  simpa using h2

/-- **C39.** Any other past participle never raises; it is the regular form. -/
theorem C39_regular (ctx : List Str) (table : Dict Str Str) (lem : Str) (h : Dict.get? table lem = none) :
    ∃ pp, pastParticiple lm ctx table lem = .ok pp ∧ RegularPP lm ctx lem pp := by
  have h0 : pastParticiple lm ctx table lem = regularPP lm ctx lem := by
    unfold pastParticiple Dict.get
    rw [h]
  rw [h0]
  clear h0 h
  unfold regularPP
  have short : ∀ l : Str, l.length < 2 → RegularPP lm ctx l (l ++ c!"ed") := by
    intro l hl
    refine .ed l (fun root c _ => ⟨?_, ?_, ?_⟩) (fun root v c _ _ e => ?_)
    · rintro rfl; simp at hl
    · rintro rfl; simp at hl; omega
    · rintro rfl; simp at hl
    · subst e; simp at hl
  rcases List.eq_nil_or_concat lem with rfl | ⟨l1, b, rfl⟩
  · exact ⟨_, rfl, short [] (by decide)⟩
  · rcases List.eq_nil_or_concat l1 with rfl | ⟨root, a, rfl⟩
    · exact ⟨_, rfl, short [b] (by simp)⟩
    · have e0 : (root.concat a).concat b = root ++ [a, b] := by simp
      rw [e0]
      have hie : ∃ r, endsWithConsonantIe (root ++ [a, b]) = .ok r ∧
          (r = true ↔ ∃ r' c, c ∈ consonants ∧ root ++ [a, b] = r' ++ [c, 'i', 'e']) := by
        unfold endsWithConsonantIe
        by_cases hl : (root ++ [a, b]).length > 2
        · rw [if_pos hl]
          rcases List.eq_nil_or_concat root with rfl | ⟨r', c, rfl⟩
          · simp at hl
          · have e1 : r'.concat c ++ [a, b] = r' ++ [c, a, b] := by simp
            rw [e1, index_three]
            refine ⟨_, rfl, ?_⟩
            rw [Bool.and_eq_true, decide_eq_true_eq]
            constructor
            · rintro ⟨hc, ht⟩
              obtain ⟨q, hq⟩ := endsWith_suffix ht
              rw [show r' ++ [c, a, b] = (r' ++ [c]) ++ [a, b] by simp] at hq
              obtain ⟨-, rfl, rfl⟩ := last_two hq
              exact ⟨r', c, hc, rfl⟩
            · rintro ⟨q, d, hd, hq⟩
              obtain ⟨-, h2⟩ := List.append_inj' hq rfl
              simp only [List.cons.injEq, and_true] at h2
              obtain ⟨rfl, rfl, rfl⟩ := h2
              exact ⟨hd, List.isSuffixOf_iff_suffix.mpr ⟨r' ++ [c], by simp⟩⟩
        · rw [if_neg hl]
          refine ⟨false, rfl, ⟨by simp, ?_⟩⟩
          rintro ⟨q, d, -, hq⟩
          rw [hq] at hl
          simp at hl
      obtain ⟨r, hr, hre⟩ := hie
      rw [hr]
      cases r with
      | true =>
        obtain ⟨r', c, hc, e⟩ := hre.mp rfl
        rw [e]
        exact ⟨_, rfl, .ie r' c hc⟩
      | false =>
        have hnie : ∀ r' c, c ∈ consonants → root ++ [a, b] ≠ r' ++ [c, 'i', 'e'] := fun r' c hc e =>
          absurd (hre.mpr ⟨r', c, hc, e⟩) (by simp)
        have hl : (root ++ [a, b]).length > 1 := by simp
        simp only [bind, Except.bind, Bool.false_eq_true, if_false, if_pos hl, index_two, index_one, pure, Except.pure]
        by_cases h1 : a ∈ consonants ∧ b = 'y'
        · rw [if_pos h1]
          refine ⟨_, rfl, ?_⟩
          have e1 : root ++ [a, b] = (root ++ [a]) ++ [b] := by simp
          rw [e1, sliceTo_neg_one, List.dropLast_concat, List.append_assoc, h1.2]
          exact RegularPP.y root a h1.1
        · rw [if_neg h1]
          by_cases h2 : a ∈ consonants ∧ endsWith (root ++ [a, b]) c!"e" = true
          · rw [if_pos h2]
            obtain ⟨q, hq⟩ := endsWith_suffix h2.2
            obtain rfl : b = 'e' := by
              rw [show root ++ [a, b] = (root ++ [a]) ++ [b] by simp] at hq
              have := (List.append_inj' hq rfl).2
              simpa using this.symm
            exact ⟨_, rfl, .d root a h2.1⟩
          · rw [if_neg h2]
            have hends : ∀ r' c, c ∈ consonants → root ++ [a, b] ≠ r' ++ [c, 'e'] ∧ root ++ [a, b] ≠ r' ++ [c, 'i', 'e'] ∧
                root ++ [a, b] ≠ r' ++ [c, 'y'] := by
              intro r' c hc
              refine ⟨?_, hnie r' c hc, ?_⟩
              · intro e
                obtain ⟨rfl, rfl, rfl⟩ := last_two e
                exact h2 ⟨hc, List.isSuffixOf_iff_suffix.mpr ⟨root ++ [a], by simp⟩⟩
              · intro e
                obtain ⟨rfl, rfl, rfl⟩ := last_two e
                exact h1 ⟨hc, rfl⟩
            have hvw : ∀ x, x ∈ vowels ↔ x ∈ c!"aeiouy" := by
              have h1 : ∀ x ∈ vowels, x ∈ c!"aeiouy" := by decide
              have h2 : ∀ x ∈ c!"aeiouy", x ∈ vowels := by decide
              exact fun x => ⟨h1 x, h2 x⟩
            by_cases h3 : a ∈ vowels ∧ b ∈ consonants
            · rw [if_pos h3]
              have hed : lm.bestToken [root ++ [a, b] ++ c!"ed", root ++ [a, b] ++ [b] ++ c!"ed"] ctx ctx ≠
                  .ok (some (root ++ [a, b] ++ [b] ++ c!"ed")) → RegularPP lm ctx (root ++ [a, b]) (root ++ [a, b] ++ c!"ed") := by
                intro hne
                refine .ed _ hends fun r' v c _ _ e => ?_
                obtain ⟨rfl, rfl, rfl⟩ := last_two e
                exact hne
              obtain ⟨⟨t, ht⟩, hnone, hsome⟩ := C30_best_token lm
                [root ++ [a, b] ++ c!"ed", root ++ [a, b] ++ [b] ++ c!"ed"] ctx ctx
              rw [ht]
              cases t with
              | none => exact ⟨_, rfl, hed (by rw [ht]; simp)⟩
              | some t =>
                obtain ⟨i, hi, -⟩ := hsome t ht
                have hmem := List.mem_of_getElem? hi
                simp only [List.mem_cons, List.not_mem_nil, or_false] at hmem
                rcases hmem with rfl | rfl
                · refine ⟨root ++ [a, b] ++ c!"ed", ?_, hed ?_⟩
                  · simp
                  · rw [ht]
                    simp
                · refine ⟨root ++ [a, b, b] ++ c!"ed", ?_, RegularPP.double root a b ((hvw a).mp h3.1) h3.2 ht⟩
                  simp
            · rw [if_neg h3]
              refine ⟨_, rfl, .ed _ hends fun r' v c hv hc e => ?_⟩
              obtain ⟨rfl, rfl, rfl⟩ := last_two e
              exact absurd ⟨(hvw a).mpr hv, hc⟩ h3

/-- **C39.** The last consonant is doubled only if the language model knows the verb with `ed`, with or without
doubling. -/
theorem C39_double_known {root : Str} {v c : Char} {ctx : List Str}
    (h : lm.bestToken [root ++ [v, c] ++ c!"ed", root ++ [v, c] ++ [c] ++ c!"ed"] ctx ctx =
      .ok (some (root ++ [v, c] ++ [c] ++ c!"ed"))) :
    lm.contains (root ++ [v, c] ++ c!"ed") = true ∨ lm.contains (root ++ [v, c, c] ++ c!"ed") = true := by
  obtain ⟨-, hnone, -⟩ := C30_best_token lm [root ++ [v, c] ++ c!"ed", root ++ [v, c] ++ [c] ++ c!"ed"] ctx ctx
  by_contra hc
  rw [not_or, Bool.not_eq_true, Bool.not_eq_true] at hc
  have := hnone.mpr (by
    intro u hu
    simp only [List.mem_cons, List.not_mem_nil, or_false] at hu
    rcases hu with rfl | rfl
    · exact hc.1
    · have e2 : root ++ [v, c] ++ [c] ++ c!"ed" = root ++ [v, c, c] ++ c!"ed" := by simp
      rw [e2]; exact hc.2)
  rw [h] at this
  simp at this

/-- **C39.** A regular form ends in `ed` and starts with the lemma, but possibly for a final `y`. -/
theorem C39_shape {ctx : List Str} {lem pp : Str} (h : RegularPP lm ctx lem pp) :
    c!"ed" <:+ pp ∧ (lem <+: pp ∨ ∃ root, lem = root ++ ['y'] ∧ root <+: pp) := by
  cases h with
  | d root c _ => exact ⟨⟨root ++ [c], by simp⟩, Or.inl (List.prefix_append _ _)⟩
  | ie root c _ => exact ⟨⟨root ++ [c, 'i'], by simp⟩, Or.inl (List.prefix_append _ _)⟩
  | ed _ _ _ => exact ⟨List.suffix_append _ _, Or.inl (List.prefix_append _ _)⟩
  | double root v c _ _ _ => exact ⟨List.suffix_append _ _, Or.inl ⟨[c] ++ c!"ed", by simp⟩⟩
  | y root c _ => exact ⟨⟨root ++ [c] ++ ['i'], by simp⟩, Or.inr ⟨root ++ [c], by simp, List.prefix_append _ _⟩⟩

def ppLM : LM := ⟨1, [(c!"stopped", 9, 1 / 2, ((1 / 2 : ℚ) : WithBot ℚ))], []⟩

example : pastParticiple ppLM [[]] [(c!"go", c!"gone")] c!"go" = .ok c!"gone" := by decide +kernel
example : pastParticiple ppLM [[]] [] c!"stop" = .ok c!"stopped" := by decide +kernel
example : pastParticiple ppLM [[]] [] c!"look" = .ok c!"looked" := by decide +kernel
example : pastParticiple ppLM [[]] [] c!"try" = .ok c!"tried" := by decide +kernel
example : pastParticiple ppLM [[]] [] c!"bake" = .ok c!"baked" := by decide +kernel
example : pastParticiple ppLM [[]] [] c!"" = .ok c!"ed" := by decide +kernel

/-! ### C40 -/

/-- The subject form of an object pronoun. -/
def subjectOf (l : Str) : Option Str :=
  if l = c!"me" then some c!"i" else if l = c!"you" then some c!"you" else if l = c!"her" then some c!"she"
  else if l = c!"him" then some c!"he" else if l = c!"us" then some c!"we" else if l = c!"them" then some c!"they"
  else none

/-- What the canonical form must be: it depends on the tag, the lemma, the chunk and the particles only. -/
def canonOf (tag : Tag) (lem : Str) (chunk : Option Str) (particles : List Str) : Str :=
  match tag with
  | .PRON => (subjectOf lem).getD lem
  | .NOUN => match chunk with
    | some (c :: w) => c :: w
    | _ => lem
  | .ADJ => List.intercalate c!" " (lem :: particles)
  | .VERB => List.intercalate c!" " (lem :: particles)
  | _ => lem

theorem objectToSubject_get (l : Str) : Dict.get? objectToSubject l = subjectOf l := by
  unfold subjectOf objectToSubject
  simp only [Dict.get?, @eq_comm _ l]

theorem particleCompound_eq (l : Str) (n : Node) : particleCompound l n = List.intercalate c!" " (l :: n.particles) := by
  unfold particleCompound
  rw [← join_eq_intercalate]
  cases n.particles with
  | nil => simp [join]
  | cons p ps => simp

/-- What canonicalization does to a node: an adjective is read as a verb first. -/
theorem canonicalize_eq (lemmatize : Str → Tag → Except PyErr LemmaSuffix) (n : Node) :
    canonicalize lemmatize n =
      if n.tag = .ADJ then
        (match lemmatize n.standard .VERB with
         | .error e => .error e
         | .ok (l, s) => .ok { n with
             suffix := s
             activeVerb := if s = some .PAST then some (List.intercalate c!" " (l :: n.particles)) else n.activeVerb
             canon := canonOf n.tag n.lem n.chunk n.particles })
      else .ok { n with canon := canonOf n.tag n.lem n.chunk n.particles } := by
  unfold canonicalize
  cases ht : n.tag
  case ADJ =>
    simp only [reduceCtorEq, if_false, false_and, if_true, bind, Except.bind, pure, Except.pure]
    cases hl : lemmatize n.standard .VERB with
    | error e => rfl
    | ok ls =>
      obtain ⟨l, s⟩ := ls
      simp only [Except.ok.injEq, canonOf]
      by_cases hs : s = some .PAST
      · simp only [hs, if_true, particleCompound_eq]
      · simp only [if_neg hs, particleCompound_eq]
  case PRON =>
    simp only [if_true, objectToSubject_get, reduceCtorEq, false_and, if_false, canonOf]
    cases subjectOf n.lem <;> rfl
  case NOUN =>
    simp only [reduceCtorEq, if_false, true_and, canonOf]
    cases hc : n.chunk with
    | none => rfl
    | some w => cases w <;> rfl
  case VERB =>
    simp only [reduceCtorEq, if_false, false_and, if_true, canonOf, particleCompound_eq]
  all_goals simp only [reduceCtorEq, if_false, false_and, canonOf]

variable {lemmatize : Str → Tag → Except PyErr LemmaSuffix}

/-- **C40.** Canonicalization raises only if reading an adjective as a verb does. -/
theorem C40_total (n : Node) (h : n.tag = .ADJ → ∃ r, lemmatize n.standard .VERB = .ok r) :
    ∃ n', canonicalize lemmatize n = .ok n' := by
  rw [canonicalize_eq]
  by_cases ht : n.tag = .ADJ
  · obtain ⟨⟨l, s⟩, hr⟩ := h ht
    rw [if_pos ht, hr]
    exact ⟨_, rfl⟩
  · rw [if_neg ht]
    exact ⟨_, rfl⟩

/-- **C40.** The canonical form: the subject form of an object pronoun, the chunk of a noun that has one, the lemma and the
particles of a verb or an adjective, the lemma of anything else. -/
theorem C40_canon (n n' : Node) (h : canonicalize lemmatize n = .ok n') :
    n'.canon = canonOf n.tag n.lem n.chunk n.particles := by
  rw [canonicalize_eq] at h
  split at h
  · split at h
    · simp at h
    · rw [Except.ok.injEq] at h
      rw [← h]
  · rw [Except.ok.injEq] at h
    rw [← h]

/-- **C40.** Only the canonical form, the suffix and the active verb change, the last two only for an adjective. -/
theorem C40_frame (n n' : Node) (h : canonicalize lemmatize n = .ok n') :
    n' = { n with canon := n'.canon, suffix := n'.suffix, activeVerb := n'.activeVerb } ∧
    (n.tag ≠ .ADJ → n'.suffix = n.suffix ∧ n'.activeVerb = n.activeVerb) := by
  rw [canonicalize_eq] at h
  split at h
  · rename_i ht
    split at h
    · simp at h
    · rw [Except.ok.injEq] at h
      rw [← h]
      exact ⟨rfl, fun hn => absurd ht hn⟩
  · rw [Except.ok.injEq] at h
    rw [← h]
    exact ⟨rfl, fun _ => ⟨rfl, rfl⟩⟩

/-- **C40.** An adjective takes the suffix of its reading as a verb, and gets that verb, with its particles, as active
verb when the reading is in the past. -/
theorem C40_adjective (n n' : Node) (ht : n.tag = .ADJ) (h : canonicalize lemmatize n = .ok n') :
    ∃ l s, lemmatize n.standard .VERB = .ok (l, s) ∧ n'.suffix = s ∧
      n'.activeVerb = if s = some .PAST then some (List.intercalate c!" " (l :: n.particles)) else n.activeVerb := by
  rw [canonicalize_eq, if_pos ht] at h
  split at h
  · simp at h
  · rename_i l s hl
    rw [Except.ok.injEq] at h
    exact ⟨l, s, hl, by rw [← h], by rw [← h]⟩

/-- **C40.** A node that had no active verb has one iff it is an adjective whose reading as a verb is in the past. -/
theorem C40_active_verb (n n' : Node) (hn : n.activeVerb = none) (h : canonicalize lemmatize n = .ok n') :
    n'.activeVerb.isSome = true ↔ n.tag = .ADJ ∧ ∃ l, lemmatize n.standard .VERB = .ok (l, some .PAST) := by
  by_cases ht : n.tag = .ADJ
  · obtain ⟨l, s, h1, -, h3⟩ := C40_adjective n n' ht h
    rw [h3, hn, h1]
    by_cases hs : s = some .PAST
    · simp [hs, ht]
    · simp only [if_neg hs, Option.isSome_none, Bool.false_eq_true, false_iff, not_and, not_exists, Except.ok.injEq,
        Prod.mk.injEq]
      exact fun _ l' _ e => hs e
  · rw [((C40_frame n n' h).2 ht).2, hn]
    simp [ht]

/-- **C40.** A second application changes nothing. -/
theorem C40_idempotent (n n' : Node) (h : canonicalize lemmatize n = .ok n') : canonicalize lemmatize n' = .ok n' := by
  have hc := C40_canon n n' h
  have hf := (C40_frame n n' h).1
  have ht : n'.tag = n.tag := by rw [hf]
  have hl : n'.lem = n.lem := by rw [hf]
  have hk : n'.chunk = n.chunk := by rw [hf]
  have hp : n'.particles = n.particles := by rw [hf]
  have hs : n'.standard = n.standard := by rw [hf]
  have hc' : canonOf n'.tag n'.lem n'.chunk n'.particles = n'.canon := by rw [ht, hl, hk, hp, hc]
  rw [canonicalize_eq, hc']
  by_cases ha : n.tag = .ADJ
  · obtain ⟨l, s, h1, h2, h3⟩ := C40_adjective n n' ha h
    rw [if_pos (ht.trans ha), show lemmatize n'.standard .VERB = .ok (l, s) from hs ▸ h1]
    simp only [Except.ok.injEq]
    have h4 : (if s = some .PAST then some (List.intercalate c!" " (l :: n'.particles)) else n'.activeVerb) =
        n'.activeVerb := by
      by_cases hs : s = some .PAST
      · rw [if_pos hs, h3, if_pos hs, hp]
      · rw [if_neg hs]
    rw [h4, ← h2]
  · rw [if_neg (by rw [ht]; exact ha)]

/-- An adjective loses the suffix that the lemmatizer had given it. -/
theorem C40_suffix_overwritten : ∃ n n', n.tag = .ADJ ∧ n.suffix = some .COMPARATIVE ∧
    canonicalize demoLemmatizer.call n = .ok n' ∧ n'.suffix = none :=
  ⟨{ Node.new id 0 c!"bigger" .ADJ with lem := c!"big", suffix := some .COMPARATIVE },
   { Node.new id 0 c!"bigger" .ADJ with lem := c!"big", canon := c!"big" }, rfl, rfl, by decide +kernel, rfl⟩

example : canonicalize demoLemmatizer.call { Node.new id 0 c!"formatted" .ADJ with particles := [c!"up"] } =
    .ok { Node.new id 0 c!"formatted" .ADJ with
      particles := [c!"up"], suffix := some .PAST, activeVerb := some c!"format up", canon := c!"formatted up" } := by
  decide +kernel
example : canonicalize demoLemmatizer.call (Node.new id 0 c!"them" .PRON) =
    .ok { Node.new id 0 c!"them" .PRON with canon := c!"they" } := by decide +kernel

end Props
