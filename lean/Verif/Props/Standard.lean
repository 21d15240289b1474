import Verif.Lemmas.Spellings
import Verif.Props.Normalization

/-! # Properties C34 (exact) and C122: the standard spelling

Full claim of C122: standardizing a standardized word does not change it,
`standardize lm token = .ok out → standardize lm out = .ok out`. -/

namespace Props
open Py Model

variable {R : Rounding} {log : ℚ → ℚ} {files : List (Int × Str)} {lm : LM}

/-- **C34.** The standardizer returns the standard spelling, with the families tried in order. -/
theorem C34_exact (h : LM.load R log files = .ok lm) (token out : Str) :
    standardize lm token = .ok out ↔ Spec.Standard lm.contains lm.logp (lm.hasNgram · 5) token out := by
  obtain ⟨r, h1, h2⟩ := standardize_standard h token
  constructor
  · intro e
    rw [h1, Except.ok.injEq] at e
    rwa [e] at h2
  · intro hs
    rw [h1, standard_unique h2 hs]

/-- The model prefers "promize" to "promise" and "promise" to "promice". -/
theorem C122_twice_false : ∃ (files : List (Int × Str)) (lm : LM) (token out again : Str),
    LM.load Rounding.exact (fun p => p) files = .ok lm ∧ standardize lm token = .ok out ∧ standardize lm out = .ok again ∧ again ≠ out :=
  ⟨[(1, c!"promize\t9\t0.5\npromise\t3\t0.25\n")],
    ⟨1, [(c!"promize", 9, 1 / 2, ((1 / 2 : ℚ) : WithBot ℚ)), (c!"promise", 3, 1 / 4, ((1 / 4 : ℚ) : WithBot ℚ))], []⟩,
    c!"promice", c!"promise", c!"promize", by decide +kernel, by decide +kernel, by decide +kernel, by decide⟩

theorem middles_ce {f : Spec.Spelling} (h : f = Spec.spellingCe) : f.middles = [c!"c", c!"s"] := by
  rw [h]
  rfl

/-- The spelling of a word on which a family decides. -/
theorem decides_standard {known : Str → Bool} {logp : Str → WithBot ℚ} {often : Str → Bool} {f : Spec.Spelling} {token s m e out : Str}
    (hd : f.Decides known token s m e) (ho : often token = false) :
    Spec.Standard known logp often token out ↔ ∃ x ∈ f.alts m, out = s ++ x ++ e ∧ known (s ++ x ++ f.tail e) = true ∧
      Spec.FirstMax logp (f.ngrams s m e) (s ++ x ++ f.tail e) := by
  obtain ⟨hf, hc, ⟨g, hg, hk⟩, hce⟩ := hd
  obtain ⟨pre, post, e1, e2⟩ := first_family hf (s := s) fun e => hce (middles_ce e)
  have hun : ∀ g ∈ pre, g.Undecided known token := fun g hg s' m' e' hc' => absurd hc' (e2 token m e hc g hg s' m' e')
  have hno : ¬ f.Undecided known token := fun hu => by
    rw [hu s m e hc g hg] at hk
    cases hk
  constructor
  · intro hs
    have hr : f.Respelled known logp token out := by
      cases hs with
      | often k1 => rw [ho] at k1; cases k1
      | family pre' f' post' _ k1 k2 k3 k4 =>
        rw [e1] at k2
        rcases List.append_eq_append_iff.mp k2 with ⟨r, e3, e4⟩ | ⟨r, e3, e4⟩
        · cases r with
          | nil =>
            obtain ⟨rfl, -⟩ := List.cons.inj e4
            exact k4
          | cons g r =>
            obtain ⟨rfl, -⟩ := List.cons.inj e4
            exact absurd (k3 f (by rw [e3]; simp)) hno
        · cases r with
          | nil =>
            obtain ⟨rfl, -⟩ := List.cons.inj e4
            exact k4
          | cons g r =>
            obtain ⟨rfl, -⟩ := List.cons.inj e4
            exact absurd (hun f' (by rw [e3]; simp)) (respelled_decided k4)
      | ae _ _ k2 => exact absurd (k2 f hf) hno
      | oe _ _ k2 => exact absurd (k2 f hf) hno
      | kept _ k2 => exact absurd (k2 f hf) hno
    obtain ⟨s', m', e', x, h1, h2, h3, h4, h5⟩ := hr
    obtain ⟨rfl, rfl, rfl⟩ := cut_unique (spelling_ok f hf).1 (spelling_ok f hf).2 hc h1
    exact ⟨x, h2, h3, h4, h5⟩
  · rintro ⟨x, h2, h3, h4, h5⟩
    exact .family pre f post out ho e1 hun ⟨s, m, e, x, hc, h2, h3, h4, h5⟩

/-- Words on which a family decides (for `-ce` and `-se`: not in `-ice`, `-yce`). -/
theorem C122_twice_partial (h : LM.load R log files = .ok lm) (f : Spec.Spelling) (token s m e out : Str)
    (hd : f.Decides lm.contains token s m e) (ho : standardize lm token = .ok out) : standardize lm out = .ok out := by
  rw [C34_exact h] at ho ⊢
  by_cases h1 : lm.hasNgram token 5 = true
  · cases ho with
    | often => exact .often h1
    | kept k1 => rw [h1] at k1; cases k1
    | family _ _ _ _ k1 => rw [h1] at k1; cases k1
    | ae _ k1 => rw [h1] at k1; cases k1
    | oe _ k1 => rw [h1] at k1; cases k1
  · rw [decides_standard hd (by simpa using h1)] at ho
    obtain ⟨x, k1, rfl, k3, k4⟩ := ho
    by_cases h2 : lm.hasNgram (s ++ x ++ e) 5 = true
    · exact .often h2
    · obtain ⟨hf, hc, hk, hce⟩ := hd
      obtain ⟨c1, c2⟩ := cut_respelled hf hc k1
      have c3 : f.ngrams s x e = f.ngrams s m e := by
        unfold Spec.Spelling.ngrams
        rw [c2]
      rw [decides_standard (f := f) (s := s) (m := x) (e := e) ⟨hf, c1, by rw [c3]; exact hk, hce⟩ (by simpa using h2), c2, c3]
      exact ⟨x, k1, rfl, k3, k4⟩

/-- Two spellings of a word that are both not often seen get the same spelling. -/
theorem C122_variants (h : LM.load R log files = .ok lm) (f : Spec.Spelling) (token token' s m m' e : Str)
    (hd : f.Decides lm.contains token s m e) (hd' : f.Decides lm.contains token' s m' e) (hm : f.alts m = f.alts m')
    (ho : lm.hasNgram token 5 = false) (ho' : lm.hasNgram token' 5 = false) : standardize lm token = standardize lm token' := by
  obtain ⟨out, e1, e2⟩ := standardize_standard h token
  rw [e1]
  symm
  rw [C34_exact h]
  have e3 : f.ngrams s m e = f.ngrams s m' e := by
    unfold Spec.Spelling.ngrams
    rw [hm]
  rw [decides_standard hd ho] at e2
  rw [decides_standard hd' ho', ← hm, ← e3]
  exact e2

def variantLM : LM :=
  ⟨1, [(c!"color", 9, 1 / 2, ((1 / 2 : ℚ) : WithBot ℚ)), (c!"colour", 3, 1 / 4, ((1 / 4 : ℚ) : WithBot ℚ))], []⟩

theorem variant_load : LM.load Rounding.exact (fun p => p) [(1, c!"color\t9\t0.5\ncolour\t3\t0.25\n")] = .ok variantLM := by decide +kernel

theorem variant_letters : ∀ c ∈ c!"col", ∃ p, 'a' ≤ p ∧ p ≤ 'z' ∧ Spec.SameLetter p c := by
  have : ∀ c ∈ c!"col", 'a' ≤ c ∧ c ≤ 'z' := by decide
  exact fun c hc => ⟨c, (this c hc).1, (this c hc).2, .inl rfl⟩

theorem variant_our : Spec.spellingOr.Decides variantLM.contains c!"coloured" c!"col" c!"our" c!"ed" :=
  ⟨by simp [Spec.spellings], ⟨rfl, variant_letters, by decide, ⟨c!"our", by decide, spells_refl _⟩, ⟨c!"ed", by decide, spells_refl _⟩⟩,
    ⟨c!"color", by decide, by decide +kernel⟩, fun e => absurd e (by decide)⟩

theorem variant_or : Spec.spellingOr.Decides variantLM.contains c!"colored" c!"col" c!"or" c!"ed" :=
  ⟨by simp [Spec.spellings], ⟨rfl, variant_letters, by decide, ⟨c!"or", by decide, spells_refl _⟩, ⟨c!"ed", by decide, spells_refl _⟩⟩,
    ⟨c!"color", by decide, by decide +kernel⟩, fun e => absurd e (by decide)⟩

example : standardize variantLM c!"coloured" = .ok c!"colored" := by decide +kernel
example : standardize variantLM c!"colored" = .ok c!"colored" :=
  C122_twice_partial variant_load _ _ _ _ _ _ variant_our (by decide +kernel)
example : standardize variantLM c!"coloured" = standardize variantLM c!"colored" :=
  C122_variants variant_load _ _ _ _ _ _ _ variant_our variant_or rfl (by decide +kernel) (by decide +kernel)

example : Spec.NotIze c!"defen" := by
  rintro c ⟨⟩
  unfold Spec.SameLetter
  decide

end Props
