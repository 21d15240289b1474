import Verif.Lemmas.Inflection
import Verif.Spec.English

/-! # The forms of regular words are read as such -/

namespace Model
open Py Spec

theorem sib_last {w : Str} (h : Sibilant w) : ∃ s c, w = s ++ [c] ∧ c ∈ c!"sxzh" := by
  obtain ⟨e, he, s, rfl⟩ := h
  simp only [List.mem_cons, List.not_mem_nil, or_false] at he
  rcases he with rfl | rfl | rfl | rfl | rfl
  · exact ⟨s, 's', by simp, by decide⟩
  · exact ⟨s, 'x', by simp, by decide⟩
  · exact ⟨s, 'z', by simp, by decide⟩
  · exact ⟨s ++ ['c'], 'h', by simp, by decide⟩
  · exact ⟨s ++ ['s'], 'h', by simp, by decide⟩

theorem es_last {w : Str} (h : Sibilant w ∨ AfterConsonant 1 c!"o" w) : ∃ s c, w = s ++ [c] ∧ c ∈ c!"sxzho" := by
  rcases h with h | ⟨s, c, rfl, -, -⟩
  · obtain ⟨s, c, e, hc⟩ := sib_last h
    exact ⟨s, c, e, List.mem_append_left c!"o" hc⟩
  · exact ⟨s ++ [c], 'o', by simp, by decide⟩

/-- The last character before an ending. -/
theorem last_before {s s' e : Str} {c d : Char} (h : s ++ [c] ++ e = s' ++ d :: e) : d = c := by
  have h : s ++ [c] ++ e = s' ++ [d] ++ e := by simpa using h
  have := List.append_cancel_right h
  exact (List.cons.inj (List.append_inj' this rfl).2).1.symm

theorem lastOf {w : Str} (h : 1 ≤ w.length) : ∃ s c, w = s ++ [c] := by
  obtain ⟨s, c, e⟩ := List.eq_nil_or_concat w |>.resolve_left (by rintro rfl; simp at h)
  exact ⟨s, c, by simpa using e⟩

theorem suffix_last {s e : Str} {c d : Char} (h : (e ++ [d]) <:+ s ++ [c]) : d = c := by
  obtain ⟨t, ht⟩ := h
  rw [← List.append_assoc] at ht
  exact (List.cons.inj (List.append_inj' ht rfl).2).1

theorem ac_cancel {n : Nat} {e f v : Str} (h : AfterConsonant n (e ++ f) (v ++ f)) : AfterConsonant n e v := by
  obtain ⟨s, c, h1, h2, h3⟩ := h
  rw [← List.append_assoc] at h1
  exact ⟨s, c, List.append_cancel_right h1, h2, h3⟩

theorem doubled_cancel {e f v : Str} (h : Doubled (e ++ f) (v ++ f)) : Doubled e v := by
  obtain ⟨s, x, c, h1, h2⟩ := h
  rw [← List.append_assoc] at h1
  exact ⟨s, x, c, List.append_cancel_right h1, h2⟩

theorem ac_mono {n k : Nat} {e w : Str} (h : AfterConsonant n e w) (hk : k ≤ n) : AfterConsonant k e w := by
  obtain ⟨s, c, h1, h2, h3⟩ := h
  exact ⟨s, c, h1, h2, by omega⟩

variable {known : Str → Prop} {adjs : List Str}

/-- The form is read, and the word is one of those it may come from. -/
def ReadAs (known : Str → Prop) (adjs : List Str) (f : Formation) (base form : Str) : Prop :=
  ∃ stem es, Reading known adjs f.tag form stem es f.suffix ∧ base ∈ es.map (stem ++ ·)

theorem read_plain_ing {s : Str} {c : Char} {base : Str} {f : Formation} (hf : f.tag = .VERB) (hs : f.suffix = .PROGRESSIVE)
    (h2 : 2 ≤ s.length) (hi : ¬ AfterConsonant 2 c!"icking" (s ++ [c] ++ c!"ing"))
    (hd : ¬ Doubled c!"ing" (s ++ [c] ++ c!"ing")) (hb : base = s ++ [c] ∨ base = s ++ [c, 'e']) :
    ReadAs known adjs f base (s ++ [c] ++ c!"ing") :=
  ⟨s, [[c], [c, 'e']], by rw [hf, hs]; exact .ing s c h2 hi hd, by simpa using hb⟩

theorem inflects_read {f : Formation} {base form : Str} (h : Inflects f base form) (hl : Legible f base)
    (hk : f = .pluralS → ¬ known (form ++ c!"es"))
    (ha : f = .er ∨ f = .erDrop → form ∉ adjs) : ReadAs known adjs f base form := by
  cases h with
  | pluralS _ hs hy =>
    obtain ⟨h1, h2, h3⟩ := hl
    obtain ⟨s, c, rfl⟩ := lastOf (w := base) (by omega)
    by_cases hc : c = 'e'
    · subst hc
      have h2 := h2 ⟨s, rfl⟩
      obtain ⟨s, c, rfl⟩ := lastOf (w := s) (by simp at h2; omega)
      simp at h2
      rw [show s ++ [c] ++ ['e'] ++ c!"s" = s ++ [c] ++ c!"es" by simp]
      by_cases hi : AfterConsonant 2 c!"ies" (s ++ [c] ++ c!"es")
      · obtain ⟨t, d, e, hd, ht⟩ := hi
        refine ⟨t ++ [d], [c!"y", c!"ie"], ?_, ?_⟩
        · rw [e]
          exact .nounIes t d hd (not_nil (by omega))
        · have e' : s ++ [c] ++ ['e'] = t ++ [d] ++ c!"ie" := by
            refine List.append_cancel_right (bs := c!"s") ?_
            rw [show t ++ [d] ++ c!"ie" ++ c!"s" = t ++ [d] ++ c!"ies" by simp, ← e]
            simp
          rw [e']
          simp
      · by_cases hv : After 2 c!"ves" (s ++ [c] ++ c!"es")
        · obtain ⟨t, e, ht⟩ := hv
          refine ⟨t, [c!"f", c!"fe", c!"ve"], ?_, ?_⟩
          · rw [e]
            refine .ves t ht fun h' => h3 ?_
            rw [← e] at h'
            refine ac_cancel (f := c!"s") ?_
            rw [show s ++ [c] ++ ['e'] ++ c!"s" = s ++ [c] ++ c!"es" by simp]
            exact h'
          · have e' : s ++ [c] ++ ['e'] = t ++ c!"ve" := by
              refine List.append_cancel_right (bs := c!"s") ?_
              rw [show t ++ c!"ve" ++ c!"s" = t ++ c!"ves" by simp, ← e]
              simp
            rw [e']
            simp
        · exact ⟨s, [[c], [c, 'e'], [c, 'i', 's']], .nounEs s c (not_nil (by omega)) hi hv, by simp⟩
    · refine ⟨s, [[c]], .nounS s c (not_nil (by simp at h1; omega)) ?_ ?_ ?_, by simp⟩
      · rintro rfl
        exact hs ⟨c!"s", by decide, s, rfl⟩
      · have := hk rfl
        rwa [List.append_assoc] at this
      · rintro ⟨t, e, -⟩
        exact hc (last_before (e := c!"s") e).symm
  | pluralEs _ hs =>
    obtain ⟨s, c, rfl, hc⟩ := es_last hs
    have hl : 2 ≤ (s ++ [c]).length := hl
    refine ⟨s, [[c], [c, 'e'], [c, 'i', 's']], .nounEs s c (not_nil (by simp at hl; omega)) ?_ ?_, by simp⟩
    · rintro ⟨t, d, e, -, -⟩
      have := last_before (e := c!"es") e
      subst this
      exact absurd hc (by decide)
    · rintro ⟨t, e, -⟩
      have := last_before (e := c!"es") e
      subst this
      exact absurd hc (by decide)
  | pluralIes s c hc =>
    have hl : 3 ≤ (s ++ [c] ++ c!"y").length := hl
    exact ⟨s ++ [c], [c!"y", c!"ie"], .nounIes s c hc (not_nil (by simp at hl; omega)), by simp⟩
  | pluralF s =>
    obtain ⟨h1, h2⟩ := hl
    by_cases hi : AfterConsonant 1 c!"ieves" (s ++ c!"ves")
    · obtain ⟨t, d, e, hd, -⟩ := hi
      have e' : s = t ++ [d] ++ c!"ie" := by
        refine List.append_cancel_right (bs := c!"ves") ?_
        rw [e]
        simp
      subst e'
      refine ⟨t ++ [d], [c!"ief"], ?_, by simp⟩
      rw [e]
      exact .ieves t d hd
    · exact ⟨s, [c!"f", c!"fe", c!"ve"], .ves s (by simp at h1; omega) hi, by simp⟩
  | pluralFe s =>
    obtain ⟨-, h2⟩ := hl
    obtain ⟨h2, h3⟩ := h2 ⟨s, rfl⟩
    refine ⟨s, [c!"f", c!"fe", c!"ve"], .ves s (by simp at h2; omega) ?_, by simp⟩
    rintro ⟨t, d, e, hd, -⟩
    have e' : s = t ++ [d] ++ c!"ie" := by
      refine List.append_cancel_right (bs := c!"ves") ?_
      rw [e]
      simp
    exact h3 ⟨t ++ [d], by rw [e']; simp⟩
  | pluralMen s =>
    have hl : 5 ≤ (s ++ c!"man").length := hl
    exact ⟨s, [c!"man"], .men s (by simp at hl; omega), by simp⟩
  | pluralIs s =>
    obtain ⟨h1, h2, h3⟩ := hl
    obtain ⟨s, c, rfl⟩ := lastOf (w := s) (by simp at h1; omega)
    refine ⟨s, [[c], [c, 'e'], [c, 'i', 's']], .nounEs s c (not_nil (by simp at h1; omega)) ?_ ?_, by simp⟩
    · rintro ⟨t, d, e, -, -⟩
      have := last_before (e := c!"es") e
      subst this
      exact h3 ⟨s, by simp⟩
    · rintro ⟨t, e, -⟩
      have := last_before (e := c!"es") e
      subst this
      exact h2 ⟨s, by simp⟩
  | pluralOn s =>
    have hl : 7 ≤ (s ++ c!"on").length := hl
    exact ⟨s, [c!"on"], .a s (by simp at hl; omega), by simp⟩
  | pluralUs s =>
    have hl : 6 ≤ (s ++ c!"us").length := hl
    exact ⟨s, [c!"us"], .i s (by simp at hl; omega), by simp⟩
  | thirdS _ hs hy =>
    obtain ⟨h1, h2, h3⟩ := hl
    obtain ⟨s, c, rfl⟩ := lastOf (w := base) (by omega)
    by_cases hc : c = 'e'
    · subst hc
      have h2 := h2 ⟨s, rfl⟩
      obtain ⟨s, c, rfl⟩ := lastOf (w := s) (by simp at h2; omega)
      simp at h2
      rw [show s ++ [c] ++ ['e'] ++ c!"s" = s ++ [c] ++ c!"es" by simp]
      by_cases hi : AfterConsonant 1 c!"ies" (s ++ [c] ++ c!"es")
      · obtain ⟨t, d, e, hd, -⟩ := hi
        refine ⟨t ++ [d], [c!"y", c!"ie"], ?_, ?_⟩
        · rw [e]
          exact .verbIes t d hd
        · have e' : s ++ [c] ++ ['e'] = t ++ [d] ++ c!"ie" := by
            refine List.append_cancel_right (bs := c!"s") ?_
            rw [show t ++ [d] ++ c!"ie" ++ c!"s" = t ++ [d] ++ c!"ies" by simp, ← e]
            simp
          rw [e']
          simp
      · exact ⟨s, [[c], [c, 'e']], .verbEs s c (not_nil (by omega)) hi, by simp⟩
    · refine ⟨s, [[c]], .verbS s c (not_nil (by simp at h1; omega)) (fun h => h3 (ac_cancel (f := c!"s") h)) ?_, by simp⟩
      rintro ⟨t, e, -⟩
      exact hc (last_before (e := c!"s") e).symm
  | thirdEs _ hs =>
    obtain ⟨s, c, rfl, hc⟩ := es_last hs
    have hl : 2 ≤ (s ++ [c]).length := hl
    refine ⟨s, [[c], [c, 'e']], .verbEs s c (not_nil (by simp at hl; omega)) ?_, by simp⟩
    rintro ⟨t, d, e, -, -⟩
    have := last_before (e := c!"es") e
    subst this
    exact absurd hc (by decide)
  | thirdIes s c hc => exact ⟨s ++ [c], [c!"y", c!"ie"], .verbIes s c hc, by simp⟩
  | ing _ =>
    obtain ⟨h1, h2⟩ := hl
    by_cases hd : Doubled c!"ing" (base ++ c!"ing")
    · obtain ⟨s, x, d, e, hx, hd, hs⟩ := hd
      obtain rfl := List.append_cancel_right e
      exact ⟨s ++ [x], [[d], [d, d]], .ingDoubled s x d hx hd hs, by simp⟩
    · obtain ⟨s, c, rfl⟩ := lastOf (w := base) (by omega)
      exact read_plain_ing rfl rfl (by simp at h1; omega) (fun h => h2 (ac_cancel (e := c!"ick") h)) hd (.inl rfl)
  | ingDrop s c hc =>
    obtain ⟨h1, h2, h3⟩ := hl
    refine read_plain_ing rfl rfl (by simp at h1; omega) ?_ ?_ (.inr (by simp))
    · rintro ⟨t, d, e, -, -⟩
      rw [show t ++ [d] ++ c!"icking" = t ++ [d] ++ c!"ick" ++ c!"ing" by simp] at e
      rw [List.append_cancel_right e] at h2
      exact h2 ⟨t ++ [d], by simp⟩
    · rintro ⟨t, x, d, e, hx, hd, ht⟩
      rw [List.append_cancel_right e] at h3
      exact h3 ⟨t, x, d, rfl, hx, hd, ht⟩
  | ingDouble s x c hx hc =>
    have hl : 3 ≤ (s ++ [x, c]).length := hl
    exact ⟨s ++ [x], [[c], [c, c]], .ingDoubled s x c hx hc (not_nil (by simp at hl; omega)), by simp⟩
  | ingIc s =>
    obtain ⟨t, d, e, hd, ht⟩ : AfterConsonant 2 c!"ic" (s ++ c!"ic") := hl
    obtain rfl := List.append_cancel_right e
    exact ⟨t ++ [d], [c!"ic"], .icking t d hd (not_nil (by omega)), by simp⟩
  | ingIe s => exact absurd hl id
  | er _ =>
    obtain ⟨h1, h2⟩ := hl
    by_cases hd : Doubled c!"er" (base ++ c!"er")
    · obtain ⟨s, x, d, e, hx, hd, hs⟩ := hd
      obtain rfl := List.append_cancel_right e
      exact ⟨s ++ [x], [[d], [d, d]], .erDoubled s x d hx hd hs, by simp⟩
    · obtain ⟨s, c, rfl⟩ := lastOf (w := base) (by omega)
      exact ⟨s, [[c], [c, 'e']], .er s c (by simp at h1; omega) hd (fun h => h2 (ac_cancel (e := c!"i") h)) (ha (by simp)), by simp⟩
  | erDrop s =>
    obtain ⟨h1, h2, h3⟩ := hl
    obtain ⟨s, c, rfl⟩ := lastOf (w := s) (by simp at h1; omega)
    refine ⟨s, [[c], [c, 'e']], .er s c (by simp at h1; omega) (fun h => h3 ?_) (fun h => h2 ?_) (ha (by simp)), by simp⟩
    · exact doubled_cancel (f := c!"r") (by simpa using h)
    · exact ac_cancel (f := c!"r") (by simpa using h)
  | erDouble s x c hx hc =>
    have hl : 3 ≤ (s ++ [x, c]).length := hl
    exact ⟨s ++ [x], [[c], [c, c]], .erDoubled s x c hx hc (not_nil (by simp at hl; omega)), by simp⟩
  | erY s c hc =>
    have hl : 3 ≤ (s ++ [c] ++ c!"y").length := hl
    exact ⟨s ++ [c], [c!"y"], .ier s c hc (not_nil (by simp at hl; omega)), by simp⟩
  | est _ =>
    obtain ⟨h1, h2⟩ := hl
    by_cases hd : Doubled c!"est" (base ++ c!"est")
    · obtain ⟨s, x, d, e, hx, hd, hs⟩ := hd
      obtain rfl := List.append_cancel_right e
      exact ⟨s ++ [x], [[d], [d, d]], .estDoubled s x d hx hd hs, by simp⟩
    · obtain ⟨s, c, rfl⟩ := lastOf (w := base) (by omega)
      exact ⟨s, [[c], [c, 'e']], .est s c (by simp at h1; omega) hd (fun h => h2 (ac_cancel (e := c!"i") h)), by simp⟩
  | estDrop s =>
    obtain ⟨h1, h2, h3⟩ := hl
    obtain ⟨s, c, rfl⟩ := lastOf (w := s) (by simp at h1; omega)
    refine ⟨s, [[c], [c, 'e']], .est s c (by simp at h1; omega) (fun h => h3 ?_) (fun h => h2 ?_), by simp⟩
    · exact doubled_cancel (f := c!"st") (by simpa using h)
    · exact ac_cancel (f := c!"st") (by simpa using h)
  | estDouble s x c hx hc =>
    have hl : 3 ≤ (s ++ [x, c]).length := hl
    exact ⟨s ++ [x], [[c], [c, c]], .estDoubled s x c hx hc (not_nil (by simp at hl; omega)), by simp⟩
  | estY s c hc =>
    have hl : 3 ≤ (s ++ [c] ++ c!"y").length := hl
    exact ⟨s ++ [c], [c!"y"], .iest s c hc (not_nil (by simp at hl; omega)), by simp⟩

end Model
