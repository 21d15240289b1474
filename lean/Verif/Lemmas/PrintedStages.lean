import Verif.Lemmas.PrintedShape

/-! The stages of the tokenizer on printed words. -/

namespace Model
open Py

variable {db : CharDB}

/-- Every character between blanks. -/
def spaced (s : Str) : Str := s.flatMap fun c => [' ', c, ' ']

theorem splitWs_spaced {s : Str} (hs : ∀ c ∈ s, isSpace c = false) (x : Str) :
    splitWs (spaced s ++ x) = Spec.Printed.singles s ++ splitWs x := by
  induction s with
  | nil => rfl
  | cons c s ih =>
    have e : spaced (c :: s) ++ x = [' '] ++ ([c] ++ ' ' :: (spaced s ++ x)) := rfl
    have h1 : NoBlank [c] := ⟨by simp, by simpa using hs c (by simp)⟩
    rw [e, splitWs_spaces_append _ (by decide), splitWs_sep (by decide), splitWs_noBlank_self h1, ih fun d hd => hs d (by simp [hd])]
    rfl

theorem splitWs_before_spaced {w s : Str} (hw : NoBlank w) (hne : s ≠ []) (hs : ∀ c ∈ s, isSpace c = false) (x : Str) :
    splitWs (w ++ (spaced s ++ x)) = w :: (Spec.Printed.singles s ++ splitWs x) := by
  obtain ⟨c, s, rfl⟩ := List.exists_cons_of_ne_nil hne
  have e : w ++ (spaced (c :: s) ++ x) = w ++ ' ' :: ([c] ++ ' ' :: (spaced s ++ x)) := rfl
  have h1 : NoBlank [c] := ⟨by simp, by simpa using hs c (by simp)⟩
  rw [e, splitWs_sep (by decide), splitWs_sep (by decide), splitWs_noBlank_self hw, splitWs_noBlank_self h1,
    splitWs_spaced fun d hd => hs d (by simp [hd])]
  rfl

/-! ### Brackets and marks -/

theorem always_tpl (c : Char) (caps : List (Nat × Str)) : expand [c] caps tokAlwaysSplit.2 = [' ', c, ' '] := by
  rfl

theorem always_one {pre rest : Str} {c : Char} (hc : c ∈ alwaysMarks) (hn : rest.head? ≠ some c)
    (h : c = '!' ∨ c = '?' → ∀ d, rest.head? = some d → d ∉ ['.', '?', '!']) :
    tokAlwaysSplit.1.subGo db tokAlwaysSplit.2 pre (c :: rest) =
      [' ', c, ' '] ++ tokAlwaysSplit.1.subGo db tokAlwaysSplit.2 (c :: pre) rest := by
  have := subGo_hit (db := db) (r := tokAlwaysSplit.1) (tpl := tokAlwaysSplit.2) (w := [c]) (pre := pre) (rest := rest) (by simp)
    (always_hit (db := db) (pre := pre) hc hn h) rfl rfl
  rw [always_tpl] at this
  exact this

theorem always_brackets {s : Str} (hs : ∀ c ∈ s, c ∈ openers ∨ c ∈ closers) (hch : s.IsChain (· ≠ ·)) :
    ∀ {pre rest : Str}, (∀ c, s.getLast? = some c → rest.head? ≠ some c) →
    tokAlwaysSplit.1.subGo db tokAlwaysSplit.2 pre (s ++ rest) =
      spaced s ++ tokAlwaysSplit.1.subGo db tokAlwaysSplit.2 (s.reverse ++ pre) rest := by
  induction s with
  | nil => intro pre rest _; rfl
  | cons c s ih =>
    intro pre rest hl
    have hm : c ∈ alwaysMarks ∧ c ≠ '!' ∧ c ≠ '?' := by
      have h1 : ∀ c ∈ openers, c ∈ alwaysMarks ∧ c ≠ '!' ∧ c ≠ '?' := by decide
      have h2 : ∀ c ∈ closers, c ∈ alwaysMarks ∧ c ≠ '!' ∧ c ≠ '?' := by decide
      exact (hs c (by simp)).elim (h1 c) (h2 c)
    rw [List.cons_append, always_one hm.1, ih (fun d hd => hs d (by simp [hd]))]
    · simp [spaced]
    · cases s with
      | nil => exact List.isChain_nil
      | cons d s => exact (List.isChain_cons_cons.mp hch).2
    · intro d hd
      apply hl
      cases s with
      | nil => cases hd
      | cons e s => rw [List.getLast?_cons_cons]; exact hd
    · cases s with
      | nil => exact hl c rfl
      | cons d s =>
        intro e
        simp only [List.cons_append, List.head?_cons, Option.some.injEq] at e
        exact (List.isChain_cons_cons.mp hch).1 e.symm
    · intro h
      rcases h with h | h
      · exact absurd h hm.2.1
      · exact absurd h hm.2.2

theorem always_skip {w pre rest : Str} (hw : ∀ c ∈ w, c ∉ alwaysChars ∧ c ≠ '.') :
    tokAlwaysSplit.1.subGo db tokAlwaysSplit.2 pre (w ++ rest) =
      w ++ tokAlwaysSplit.1.subGo db tokAlwaysSplit.2 (w.reverse ++ pre) rest := by
  apply subGo_skip
  intro u v e hv
  obtain ⟨c, v, rfl⟩ := List.exists_cons_of_ne_nil hv
  obtain ⟨h1, h2⟩ := hw c (by rw [e]; simp)
  exact always_none h1 fun h => absurd h h2

theorem plain_not_always {c : Char} (h : Plain db c ∨ c = '\'' ∨ c = ',') : c ∉ alwaysChars ∧ c ≠ '.' := by
  rcases h with h | rfl | rfl
  · have h1 := plain_not_special (db := db) (.inl h)
    have h2 : ∀ d ∈ alwaysChars, isSpecial d = true := by decide
    constructor
    · intro hm
      rw [h2 c hm] at h1
      cases h1
    · rintro rfl
      exact absurd h1 (by decide)
  · decide
  · decide

/-- The mark, and blanks around it unless it is a comma or a dot. -/
def markOut (m : Str) : Str := if m = [','] ∨ m = ['.'] then m else spaced m

/-- A word after the split at brackets and marks. -/
def alwaysOut (p : Spec.Printed) : Str :=
  spaced p.opening ++ ((p.stem ++ p.tail) ++ (spaced p.inner ++ (markOut p.mark ++ spaced p.outer)))

section
variable {p : Spec.Printed} (h : p.Ordinary db)
include h

theorem Ordinary.core_plain : ∀ c ∈ p.stem ++ p.tail, Plain db c ∨ c = '\'' := by
  intro c hc
  rcases List.mem_append.mp hc with hc | hc
  · exact .inl (h.stem c hc)
  · rcases Ordinary.tail_plain h c hc with h1 | ⟨h1, -⟩
    · exact .inr h1
    · exact .inl h1

theorem Ordinary.always : OnWord db tokAlwaysSplit.1 tokAlwaysSplit.2 p.text (alwaysOut p) := by
  intro pre rest hpre hrest
  have hcl : ∀ c ∈ closers, isSpace c = false ∧ c ∉ marks := by decide
  have edge : ∀ d, rest.head? = some d → isSpace d = true := by
    intro d hd
    rcases hrest with rfl | ⟨e, u, rfl, he⟩
    · cases hd
    · simp only [List.head?_cons, Option.some.injEq] at hd
      exact hd ▸ he
  have e : p.text ++ rest = p.opening ++ ((p.stem ++ p.tail) ++ (p.inner ++ (p.mark ++ (p.outer ++ rest)))) := by
    unfold Spec.Printed.text
    simp
  rw [e, always_brackets (fun c hc => .inl (h.opening c hc)) h.opening_chain, always_skip, always_brackets
    (fun c hc => .inr (h.inner c hc)) h.inner_chain]
  · -- the mark and what comes after it
    have houter : ∀ pre', tokAlwaysSplit.1.subGo db tokAlwaysSplit.2 pre' (p.outer ++ rest) = spaced p.outer ++
        tokAlwaysSplit.1.subGo db tokAlwaysSplit.2 (p.outer.reverse ++ pre') rest := by
      intro pre'
      refine always_brackets (fun c hc => .inr (h.outer c hc)) h.outer_chain ?_
      intro c hc hr
      have h1 := edge c hr
      rw [(hcl c (h.outer c (List.mem_of_getLast? hc))).1] at h1
      cases h1
    have hnext : ∀ d, (p.outer ++ rest).head? = some d → d ∉ marks ∧ d ∉ ['.', '?', '!'] := by
      intro d hd
      have key : d ∉ marks := by
        cases ho : p.outer with
        | nil =>
          rw [ho] at hd
          have h1 := edge d hd
          intro hm
          have : ∀ c ∈ marks, isSpace c = false := by decide
          rw [this d hm] at h1
          cases h1
        | cons c o =>
          rw [ho] at hd
          simp only [List.cons_append, List.head?_cons, Option.some.injEq] at hd
          subst hd
          exact (hcl c (h.outer c (by rw [ho]; simp))).2
      refine ⟨key, fun hm => key ?_⟩
      have : ∀ c ∈ ['.', '?', '!'], c ∈ marks := by decide
      exact this d hm
    have hmark : ∀ pre', tokAlwaysSplit.1.subGo db tokAlwaysSplit.2 pre' (p.mark ++ (p.outer ++ rest)) = markOut p.mark ++
        tokAlwaysSplit.1.subGo db tokAlwaysSplit.2 (p.mark.reverse ++ pre') (p.outer ++ rest) := by
      intro pre'
      have hit : ∀ m : Char, m ∈ alwaysMarks → m ∈ marks → tokAlwaysSplit.1.subGo db tokAlwaysSplit.2 pre' (m :: (p.outer ++ rest)) =
          [' ', m, ' '] ++ tokAlwaysSplit.1.subGo db tokAlwaysSplit.2 (m :: pre') (p.outer ++ rest) := by
        intro m hm hm2
        exact always_one hm (fun hc => (hnext m hc).1 hm2) fun _ d hd => (hnext d hd).2
      have hm := h.mark
      simp only [List.mem_cons, List.not_mem_nil, or_false] at hm
      rcases hm with e | e | e | e | e | e <;> rw [e]
      · rfl
      · exact subGo_skip_one (always_none (by decide) fun h => absurd h (by decide))
      · exact hit ';' (by decide) (by decide)
      · exact hit '!' (by decide) (by decide)
      · exact hit '?' (by decide) (by decide)
      · exact subGo_skip_one (always_none (by decide) fun _ d hd => (hnext d hd).2)
    rw [hmark, houter]
    unfold alwaysOut Spec.Printed.text
    simp
  · intro c hc hn
    have h1 := hcl c (h.inner c (List.mem_of_getLast? hc))
    rcases Ordinary.mark_eq h with e | ⟨m, hm, e⟩
    · rw [e, h.outer_mark e] at hn
      have := edge c hn
      rw [h1.1] at this
      cases this
    · rw [e] at hn
      simp only [List.cons_append, List.head?_cons, Option.some.injEq] at hn
      exact h1.2 (hn ▸ hm)
  · intro c hc
    refine plain_not_always (db := db) ?_
    rcases Ordinary.core_plain h c hc with h1 | h1
    · exact .inl h1
    · exact .inr (.inl h1)
  · intro c hc hn
    obtain ⟨d, s, es⟩ := List.exists_cons_of_ne_nil h.stem_ne
    rw [es] at hn
    simp only [List.cons_append, List.head?_cons, Option.some.injEq] at hn
    have h1 := h.opening c (List.mem_of_getLast? hc)
    have h2 : c ∈ p.stem := by rw [es, hn]; simp
    have : ∀ c ∈ ['(', '[', '{', '"'], c ∈ usedMarks := by decide
    exact Ordinary.stem_not h (this c h1) h2

end

theorem always_blank {pre rest : Str} {c : Char} (hc : isSpace c = true) : tokAlwaysSplit.1.matchAt db pre (c :: rest) = none := by
  apply always_none
  · intro hm
    have : ∀ c ∈ alwaysChars, isSpace c = false := by decide
    rw [this c hm] at hc
    cases hc
  · rintro rfl
    exact absurd hc (by decide)

/-- The words after the split at brackets and marks. -/
def cutAlways (p : Spec.Printed) : List Str :=
  Spec.Printed.singles p.opening ++ ((if p.inner = [] ∧ (p.mark = [','] ∨ p.mark = ['.']) then [p.stem ++ p.tail ++ p.mark]
    else (p.stem ++ p.tail) :: (Spec.Printed.singles p.inner ++ Spec.Printed.singles p.mark)) ++ Spec.Printed.singles p.outer)

section
variable {p : Spec.Printed} (h : p.Ordinary db)
include h

theorem Ordinary.core_noBlank : NoBlank (p.stem ++ p.tail) :=
  ⟨by simp [h.stem_ne], fun c hc => (Ordinary.text_inky h (by
    unfold Spec.Printed.text
    simp only [List.mem_append] at hc ⊢
    rcases hc with hc | hc
    · exact .inr (.inl hc)
    · exact .inr (.inr (.inl hc)))).1⟩

theorem Ordinary.splitWs_always : splitWs (alwaysOut p) = cutAlways p := by
  have ho : ∀ c ∈ p.opening, isSpace c = false := fun c hc => by
    have : ∀ c ∈ ['(', '[', '{', '"'], isSpace c = false := by decide
    exact this c (h.opening c hc)
  have hcl : ∀ c ∈ [')', ']', '}', '"'], isSpace c = false := by decide
  have hi : ∀ c ∈ p.inner, isSpace c = false := fun c hc => hcl c (h.inner c hc)
  have hu : ∀ c ∈ p.outer, isSpace c = false := fun c hc => hcl c (h.outer c hc)
  have hm : ∀ c ∈ p.mark, isSpace c = false := fun c hc => by
    have : ∀ c ∈ marks, isSpace c = false := by decide
    exact this c (Ordinary.mark_sub h c hc)
  have hcore := Ordinary.core_noBlank h
  have hnil : splitWs [] = [] := rfl
  have houter : ∀ w : Str, NoBlank w → splitWs (w ++ spaced p.outer) = w :: Spec.Printed.singles p.outer := by
    intro w hw
    by_cases ho : p.outer = []
    · rw [ho]
      simp [spaced, Spec.Printed.singles, splitWs_noBlank_self hw]
    · have := splitWs_before_spaced hw ho hu []
      simpa [hnil] using this
  have houter0 : splitWs (spaced p.outer) = Spec.Printed.singles p.outer := by
    have := splitWs_spaced hu []
    simpa [hnil] using this
  -- the mark
  have hmark : splitWs (markOut p.mark ++ spaced p.outer) = Spec.Printed.singles p.mark ++ Spec.Printed.singles p.outer := by
    unfold markOut
    split
    · rename_i hmm
      have : Spec.Printed.singles p.mark = [p.mark] := by rcases hmm with e | e <;> rw [e] <;> rfl
      rw [houter _ ⟨by rcases hmm with e | e <;> rw [e] <;> simp, hm⟩, this]
      rfl
    · rw [splitWs_spaced hm, houter0]
  unfold alwaysOut cutAlways
  rw [splitWs_spaced ho]
  congr 1
  by_cases hin : p.inner = []
  · rw [hin]
    by_cases hmm : p.mark = [','] ∨ p.mark = ['.']
    · rw [if_pos ⟨rfl, hmm⟩]
      have e : (p.stem ++ p.tail) ++ (spaced [] ++ (markOut p.mark ++ spaced p.outer)) = (p.stem ++ p.tail ++ p.mark) ++ spaced p.outer := by
        unfold markOut
        rw [if_pos hmm]
        simp [spaced]
      rw [e, houter]
      · rfl
      · refine ⟨by simp [h.stem_ne], fun c hc => ?_⟩
        rcases List.mem_append.mp hc with hc | hc
        · exact hcore.2 c hc
        · exact hm c hc
    · rw [if_neg fun hh => hmm hh.2]
      unfold markOut
      rw [if_neg hmm]
      by_cases hm0 : p.mark = []
      · rw [hm0, h.outer_mark hm0]
        simp [spaced, Spec.Printed.singles, splitWs_noBlank_self hcore]
      · have := splitWs_before_spaced hcore hm0 hm (spaced p.outer)
        rw [houter0] at this
        simpa [spaced, Spec.Printed.singles] using this
  · rw [if_neg fun hh => hin hh.1, splitWs_before_spaced hcore hin hi, hmark]
    simp

end

end Model
