import Verif.Props.Mkn

/-! C117: the words after a context share at most the probability 1. -/

namespace Props
open Py Model

/-- The n-grams that extend a context by one word. -/
def extending (ctx : List Str) (gs : List Ngram) : List Ngram :=
  gs.filter fun g => g.tokens.length = ctx.length + 1 ∧ g.tokens.take ctx.length = ctx

theorem ext_vocab (ctx : List Str) (gs : List Ngram) :
    ext (vocab gs) ctx = (extending ctx gs).map fun g => (g.tokens, g.count) := by
  unfold ext vocab extending
  rw [List.filter_map]
  rfl

/-- **C117**, the formula: what bigrams with the same first word get adds up to at most 1. -/
theorem bigram_mass (s : Store) (N : Nat) (hs : BuilderMade s N) (hN : 2 ≤ N)
    (hrich : ¬ (grams (Dict.values s)).Poor N) (h2 : 0 ≤ (grams (Dict.values s)).D2 2)
    (h3 : 0 ≤ (grams (Dict.values s)).D3 2) (w : Str) :
    ((extending [w] (Dict.values s)).map fun g => (grams (Dict.values s)).pTop g.tokens).sum ≤ 1 := by
  have ok := hs.ok
  obtain ⟨docs, rfl⟩ := hs.docs
  set gs := Dict.values (storeOf (Spec.corpusTexts N docs)) with hgs
  set E := extending [w] gs with hE
  cases hEe : E with
  | nil => simp
  | cons g0 E0 =>
  have hmem : ∀ g ∈ E, g ∈ gs ∧ g.tokens.length = 2 ∧ g.tokens.dropLast = [w] := by
    intro g hg
    obtain ⟨h1, h2⟩ := List.mem_filter.mp hg
    obtain ⟨h2, h3⟩ := of_decide_eq_true h2
    refine ⟨h1, h2, ?_⟩
    rw [List.dropLast_eq_take, h2]
    exact h3
  have hg0 : g0 ∈ E := by rw [hEe]; simp
  obtain ⟨m0, l0, d0⟩ := hmem g0 hg0
  have huni := C24_unigram_distribution _ N hs ⟨g0, m0, l0⟩
  rw [← hgs] at huni
  have hV : grams gs = vocab gs := rfl
  rw [hV] at huni h2 h3 hrich ⊢
  have hwA : ∀ t ∈ [w], Alphabetic t := by
    intro t ht
    rw [← d0] at ht
    exact ok.alph g0 m0 t (List.mem_of_mem_dropLast ht)
  -- the count of the context
  have hctx : join c!" " [w] ∈ Spec.corpusTexts N docs := by
    obtain ⟨c, hc, hct, -⟩ := ok.closed g0 m0 [w] (by rw [← d0]; exact (List.dropLast_prefix _).isInfix) (by simp)
    have h1 := ok.text c hc
    rw [hct] at h1
    rw [← h1]
    rw [hgs, values_storeOf] at hc
    obtain ⟨t, ht, rfl⟩ := List.mem_map.mp hc
    exact mem_distinctInOrder.mp ht
  have hsum : ((E.map Ngram.count).sum : ℕ) ≤ (vocab gs).count [w] := by
    have h1 := sum_ext_le N docs hwA (by simp) (by simpa using hN)
    rw [← hgs, ext_vocab, List.map_map] at h1
    exact h1.trans (le_of_eq (vocab_count_storeOf hwA hctx).symm)
  have hCpos : 0 < (vocab gs).count [w] := by
    have h1 : g0.count ≤ (E.map Ngram.count).sum :=
      List.single_le_sum (by simp) _ (List.mem_map.mpr ⟨g0, hg0, rfl⟩)
    have := ok.count g0 m0
    omega
  have hC : (0 : ℚ) < (vocab gs).count [w] := by exact_mod_cast hCpos
  -- the discounts
  obtain ⟨r1, r2, r3, r4⟩ := rich_iff hrich (Nat.le_refl 2) hN
  obtain ⟨⟨b1, b2⟩, b3, b4⟩ := discount_bounds r1 r2 r3 r4
  have hD : ∀ k : Nat, 1 ≤ k → 0 ≤ (vocab gs).D 2 k ∧ (vocab gs).D 2 k ≤ k := by
    intro k hk
    match k, hk with
    | 1, _ => exact ⟨b1.le, by push_cast; exact b2.le⟩
    | 2, _ => exact ⟨h2, by push_cast; exact b3.le⟩
    | k + 3, _ =>
      refine ⟨h3, ?_⟩
      have : (vocab gs).D 2 (k + 3) = (vocab gs).D3 2 := rfl
      rw [this]
      have hk0 : (0 : ℚ) ≤ k := by positivity
      push_cast
      linarith
  have hback : (vocab gs).backoff 2 [w] = (E.map fun g => (vocab gs).D 2 g.count).sum := by
    rw [backoff_eq (vocab gs) 2 [w] (by
      intro e he
      obtain ⟨g', hg', rfl⟩ := List.mem_map.mp he
      exact ok.count g' hg'), ext_vocab, List.map_map]
    rfl
  set B := (vocab gs).backoff 2 [w] with hB
  have hB0 : 0 ≤ B := by
    rw [hback]
    refine List.sum_nonneg fun x hx => ?_
    obtain ⟨g, hg, rfl⟩ := List.mem_map.mp hx
    exact (hD _ (ok.count g (hmem g hg).1)).1
  -- the lower order probabilities
  have hlow : (E.map fun g => (vocab gs).pCont g.tokens.tail).sum ≤ 1 := by
    have hU : ∀ g ∈ E, ∃ u ∈ ordered gs 1, u.tokens = g.tokens.tail := by
      intro g hg
      obtain ⟨a, b, -⟩ := hmem g hg
      obtain ⟨u, hu, hut, -⟩ := ok.closed g a g.tokens.tail (List.tail_suffix _).isInfix (by
        rw [← List.length_pos_iff, List.length_tail]; omega)
      exact ⟨u, mem_ordered.mpr ⟨hu, by unfold Ngram.order; rw [hut, List.length_tail, b]⟩, hut⟩
    have hnodup : (E.map fun g => g.tokens.tail).Nodup := by
      have h1 : (E.map Ngram.text).Nodup := ok.nodup.sublist ((List.filter_sublist).map _)
      have h2 : E.map Ngram.text = (E.map fun g => g.tokens.tail).map fun t => join c!" " (w :: t) := by
        rw [List.map_map]
        refine List.map_congr_left fun g hg => ?_
        obtain ⟨a, b, c⟩ := hmem g hg
        rw [ok.text g a]
        show _ = join c!" " (w :: g.tokens.tail)
        congr 1
        match hgt : g.tokens, b with
        | [x, y], _ => rw [hgt] at c; simp at c; simp [c]
      rw [h2] at h1
      exact List.Nodup.of_map _ h1
    have hsub : (E.map fun g => g.tokens.tail).Subperm ((ordered gs 1).map Ngram.tokens) := by
      refine List.subperm_of_subset hnodup fun t ht => ?_
      obtain ⟨g, hg, rfl⟩ := List.mem_map.mp ht
      obtain ⟨u, hu, hut⟩ := hU g hg
      exact List.mem_map.mpr ⟨u, hu, hut⟩
    obtain ⟨l, hl1, hl2⟩ := hsub
    have e1 : (E.map fun g => (vocab gs).pCont g.tokens.tail).sum = (l.map (vocab gs).pCont).sum := by
      rw [(hl1.map _).sum_eq, List.map_map]
      rfl
    have hnn : ∀ x ∈ ((ordered gs 1).map Ngram.tokens).map (vocab gs).pCont, 0 ≤ x := by
      intro x hx
      rw [List.map_map] at hx
      obtain ⟨u, hu, rfl⟩ := List.mem_map.mp hx
      obtain ⟨a, b⟩ := mem_ordered.mp hu
      exact (huni.1 u a b).1
    rw [e1, ← huni.2]
    have e2 : ((gs.filter fun g => g.order = 1).map fun g => (vocab gs).pCont g.tokens) =
        ((ordered gs 1).map Ngram.tokens).map (vocab gs).pCont := by
      rw [List.map_map]
      rfl
    rw [e2]
    exact (hl2.map _).sum_le_sum hnn
  -- the sum
  have hp : ∀ g ∈ E, (vocab gs).pTop g.tokens =
      ((g.count : ℚ) - (vocab gs).D 2 g.count + B * (vocab gs).pCont g.tokens.tail) / (vocab gs).count [w] := by
    intro g hg
    obtain ⟨a, b, c⟩ := hmem g hg
    unfold Spec.Vocab.pTop
    rw [vocab_count ok a, b, c, max_eq_left (by have := (hD _ (ok.count g a)).2; linarith), add_div, ← hB]
    ring
  have hsplit : ∀ l : List Ngram, (l.map fun g =>
      ((g.count : ℚ) - (vocab gs).D 2 g.count + B * (vocab gs).pCont g.tokens.tail) / (vocab gs).count [w]).sum =
      (((l.map Ngram.count).sum : ℕ) - (l.map fun g => (vocab gs).D 2 g.count).sum +
        B * (l.map fun g => (vocab gs).pCont g.tokens.tail).sum) / (vocab gs).count [w] := by
    intro l
    induction l with
    | nil => simp
    | cons g l ih =>
      rw [List.map_cons, List.sum_cons, ih]
      simp only [List.map_cons, List.sum_cons]
      push_cast
      ring
  rw [← hEe, List.map_congr_left hp, hsplit, ← hback, div_le_one hC]
  have h1 : (((E.map Ngram.count).sum : ℕ) : ℚ) ≤ (vocab gs).count [w] := by exact_mod_cast hsum
  have h2 := mul_le_of_le_one_right hB0 hlow
  linarith

/-- The probability that was assigned to an n-gram, 0 when there is none. -/
def assigned (g : Ngram) : ℚ := (g.proba.bind id).getD 0

theorem extending_map (ctx : List Str) (gs : List Ngram) (f : Ngram → Option (Option ℚ)) :
    extending ctx (gs.map fun g => { g with proba := f g }) = (extending ctx gs).map fun g => { g with proba := f g } := by
  unfold extending
  rw [List.filter_map]
  rfl

/-- **C117** (partial: contexts of one word, and the second and third discounts of order 2 are not negative). The
probabilities that the smoother assigns to the bigrams with the same first word are not negative and add up to at most 1.
Full claim (false, see below): the same for the n-grams of any order with the same words but the last. -/
theorem C117_next_words_partial (R : Rounding) (s : Store) (N nb : Nat) (hs : BuilderMade s N) (hN : 2 ≤ N)
    (hrich : ¬ (grams (Dict.values s)).Poor N) (hb : 1 ≤ nb) (hnb : nb ≤ 2 ^ 53)
    (hlen : (Dict.values s).length ≤ 2 ^ 53) (h2 : 0 ≤ (grams (Dict.values s)).D2 2)
    (h3 : 0 ≤ (grams (Dict.values s)).D3 2) :
    Spec.Returns (mknSmooth R (Dict.values s) N nb) fun out => ∀ w : Str,
      (∀ g ∈ extending [w] ((Dict.get? out 2).getD []), 0 ≤ assigned g) ∧
      ((extending [w] ((Dict.get? out 2).getD [])).map assigned).sum ≤ 1 := by
  refine Returns.mono (C25_mkn_formula R s N nb hs hN hrich hb hnb hlen) fun out h w => ?_
  rw [h 2]
  simp only [show ¬ (2 : Nat) = 1 by decide, if_false]
  rw [extending_map]
  have he : extending [w] ((Dict.values s).filter fun g => g.order = 2) = extending [w] (Dict.values s) := by
    unfold extending
    rw [List.filter_filter]
    refine List.filter_congr fun g _ => ?_
    rw [Bool.eq_iff_iff]
    simp only [Bool.and_eq_true, decide_eq_true_eq, List.length_singleton]
    unfold Ngram.order
    tauto
  rw [he, List.map_map]
  constructor
  · intro g hg
    obtain ⟨g', hg', rfl⟩ := List.mem_map.mp hg
    obtain ⟨a, b⟩ := List.mem_filter.mp hg'
    exact (C26_bigrams_partial s N hs hN hrich h2 h3 g' a (of_decide_eq_true b).1).1
  · exact bigram_mass s N hs hN hrich h2 h3 w

/-- **C117** is false for longer contexts, although all discounts are positive: the trigrams that begin with `a a` get
more than 3 together. -/
theorem C117_longer_contexts_false : BuilderMade trigramStore 3 ∧
    (∀ o ∈ [2, 3], 0 < (grams (Dict.values trigramStore)).D2 o ∧ 0 < (grams (Dict.values trigramStore)).D3 o) ∧
    ∀ (R : Rounding) (nb : Nat), 1 ≤ nb → nb ≤ 2 ^ 53 →
    Spec.Returns (mknSmooth R (Dict.values trigramStore) 3 nb) fun out =>
      ((extending [c!"a", c!"a"] ((Dict.get? out 3).getD [])).map assigned).sum = 2017 / 600 := by
  refine ⟨trigramStore_made, by decide +kernel, fun R nb hb hnb => ?_⟩
  refine Returns.mono (C25_mkn_formula R trigramStore 3 nb trigramStore_made (by decide) (by decide +kernel) hb hnb
    (by decide +kernel)) fun out h => ?_
  rw [h 3]
  simp only [show ¬ (3 : Nat) = 1 by decide, if_false]
  decide +kernel

/-- **C117** is false for bigrams when a discount is negative. -/
theorem C117_negative_discount_false : BuilderMade demoStore 2 ∧ ∀ (R : Rounding) (nb : Nat), 1 ≤ nb → nb ≤ 2 ^ 53 →
    Spec.Returns (mknSmooth R (Dict.values demoStore) 2 nb) fun out =>
      ((extending [c!"g"] ((Dict.get? out 2).getD [])).map assigned).sum = 3 / 2 := by
  refine ⟨demoStore_made, fun R nb hb hnb => ?_⟩
  refine Returns.mono (C25_mkn_formula R demoStore 2 nb demoStore_made (by decide) (by decide +kernel) hb hnb
    (by decide +kernel)) fun out h => ?_
  rw [h 2]
  simp only [show ¬ (2 : Nat) = 1 by decide, if_false]
  decide +kernel

/-- The hypotheses of `C117_next_words_partial` are met by the corpus of order 3. -/
example : ¬ (grams (Dict.values trigramStore)).Poor 3 ∧ (Dict.values trigramStore).length ≤ 2 ^ 53 ∧
    0 ≤ (grams (Dict.values trigramStore)).D2 2 ∧ 0 ≤ (grams (Dict.values trigramStore)).D3 2 := by decide +kernel
example : (extending [c!"a"] (Dict.values trigramStore)).map Ngram.text = [c!"a a", c!"a d", c!"a b"] := by decide +kernel
example : (extending [c!"a"] (Dict.values trigramStore)).map (fun g => (grams (Dict.values trigramStore)).pTop g.tokens) =
    [11 / 80, 133 / 400, 173 / 400] := by decide +kernel

end Props
