import Verif.Lemmas.MknBounds

/-! C22–C26: modified Kneser-Ney smoothing. -/

namespace Props
open Py Model

/-- The n-grams (words) and counts of a list of `Ngram` objects. -/
def grams (gs : List Ngram) : Spec.Vocab := gs.map fun g => (g.tokens, g.count)

/-- A store the builder made from some texts, with n-grams up to order `N`. -/
def BuilderMade (s : Store) (N : Nat) : Prop :=
  ∃ (T : Type) (sentencize : T → Except PyErr (List (List Str))) (iter : List T) (p fuel : Nat),
    1 ≤ p ∧ iter.length / p < fuel ∧ readTexts sentencize N p fuel iter [] = .ok (some s)

theorem BuilderMade.docs {s : Store} {N : Nat} (h : BuilderMade s N) : ∃ docs, s = storeOf (Spec.corpusTexts N docs) := by
  obtain ⟨T, sz, iter, p, fuel, hp, hf, hs⟩ := h
  exact builder_store hp hf hs

theorem BuilderMade.ok {s : Store} {N : Nat} (h : BuilderMade s N) : GramsOk (Dict.values s) N := by
  obtain ⟨docs, rfl⟩ := h.docs
  exact storeOf_gramsOk N docs

/-- C22: the smoother refuses the data exactly when some order lacks n-grams of count 1, 2, 3 or 4, whatever the
n-grams; it then raises the dedicated error and no other. -/
theorem C22_not_enough_data (gs : List Ngram) (N : Nat) :
    ((grams gs).Poor N ↔ mknInit gs N = .error .notEnoughData) ∧
    (¬ (grams gs).Poor N → ∃ m, mknInit gs N = .ok m) := by
  have hv : grams gs = vocab gs := rfl
  rw [hv]
  have h1 : (vocab gs).Poor N → mknInit gs N = .error .notEnoughData := by
    intro h
    unfold mknInit
    simp only [mknAllDiscounts_poor h, bind, Except.bind]
  have h2 : ¬ (vocab gs).Poor N → ∃ m, mknInit gs N = .ok m := by
    intro h
    obtain ⟨m, hm, _⟩ := mknInit_rich h
    exact ⟨m, hm⟩
  refine ⟨⟨h1, ?_⟩, h2⟩
  intro h
  by_contra hn
  obtain ⟨m, hm⟩ := h2 hn
  rw [hm] at h
  cases h

/-- C22: otherwise the discounts used for an order are the three values of Chen and Goodman, the divisions are by
non-zero numbers, and `0 < d1 < 1`, `d2 < 2`, `d3 < 3`. -/
theorem C22_discounts (gs : List Ngram) (N : Nat) (h : ¬ (grams gs).Poor N) (o : Nat) (h1 : 2 ≤ o) (h2 : o ≤ N) :
    (∃ m, mknInit gs N = .ok m ∧ ∀ c, m.discount o c = .ok ((grams gs).D o c)) ∧
    (∀ c, 1 ≤ c → c ≤ 4 → (grams gs).nCount o c ≠ 0) ∧
    (0 < (grams gs).D1 o ∧ (grams gs).D1 o < 1) ∧ (grams gs).D2 o < 2 ∧ (grams gs).D3 o < 3 := by
  obtain ⟨a, b, c, d⟩ := rich_iff h h1 h2
  refine ⟨?_, ?_, discount_bounds a b c d⟩
  · obtain ⟨m, hm, _, _, hd, _⟩ := mknInit_rich (gs := gs) h
    exact ⟨m, hm, fun c => discount_eq hd h1 h2 c⟩
  · intro k hk1 hk2
    rcases (by omega : k = 1 ∨ k = 2 ∨ k = 3 ∨ k = 4) with rfl | rfl | rfl | rfl <;> assumption

/-- A rich store of order 2. -/
def demoCorpus : List (List (List Str)) :=
  [[[c!"a", c!"b"], [c!"c", c!"d"], [c!"c", c!"d"], [c!"e", c!"f"], [c!"e", c!"f"], [c!"e", c!"f"]] ++
   List.replicate 4 [c!"g", c!"h"] ++ List.replicate 4 [c!"i", c!"j"] ++ List.replicate 4 [c!"k", c!"l"] ++
   List.replicate 4 [c!"m", c!"n"]]

/-- Its n-grams. -/
def demoStore : Store := storeOf (Spec.corpusTexts 2 demoCorpus)

theorem demoStore_made : BuilderMade demoStore 2 := by
  refine ⟨List (List Str), fun d => .ok d, demoCorpus, 1, 2, by decide, by decide, ?_⟩
  have h := readTexts_eq (fun d : List (List Str) => .ok d) 2 1 (by decide) 2 demoCorpus [] (by decide)
  exact h

instance (V : Spec.Vocab) (N : Nat) : Decidable (V.Poor N) :=
  decidable_of_iff _ (poor_iff V N).symm

example : ¬ (grams (Dict.values demoStore)).Poor 2 := by decide +kernel
example : (grams [{ text := c!"a b", count := 2 }]).Poor 2 := by decide +kernel

/-- C23: the counters filled by the smoother are numbers of distinct stored n-grams matching a pattern: `• w…`,
`• w… •`, and `w… •` with count 1, 2 or at least 3. -/
theorem C23_wildcard_counts (s : Store) (N : Nat) (hs : BuilderMade s N) (ts : List Str) (hts : ts ≠ [])
    (ha : ∀ t ∈ ts, t ≠ [] ∧ ∀ c ∈ t, c.isAlpha = true) (m : Mkn) (hm : mknInit (Dict.values s) N = .ok m) :
    Counter.get0 m.counts.wcs (join c!" " (c!"•" :: ts)) =
      (grams (Dict.values s)).countP (fun e => e.1.length = ts.length + 1 ∧ e.1.drop 1 = ts) ∧
    Counter.get0 m.counts.wcs (join c!" " (c!"•" :: ts ++ [c!"•"])) =
      (grams (Dict.values s)).countP (fun e => e.1.length = ts.length + 2 ∧ (e.1.drop 1).take ts.length = ts) ∧
    Counter.get0 m.counts.wc1 (join c!" " (ts ++ [c!"•"])) = (grams (Dict.values s)).countP
      (fun e => e.1.length = ts.length + 1 ∧ e.1.take ts.length = ts ∧ e.2 = 1) ∧
    Counter.get0 m.counts.wc2 (join c!" " (ts ++ [c!"•"])) = (grams (Dict.values s)).countP
      (fun e => e.1.length = ts.length + 1 ∧ e.1.take ts.length = ts ∧ e.2 = 2) ∧
    Counter.get0 m.counts.wc3 (join c!" " (ts ++ [c!"•"])) = (grams (Dict.values s)).countP
      (fun e => e.1.length = ts.length + 1 ∧ e.1.take ts.length = ts ∧ 3 ≤ e.2) := by
  have ok := hs.ok
  have hc : m.counts = (Dict.values s).foldl mknCount {} := by
    have hrich : ¬ (vocab (Dict.values s)).Poor N := by
      intro h
      rw [(C22_not_enough_data (Dict.values s) N).1.mp h] at hm
      cases hm
    obtain ⟨m', hm', h, _⟩ := mknInit_rich hrich
    rw [hm] at hm'
    cases hm'
    exact h
  rw [hc]
  refine ⟨before_eq ok hts ha, around_eq ok hts ha, ?_, ?_, ?_⟩
  · rw [wc1_eq ok hts ha]
    unfold Spec.Vocab.after
    simp only [beq_iff_eq]
    rfl
  · rw [wc2_eq ok hts ha]
    unfold Spec.Vocab.after
    simp only [beq_iff_eq]
    rfl
  · rw [wc3_eq ok hts ha]
    unfold Spec.Vocab.after
    apply List.countP_congr
    intro e he
    obtain ⟨g, hg, rfl⟩ := List.mem_map.mp he
    have := ok.count g hg
    simp only [decide_eq_true_eq]
    constructor
    · rintro ⟨a, b, c⟩; exact ⟨a, b, by omega⟩
    · rintro ⟨a, b, c⟩; exact ⟨a, b, by omega⟩

example : BuilderMade demoStore 2 ∧ ∃ m, mknInit (Dict.values demoStore) 2 = .ok m ∧
    Counter.get0 m.counts.wcs c!"• h" = 1 ∧ Counter.get0 m.counts.wc3 c!"g •" = 1 := by
  refine ⟨demoStore_made, ?_⟩
  have : ∃ m, mknInit (Dict.values demoStore) 2 = .ok m := (C22_not_enough_data _ _).2 (by decide +kernel)
  obtain ⟨m, hm⟩ := this
  refine ⟨m, hm, ?_⟩
  have h1 := C23_wildcard_counts demoStore 2 demoStore_made [c!"h"] (by decide) (by decide) m hm
  have h2 := C23_wildcard_counts demoStore 2 demoStore_made [c!"g"] (by decide) (by decide) m hm
  refine ⟨h1.1.trans ?_, h2.2.2.2.2.trans ?_⟩ <;> decide +kernel

/-- C25: on rich data of the builder the smoother never raises, whatever the schedules, can always return, and gives
unigrams their continuation probability and every n-gram of a higher order the interpolated formula, keeping the
order, texts and counts of the n-grams. Nothing depends on `nb` or on the schedules. -/
theorem C25_mkn_formula (R : Rounding) (s : Store) (N nb : Nat) (hs : BuilderMade s N) (hN : 2 ≤ N)
    (hrich : ¬ (grams (Dict.values s)).Poor N) (hb : 1 ≤ nb) (hnb : nb ≤ 2 ^ 53)
    (hlen : (Dict.values s).length ≤ 2 ^ 53) :
    Spec.Returns (mknSmooth R (Dict.values s) N nb) fun out => ∀ o, (Dict.get? out o).getD [] =
      ((Dict.values s).filter fun g => g.order = o).map fun g => { g with proba := some (some
        (if o = 1 then (grams (Dict.values s)).pCont g.tokens else (grams (Dict.values s)).pTop g.tokens)) } :=
  mknSmooth_spec hs.ok R nb hb hnb hlen hN hrich

example : BuilderMade demoStore 2 ∧ ¬ (grams (Dict.values demoStore)).Poor 2 ∧
    (Dict.values demoStore).length ≤ 2 ^ 53 := ⟨demoStore_made, by decide +kernel, by decide +kernel⟩

/-- Values of the formula on the demonstration store. -/
example : (grams (Dict.values demoStore)).pTop [c!"a", c!"b"] = 5 / 7 ∧
    (grams (Dict.values demoStore)).pCont [c!"b"] = 1 / 7 := by decide +kernel

/-- C24: the continuation probabilities assigned to unigrams lie between 0 and 1 and sum to 1. -/
theorem C24_unigram_distribution (s : Store) (N : Nat) (hs : BuilderMade s N)
    (hbi : ∃ g ∈ Dict.values s, g.order = 2) :
    (∀ g ∈ Dict.values s, g.order = 1 → 0 ≤ (grams (Dict.values s)).pCont g.tokens ∧
      (grams (Dict.values s)).pCont g.tokens ≤ 1) ∧
    (((Dict.values s).filter fun g => g.order = 1).map fun g => (grams (Dict.values s)).pCont g.tokens).sum = 1 := by
  have ok := hs.ok
  set gs := Dict.values s with hgs
  have hV : grams gs = vocab gs := rfl
  rw [hV]
  have htypes : 0 < (vocab gs).types 2 := by
    obtain ⟨g, hg, ho⟩ := hbi
    rw [types_eq]
    exact List.length_pos_iff.mpr (List.ne_nil_of_mem (mem_ordered.mpr ⟨hg, ho⟩))
  have hT : (0 : ℚ) < (vocab gs).types 2 := by exact_mod_cast htypes
  have hcont : ∀ g ∈ gs, g.order = 1 → (vocab gs).pCont g.tokens = (vocab gs).before g.tokens / (vocab gs).types 2 := by
    intro g _ ho
    obtain ⟨w, hw⟩ := List.length_eq_one_iff.mp ho
    rw [hw, Spec.Vocab.pCont]
  constructor
  · intro g hg ho
    rw [hcont g hg ho]
    refine ⟨by positivity, ?_⟩
    rw [div_le_one hT]
    have : (vocab gs).before g.tokens ≤ (vocab gs).types 2 := by
      unfold Spec.Vocab.before Spec.Vocab.types
      apply List.countP_mono_left
      intro e _ he
      rw [decide_eq_true_eq] at he ⊢
      have : g.tokens.length = 1 := ho
      omega
    exact_mod_cast this
  · have hsum := sum_before (ordered gs 1) (by
        have h1 : ((ordered gs 1).map Ngram.text).Nodup := ok.nodup.sublist ((List.filter_sublist).map _)
        have h2 : (ordered gs 1).map Ngram.text = (ordered gs 1).map (fun g => join c!" " g.tokens) :=
          List.map_congr_left fun g hg => ok.text g (mem_ordered.mp hg).1
        rw [h2] at h1
        exact List.Nodup.of_map (join c!" ") (by rw [List.map_map]; exact h1)) (vocab gs)
      (by
        intro e he hl
        obtain ⟨g, hg, rfl⟩ := List.mem_map.mp he
        obtain ⟨u, hu, hut, _⟩ := ok.closed g hg (g.tokens.drop 1) (List.drop_suffix _ _).isInfix (by
          rw [← List.length_pos_iff, List.length_drop]; simp only at hl; omega)
        refine ⟨u, mem_ordered.mpr ⟨hu, ?_⟩, hut⟩
        unfold Ngram.order
        rw [hut, List.length_drop]
        simp only at hl
        omega)
      (fun u hu => (mem_ordered.mp hu).2)
    have : ((gs.filter fun g => g.order = 1).map fun g => (vocab gs).pCont g.tokens) =
        (ordered gs 1).map fun g => ((vocab gs).before g.tokens : ℚ) / (vocab gs).types 2 :=
      List.map_congr_left fun g hg => hcont g (mem_ordered.mp hg).1 (mem_ordered.mp hg).2
    rw [this]
    have hdiv : ∀ (l : List Ngram) (T : ℚ), (l.map fun g => ((vocab gs).before g.tokens : ℚ) / T).sum =
        ((l.map fun g => (vocab gs).before g.tokens).sum : ℕ) / T := by
      intro l T
      induction l with
      | nil => simp
      | cons g l ih => rw [List.map_cons, List.sum_cons, ih]; push_cast [List.map_cons, List.sum_cons]; ring
    rw [hdiv, hsum]
    exact div_self (ne_of_gt hT)

example : ∃ g ∈ Dict.values demoStore, g.order = 2 := by decide +kernel

theorem Returns.mono {α} {call : (Nat → List Move) → Except PyErr (Option α)} {P Q : α → Prop}
    (h : Spec.Returns call P) (hPQ : ∀ a, P a → Q a) : Spec.Returns call Q :=
  ⟨fun sched => (h.1 sched).imp id fun ⟨a, h1, h2⟩ => ⟨a, h1, hPQ a h2⟩, h.2⟩

/-- The value assigned to one n-gram of an order at least 2. -/
theorem C25_mkn_value (R : Rounding) (s : Store) (N nb : Nat) (hs : BuilderMade s N) (hN : 2 ≤ N)
    (hrich : ¬ (grams (Dict.values s)).Poor N) (hb : 1 ≤ nb) (hnb : nb ≤ 2 ^ 53)
    (hlen : (Dict.values s).length ≤ 2 ^ 53) (g : Ngram) (hg : g ∈ Dict.values s) (ho : 2 ≤ g.order) :
    Spec.Returns (mknSmooth R (Dict.values s) N nb) fun out => ∃ g' ∈ (Dict.get? out g.order).getD [],
      g'.text = g.text ∧ g'.count = g.count ∧ g'.proba = some (some ((grams (Dict.values s)).pTop g.tokens)) := by
  refine Returns.mono (C25_mkn_formula R s N nb hs hN hrich hb hnb hlen) fun out h => ?_
  rw [h g.order]
  simp only [if_neg (show ¬ g.order = 1 by omega)]
  exact ⟨_, List.mem_map.mpr ⟨g, List.mem_filter.mpr ⟨hg, by simp⟩, rfl⟩, rfl, rfl, rfl⟩

/-- C26 is false of the code: with a negative third discount the smoother gives a bigram probability 3/2. -/
theorem C26_probabilities_false : BuilderMade demoStore 2 ∧ ∀ (R : Rounding) (nb : Nat), 1 ≤ nb → nb ≤ 2 ^ 53 →
    Spec.Returns (mknSmooth R (Dict.values demoStore) 2 nb) fun out => ∃ g ∈ (Dict.get? out 2).getD [],
      g.text = c!"g h" ∧ g.proba = some (some (3 / 2)) := by
  refine ⟨demoStore_made, fun R nb hb hnb => ?_⟩
  refine Returns.mono (C25_mkn_value R demoStore 2 nb demoStore_made (by decide) (by decide +kernel) hb hnb
    (by decide +kernel) { text := c!"g h", count := 4 } (by decide +kernel) (by decide +kernel)) fun out => ?_
  have h1 : Ngram.order { text := c!"g h", count := 4 } = 2 := by decide +kernel
  have h2 : (grams (Dict.values demoStore)).pTop (Ngram.tokens { text := c!"g h", count := 4 }) = 3 / 2 := by
    decide +kernel
  rw [h1, h2]
  rintro ⟨g, hg, a, _, b⟩
  exact ⟨g, hg, a, b⟩

/-- A corpus of order 3. -/
def trigramCorpus : List (List (List Str)) :=
  [List.replicate 3 [c!"a", c!"a", c!"d", c!"b"] ++ List.replicate 2 [c!"b", c!"c", c!"b"] ++
    List.replicate 2 [c!"a", c!"b", c!"d", c!"b"] ++ List.replicate 2 [c!"b", c!"d", c!"b"] ++
    [[c!"b", c!"d", c!"d"]] ++ List.replicate 2 [c!"a", c!"b"]]

/-- Its n-grams. -/
def trigramStore : Store := storeOf (Spec.corpusTexts 3 trigramCorpus)

theorem trigramStore_made : BuilderMade trigramStore 3 := by
  refine ⟨List (List Str), fun d => .ok d, trigramCorpus, 1, 2, by decide, by decide, ?_⟩
  exact readTexts_eq (fun d : List (List Str) => .ok d) 3 1 (by decide) 2 trigramCorpus [] (by decide)

/-- C26 is false even when all discounts are positive: the lower order backoff weight mixes raw counts with
continuation counts, and a trigram gets a probability above 3. -/
theorem C26_positive_discounts_false : BuilderMade trigramStore 3 ∧
    (∀ o ∈ [2, 3], 0 < (grams (Dict.values trigramStore)).D2 o ∧ 0 < (grams (Dict.values trigramStore)).D3 o) ∧
    ∀ (R : Rounding) (nb : Nat), 1 ≤ nb → nb ≤ 2 ^ 53 →
    Spec.Returns (mknSmooth R (Dict.values trigramStore) 3 nb) fun out => ∃ g ∈ (Dict.get? out 3).getD [],
      g.text = c!"a a d" ∧ g.proba = some (some (2017 / 600)) := by
  refine ⟨trigramStore_made, by decide +kernel, fun R nb hb hnb => ?_⟩
  refine Returns.mono (C25_mkn_value R trigramStore 3 nb trigramStore_made (by decide) (by decide +kernel) hb hnb
    (by decide +kernel) { text := c!"a a d", count := 3 } (by decide +kernel) (by decide +kernel)) fun out => ?_
  have h1 : Ngram.order { text := c!"a a d", count := 3 } = 3 := by decide +kernel
  have h2 : (grams (Dict.values trigramStore)).pTop (Ngram.tokens { text := c!"a a d", count := 3 }) = 2017 / 600 := by
    decide +kernel
  rw [h1, h2]
  rintro ⟨g, hg, a, _, b⟩
  exact ⟨g, hg, a, b⟩

/-- C26, the part that holds: unigrams always (C24), and bigrams when the second and third discounts of order 2 are
not negative. Full claim: every probability assigned by the smoother is between 0 and 1. -/
theorem C26_bigrams_partial (s : Store) (N : Nat) (hs : BuilderMade s N) (hN : 2 ≤ N)
    (hrich : ¬ (grams (Dict.values s)).Poor N) (h2 : 0 ≤ (grams (Dict.values s)).D2 2)
    (h3 : 0 ≤ (grams (Dict.values s)).D3 2) (g : Ngram) (hg : g ∈ Dict.values s) (ho : g.order = 2) :
    0 ≤ (grams (Dict.values s)).pTop g.tokens ∧ (grams (Dict.values s)).pTop g.tokens ≤ 1 := by
  have ok := hs.ok
  have huni := (C24_unigram_distribution s N hs ⟨g, hg, ho⟩).1
  have hlen : g.tokens.length = 2 := ho
  obtain ⟨docs, rfl⟩ := hs.docs
  set gs := Dict.values (storeOf (Spec.corpusTexts N docs)) with hgs
  have hA := ok.alph g hg
  have hctx : g.tokens.dropLast ≠ [] := dropLast_ne_nil (by omega)
  have hctxA : ∀ t ∈ g.tokens.dropLast, Alphabetic t := fun t ht => hA t (List.mem_of_mem_dropLast ht)
  obtain ⟨c, hc, hct, _⟩ := ok.closed g hg g.tokens.dropLast (List.dropLast_prefix _).isInfix hctx
  obtain ⟨r1, r2, r3, r4⟩ := rich_iff hrich (Nat.le_refl 2) hN
  obtain ⟨⟨b1, b2⟩, b3, b4⟩ := discount_bounds r1 r2 r3 r4
  refine pTop_bounds (c := g.count) ?_ (List.mem_map.mpr ⟨g, hg, rfl⟩) (vocab_count ok hg) (by omega) ?_ ?_ ?_
  · intro e he
    obtain ⟨g', hg', rfl⟩ := List.mem_map.mp he
    exact ok.count g' hg'
  · have hmem : join c!" " g.tokens.dropLast ∈ Spec.corpusTexts N docs := by
      have h1 := ok.text c hc
      rw [hct] at h1
      rw [← h1]
      rw [hgs, values_storeOf] at hc
      obtain ⟨t, ht, rfl⟩ := List.mem_map.mp hc
      exact mem_distinctInOrder.mp ht
    have h1 := sum_ext_le N docs hctxA hctx (by rw [List.length_dropLast]; omega)
    have h2 := vocab_count_storeOf hctxA hmem
    exact le_trans h1 (le_of_eq h2.symm)
  · rw [hlen]
    intro k hk
    match k, hk with
    | 1, _ => exact ⟨b1.le, by push_cast; exact b2.le⟩
    | 2, _ => exact ⟨h2, by push_cast; exact b3.le⟩
    | k + 3, _ =>
      refine ⟨h3, ?_⟩
      have : (grams gs).D 2 (k + 3) = (grams gs).D3 2 := rfl
      rw [this]
      have hk0 : (0 : ℚ) ≤ k := by positivity
      push_cast
      linarith
  · obtain ⟨u, hu, hut, _⟩ := ok.closed g hg g.tokens.tail (List.tail_suffix _).isInfix (by
      rw [← List.length_pos_iff, List.length_tail]; omega)
    have := huni u hu (by unfold Ngram.order; rw [hut, List.length_tail]; omega)
    rw [hut] at this
    exact this

example : 0 ≤ (grams (Dict.values trigramStore)).D2 2 ∧ 0 ≤ (grams (Dict.values trigramStore)).D3 2 := by decide +kernel

end Props
