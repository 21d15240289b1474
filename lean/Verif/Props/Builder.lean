import Verif.Lemmas.Builder

/-! C92: building a language model and loading it. -/

namespace Props
open Py Model

/-- **C92.** The constructor: `ArgumentValueError` for an unknown method, `ModifiedKneserNeyMinOrderError` for modified
Kneser-Ney smoothing below order 2, and otherwise a builder with these settings. -/
theorem C92_constructor (maxOrder nbProcesses : Int) (smoothing : Str) :
    (Builder.new maxOrder smoothing nbProcesses = .error .argumentValue ↔
      smoothing ≠ c!"modified_kneser_ney" ∧ smoothing ≠ c!"maximum_likelihood_estimation") ∧
    (Builder.new maxOrder smoothing nbProcesses = .error .minOrder ↔
      smoothing = c!"modified_kneser_ney" ∧ maxOrder < 2) ∧
    (smoothing = c!"modified_kneser_ney" → 2 ≤ maxOrder →
      Builder.new maxOrder smoothing nbProcesses = .ok ⟨maxOrder.toNat, .mkn, nbProcesses.toNat⟩) ∧
    (smoothing = c!"maximum_likelihood_estimation" →
      Builder.new maxOrder smoothing nbProcesses = .ok ⟨maxOrder.toNat, .mle, nbProcesses.toNat⟩) := by
  have hne : c!"maximum_likelihood_estimation" ≠ c!"modified_kneser_ney" := by decide
  have hm : smoothing ∉ smoothingMethods ↔
      smoothing ≠ c!"modified_kneser_ney" ∧ smoothing ≠ c!"maximum_likelihood_estimation" := by
    unfold smoothingMethods
    simp only [List.mem_cons, List.not_mem_nil, or_false, not_or]
  unfold Builder.new
  simp only [hm]
  by_cases h1 : smoothing = c!"modified_kneser_ney"
  · subst h1
    by_cases h2 : maxOrder < 2
    · simp [h2]
    · simp [h2]
  · by_cases h2 : smoothing = c!"maximum_likelihood_estimation"
    · subst h2
      simp [hne]
    · simp [h1, h2]

section
variable {T : Type} (R : Rounding) (log : ℚ → ℚ) (sentencize : T → Except PyErr (List (List Str)))

theorem shorter_orders {N : Nat} {docs : List (List (List Str))} (h : Spec.orderTexts N docs ≠ []) (hN : 1 ≤ N) (o : Nat)
    (h1 : 1 ≤ o) (h2 : o ≤ N) : ∃ g ∈ Dict.values (storeOf (Spec.corpusTexts N docs)), g.order = o := by
  obtain ⟨t, ht⟩ := List.exists_mem_of_ne_nil _ h
  have hg := (ofOrder_mem hN le_rfl ⟨t, (Spec.orderTexts N docs).count t, none⟩).mpr ⟨ht, rfl⟩
  obtain ⟨hg1, hg2⟩ := List.mem_filter.mp hg
  have hg2 : (splitWs t).length = N := of_decide_eq_true hg2
  obtain ⟨g', hg', he, -⟩ := (storeOf_gramsOk N docs).closed _ hg1 ((splitWs t).take o) (List.take_prefix _ _).isInfix (by
    intro e
    have := congrArg List.length e
    rw [List.length_take, hg2] at this
    simp at this
    omega)
  refine ⟨g', hg', ?_⟩
  unfold Ngram.order
  rw [he, List.length_take, hg2]
  omega

theorem storeValues_length (N : Nat) (docs : List (List (List Str))) :
    (Dict.values (storeOf (Spec.corpusTexts N docs))).length ≤ (Spec.corpusTexts N docs).length := by
  rw [values_storeOf, List.length_map]
  unfold Spec.distinctInOrder
  rw [List.length_reverse]
  exact (List.dedup_sublist _).length_le.trans (by simp)

theorem orderTexts_length_le {N o : Nat} (h1 : 1 ≤ o) (h2 : o ≤ N) (docs : List (List (List Str))) :
    (Spec.orderTexts o docs).length ≤ (Spec.corpusTexts N docs).length := by
  unfold Spec.orderTexts Spec.corpusTexts
  rw [List.length_flatMap, List.length_flatMap]
  refine List.sum_le_sum fun d _ => ?_
  rw [List.length_flatMap]
  exact List.single_le_sum (by simp) _ (List.mem_map.mpr ⟨o - 1, List.mem_range.mpr (by omega), by rw [Nat.sub_add_cancel h1]⟩)

/-- **C92.** Maximum likelihood estimation. If the texts have an n-gram of the highest order, building never raises, and
from the files that it writes a language model can be loaded with any minimum counts. It then knows an n-gram iff it
occurs in the texts, not less often than the minimum of its order; with its number of occurrences as count and with the
share of its occurrences in those of all n-grams of its order, rounded to 17 decimals, as probability. -/
theorem C92_mle (N nb : Nat) (hN : 1 ≤ N) (hb : 1 ≤ nb) (hnb : nb ≤ 2 ^ 53) (texts : List T)
    (docs : List (List (List Str))) (hd : texts.mapM sentencize = .ok docs) (fuel : Nat) (hf : texts.length / nb < fuel)
    (hsize : (Spec.corpusTexts N docs).length ≤ 2 ^ 53) (hhigh : Spec.orderTexts N docs ≠ []) :
    Spec.Returns (Builder.call ⟨N, .mle, nb⟩ R sentencize fuel texts) fun files =>
      files.length = N ∧ ∀ mins : List Int, mins.length ≤ N → ∃ m, LM.load R log (mins.zip files) = .ok m ∧
        m.maxOrder = mins.length ∧
        ∀ t (n : Int) (q : ℚ) (l : WithBot ℚ), Dict.get? m.details t = some (n, q, l) ↔
          ∃ (i : Nat) (mn : Int), mins[i]? = some mn ∧ t ∈ Spec.orderTexts (i + 1) docs ∧
            (n = (Spec.orderTexts (i + 1) docs).count t ∧ mn ≤ n ∧
              q = R.fl (round17 (((Spec.orderTexts (i + 1) docs).count t : ℚ) / (Spec.orderTexts (i + 1) docs).length)) ∧
              l = (log q : WithBot ℚ)) := by
  have hok := storeOf_gramsOk N docs
  have hmle := C21_mle_probabilities R _ N nb hb hnb ((storeValues_length N docs).trans hsize) hok.count hok.order
    (shorter_orders hhigh hN)
  have hcall := call_returns (b := ⟨N, .mle, nb⟩) hb R hd hf
    (fun o g => (g.count : ℚ) / ((ofOrder (Dict.values (storeOf (Spec.corpusTexts N docs))) o).map Ngram.count).sum) hmle
  refine Returns.mono hcall fun files hfiles => ?_
  subst hfiles
  refine ⟨by simp, fun mins hm => ?_⟩
  have hpos : ∀ {i : Nat} {t : Str}, t ∈ Spec.orderTexts i docs → 1 ≤ i → i ≤ N →
      1 / (2 * 10 ^ 17) < ((Spec.orderTexts i docs).count t : ℚ) / (Spec.orderTexts i docs).length := by
    intro i t ht h1 h2
    have hc : (1 : ℚ) ≤ (Spec.orderTexts i docs).count t := by exact_mod_cast List.count_pos_iff.mpr ht
    have hl0 : (0 : ℚ) < (Spec.orderTexts i docs).length := by
      exact_mod_cast List.length_pos_iff.mpr (List.ne_nil_of_mem ht)
    have hl : ((Spec.orderTexts i docs).length : ℚ) ≤ 2 ^ 53 := by
      exact_mod_cast (orderTexts_length_le h1 h2 docs).trans hsize
    rw [lt_div_iff₀ hl0]
    have : (2 : ℚ) ^ 53 < 2 * 10 ^ 17 := by norm_num
    rw [one_div, inv_mul_lt_iff₀ (by positivity)]
    nlinarith
  obtain ⟨m, h1, h2, h3⟩ := load_built R log N docs
    (fun o g => (g.count : ℚ) / ((ofOrder (Dict.values (storeOf (Spec.corpusTexts N docs))) o).map Ngram.count).sum)
    (by
      intro o ho1 ho2 g hg _
      obtain ⟨g1, g2⟩ := (ofOrder_mem ho1 ho2 g).mp hg
      have hcnt : g.count = (Spec.orderTexts o docs).count g.text := congrArg Ngram.count g2
      show _ < (g.count : ℚ) / _
      rw [ofOrder_total ho1 ho2, hcnt]
      exact hpos g1 ho1 ho2) mins hm
  refine ⟨m, h1, h2, fun t n q l => ?_⟩
  rw [h3]
  constructor
  · rintro ⟨i, mn, hmi, ht, hn, hmn, p, hp, h0, hq, hl⟩
    have hi := (List.getElem?_eq_some_iff.mp hmi).1
    simp only [ofOrder_total (Nat.succ_pos i) (show i + 1 ≤ N by omega)] at hp
    exact ⟨i, mn, hmi, ht, hn, hmn, by rw [← hp]; exact hq, hl⟩
  · rintro ⟨i, mn, hmi, ht, hn, hmn, hq, hl⟩
    have hi := (List.getElem?_eq_some_iff.mp hmi).1
    refine ⟨i, mn, hmi, ht, hn, hmn, _, rfl, ?_, ?_, hl⟩
    · simp only [ofOrder_total (Nat.succ_pos i) (show i + 1 ≤ N by omega)]
      exact lt_trans (by positivity) (hpos ht (Nat.succ_pos i) (by omega))
    · simp only [ofOrder_total (Nat.succ_pos i) (show i + 1 ≤ N by omega)]
      exact hq

/-- **C92.** So `has_ngram` answers by the numbers of occurrences in the texts. -/
theorem C92_mle_has_ngram (N nb : Nat) (hN : 1 ≤ N) (hb : 1 ≤ nb) (hnb : nb ≤ 2 ^ 53) (texts : List T)
    (docs : List (List (List Str))) (hd : texts.mapM sentencize = .ok docs) (fuel : Nat) (hf : texts.length / nb < fuel)
    (hsize : (Spec.corpusTexts N docs).length ≤ 2 ^ 53) (hhigh : Spec.orderTexts N docs ≠ []) :
    Spec.Returns (Builder.call ⟨N, .mle, nb⟩ R sentencize fuel texts) fun files =>
      ∀ mins : List Int, mins.length ≤ N → ∃ m, LM.load R log (mins.zip files) = .ok m ∧
        ∀ t (c : Int), m.hasNgram t c = true ↔ 1 ≤ c ∧ ∃ (i : Nat) (mn : Int), mins[i]? = some mn ∧
          max mn c ≤ (Spec.orderTexts (i + 1) docs).count t := by
  refine Returns.mono (C92_mle R log sentencize N nb hN hb hnb texts docs hd fuel hf hsize hhigh) fun files h mins hm => ?_
  obtain ⟨m, h1, -, h3⟩ := h.2 mins hm
  refine ⟨m, h1, fun t c => ?_⟩
  unfold LM.hasNgram LM.detailsOf
  by_cases hc : c < 1
  · rw [if_pos hc]
    constructor
    · intro h; cases h
    · rintro ⟨h, -⟩; omega
  · rw [if_neg hc, decide_eq_true_eq]
    have hc1 : 1 ≤ c := by omega
    constructor
    · intro h
      refine ⟨hc1, ?_⟩
      cases hg : Dict.get? m.details t with
      | none =>
        rw [hg] at h
        have h : c ≤ 0 := h
        omega
      | some x =>
        obtain ⟨n, q, l⟩ := x
        rw [hg] at h
        obtain ⟨i, mn, hi, -, hn, hmn, -⟩ := (h3 t n q l).mp hg
        have h : c ≤ n := h
        exact ⟨i, mn, hi, by rw [← hn]; exact max_le hmn h⟩
    · rintro ⟨-, i, mn, hi, hle⟩
      obtain ⟨ha, hb⟩ := max_le_iff.mp hle
      have hmem : t ∈ Spec.orderTexts (i + 1) docs := by
        apply List.count_pos_iff.mp
        omega
      rw [(h3 t _ _ _).mpr ⟨i, mn, hi, hmem, rfl, ha, rfl, rfl⟩]
      exact hb

/-- Two texts of the model's tokenised form. -/
def twoTexts : List (List (List Str)) := [[[c!"the", c!"cat"], [c!"the", c!"cat", c!"sat"]], [[c!"a", c!"cat"]]]

example : Spec.orderTexts 2 twoTexts = [c!"the cat", c!"the cat", c!"cat sat", c!"a cat"] := by decide +kernel
example : Spec.orderTexts 2 twoTexts ≠ [] ∧ (Spec.corpusTexts 2 twoTexts).length ≤ 2 ^ 53 := by decide +kernel
example : twoTexts.mapM (fun d => (Except.ok d : Except PyErr _)) = .ok twoTexts ∧ twoTexts.length / 2 < 2 :=
  ⟨rfl, by decide⟩
/-- Its files. -/
example : Builder.call ⟨2, .mle, 2⟩ Rounding.exact (fun d => .ok d) 2 twoTexts (fun _ => demoMoves) =
    .ok (some [c!"cat\t3\t0.42857142857142857\nthe\t2\t0.28571428571428571\nsat\t1\t0.14285714285714286\na\t1\t0.14285714285714286\n",
      c!"the cat\t2\t0.50000000000000000\ncat sat\t1\t0.25000000000000000\na cat\t1\t0.25000000000000000\n"]) := by
  decide +kernel

/-- The orders of a run with a missing order. -/
theorem forOrders_missing (R : Rounding) (gs : List Ngram) (N nb : Nat) (ret : Nat → List Move → Bool) (t : Dict Nat Nat)
    (hret : ∀ o d, 1 ≤ o → o ≤ N → Dict.get? d o = some (ofOrder gs o) →
      ∃ d', (∀ sched, mleOrder R t nb sched d o = .ok (if ret o sched then some d' else none)) ∧
        ∀ o', o' ≠ o → Dict.get? d' o' = Dict.get? d o') (sched : Nat → List Move) :
    ∀ (os : List Nat) (d : Dict Nat (List Ngram)), os.Nodup → (∀ o ∈ os, 1 ≤ o ∧ o ≤ N) →
      (∀ o ∈ os, Dict.get? d o = some (ofOrder gs o) ∨ Dict.get? d o = none) → (∃ o ∈ os, Dict.get? d o = none) →
      (forOrders (fun d o => mleOrder R t nb (sched o) d o) os d = .ok none ∨
        forOrders (fun d o => mleOrder R t nb (sched o) d o) os d = .error .key) ∧
      ((∀ o ∈ os, ret o (sched o) = true) →
        forOrders (fun d o => mleOrder R t nb (sched o) d o) os d = .error .key)
  | [], d, _, _, _, h => by
    obtain ⟨o, ho, -⟩ := h
    cases ho
  | o :: os, d, hnd, hkeys, hd, hmiss => by
    rw [List.nodup_cons] at hnd
    rcases hd o (by simp) with h | h
    · obtain ⟨d', h1, h2⟩ := hret o d (hkeys o (by simp)).1 (hkeys o (by simp)).2 h
      have hoth : ∀ o' ∈ os, Dict.get? d' o' = Dict.get? d o' := fun o' ho' => h2 o' fun e => hnd.1 (e ▸ ho')
      have ih := forOrders_missing R gs N nb ret t hret sched os d' hnd.2 (fun o' h' => hkeys o' (by simp [h']))
        (fun o' h' => by rw [hoth o' h']; exact hd o' (by simp [h']))
        (by
          obtain ⟨o', ho', hn⟩ := hmiss
          rcases List.mem_cons.mp ho' with rfl | ho'
          · rw [h] at hn; cases hn
          · exact ⟨o', ho', by rw [hoth o' ho']; exact hn⟩)
      rw [forOrders, h1]
      cases hr : ret o (sched o) with
      | false =>
        refine ⟨Or.inl rfl, fun hall => ?_⟩
        rw [hall o (by simp)] at hr
        cases hr
      | true => exact ⟨ih.1, fun hall => ih.2 fun o' h' => hall o' (by simp [h'])⟩
    · have : forOrders (fun d o => mleOrder R t nb (sched o) d o) (o :: os) d = .error .key := by
        simp only [forOrders, mleOrder, Dict.get, h, bind, Except.bind]
      exact ⟨Or.inr this, fun _ => this⟩

/-- **C92.** Without an n-gram of the highest order in the texts nothing is built by maximum likelihood estimation: no
schedule makes the builder return, and any can be continued to a `KeyError`. -/
theorem C92_mle_missing_order (N nb : Nat) (hN : 1 ≤ N) (hb : 1 ≤ nb) (hnb : nb ≤ 2 ^ 53) (texts : List T)
    (docs : List (List (List Str))) (hd : texts.mapM sentencize = .ok docs) (fuel : Nat) (hf : texts.length / nb < fuel)
    (hsize : (Spec.corpusTexts N docs).length ≤ 2 ^ 53) (hhigh : Spec.orderTexts N docs = []) :
    (∀ sched, Builder.call ⟨N, .mle, nb⟩ R sentencize fuel texts sched = .ok none ∨
      Builder.call ⟨N, .mle, nb⟩ R sentencize fuel texts sched = .error .key) ∧
    ∀ sched : Nat → List Move, ∃ more : Nat → List Move,
      Builder.call ⟨N, .mle, nb⟩ R sentencize fuel texts (fun o => sched o ++ more o) = .error .key := by
  have hok := storeOf_gramsOk N docs
  set gs := Dict.values (storeOf (Spec.corpusTexts N docs)) with hgs
  obtain ⟨t, ht1, ht2⟩ := mleInit_eq gs N hok.order
  have hlen : gs.length ≤ 2 ^ 53 := (storeValues_length N docs).trans hsize
  have hle : ∀ o, (ofOrder gs o).length ≤ 2 ^ 53 := fun o => le_trans (List.length_filter_le _ _) hlen
  have hspec := fun o => mleOrder_spec R (ofOrder gs o) nb hb hnb (hle o) (totalOf gs o)
  choose ret hret hstep using hspec
  have hkeys : ∀ o ∈ (List.range N).map (· + 1), 1 ≤ o ∧ o ≤ N := by
    intro o ho
    obtain ⟨i, hi, rfl⟩ := List.mem_map.mp ho
    rw [List.mem_range] at hi
    omega
  have key := fun sched => forOrders_missing R gs N nb ret t (fun o d h1 h2 h => by
    obtain ⟨d', e1, e2, -⟩ := hstep o t o (ht2 o h1 h2) d h
    exact ⟨d', e1, e2⟩) sched ((List.range N).map (· + 1)) (groupByOrder gs [])
      (List.nodup_range.map (fun _ _ h => Nat.succ_injective h)) hkeys
      (by
        intro o _
        have := groupByOrder_getD gs [] o
        cases hg : Dict.get? (groupByOrder gs []) o with
        | none => exact Or.inr rfl
        | some x =>
          rw [hg] at this
          exact Or.inl (congrArg some this))
      (by
        refine ⟨N, List.mem_map.mpr ⟨N - 1, List.mem_range.mpr (by omega), by omega⟩, ?_⟩
        rw [Dict.get?_eq_none_iff, groupByOrder_keys]
        simp only [Dict.keys_nil, List.not_mem_nil, false_or]
        rintro ⟨g, hg, e⟩
        have := (ofOrder_mem hN le_rfl g).mp (List.mem_filter.mpr ⟨hg, decide_eq_true e⟩)
        rw [hhigh] at this
        cases this.1)
  have hsm : ∀ sched, Builder.smooth ⟨N, .mle, nb⟩ R gs sched =
      forOrders (fun d o => mleOrder R t nb (sched o) d o) ((List.range N).map (· + 1)) (groupByOrder gs []) := by
    intro sched
    show mleSmooth R gs N nb sched = _
    unfold mleSmooth
    rw [ht1]
    rfl
  have hc := call_eq (b := ⟨N, .mle, nb⟩) hb R hd hf
  constructor
  · intro sched
    rw [hc, hsm]
    rcases (key sched).1 with h | h <;> rw [h]
    · exact Or.inl rfl
    · exact Or.inr rfl
  · intro sched
    choose more hmore using fun o => hret o (sched o)
    refine ⟨more, ?_⟩
    rw [hc, hsm, (key _).2 fun o _ => hmore o]

example : Spec.orderTexts 4 twoTexts = [] := by decide +kernel

theorem grams_corpus (N : Nat) (docs : List (List (List Str))) :
    grams (Dict.values (storeOf (Spec.corpusTexts N docs))) = Spec.corpusVocab N docs := by
  unfold grams Spec.corpusVocab
  rw [values_storeOf, List.map_map]
  rfl

/-- **C92.** Modified Kneser-Ney smoothing, when every order from 2 up has n-grams that occur once, twice, three and four
times: building never raises, and the loaded model knows an n-gram iff it occurs in the texts, not less often than the
minimum of its order, and has a positive probability. (As long as no positive probability is so small that it is written
as zero.) Full claim: it knows every n-gram of the texts. -/
theorem C92_mkn_partial (N nb : Nat) (hN : 2 ≤ N) (hb : 1 ≤ nb) (hnb : nb ≤ 2 ^ 53) (texts : List T)
    (docs : List (List (List Str))) (hd : texts.mapM sentencize = .ok docs) (fuel : Nat) (hf : texts.length / nb < fuel)
    (hsize : (Spec.corpusTexts N docs).length ≤ 2 ^ 53) (hrich : ¬ (Spec.corpusVocab N docs).Poor N)
    (hbig : ∀ t ∈ Spec.corpusTexts N docs, 0 < (Spec.corpusVocab N docs).mkn (splitWs t) →
      1 / (2 * 10 ^ 17) < (Spec.corpusVocab N docs).mkn (splitWs t)) :
    Spec.Returns (Builder.call ⟨N, .mkn, nb⟩ R sentencize fuel texts) fun files =>
      files.length = N ∧ ∀ mins : List Int, mins.length ≤ N → ∃ m, LM.load R log (mins.zip files) = .ok m ∧
        m.maxOrder = mins.length ∧
        ∀ t (n : Int) (q : ℚ) (l : WithBot ℚ), Dict.get? m.details t = some (n, q, l) ↔
          ∃ (i : Nat) (mn : Int), mins[i]? = some mn ∧ t ∈ Spec.orderTexts (i + 1) docs ∧
            (n = (Spec.orderTexts (i + 1) docs).count t ∧ mn ≤ n ∧ 0 < (Spec.corpusVocab N docs).mkn (splitWs t) ∧
              q = R.fl (round17 ((Spec.corpusVocab N docs).mkn (splitWs t))) ∧ l = (log q : WithBot ℚ)) := by
  have hmade : BuilderMade (storeOf (Spec.corpusTexts N docs)) N := by
    refine ⟨T, sentencize, texts, nb, fuel, hb, hf, ?_⟩
    have := readTexts_eq sentencize N nb hb fuel texts [] hf
    rw [show storeOf [] = [] from rfl, hd] at this
    simpa [Except.map] using this
  have hmkn := C25_mkn_formula R _ N nb hmade hN (by rw [grams_corpus]; exact hrich) hb hnb
    ((storeValues_length N docs).trans hsize)
  rw [grams_corpus] at hmkn
  have hcall := call_returns (b := ⟨N, .mkn, nb⟩) hb R hd hf (fun _ g => (Spec.corpusVocab N docs).mkn g.tokens)
    (Returns.mono hmkn fun out h o _ _ => by
      rw [h o]
      refine List.map_congr_left fun g hg => ?_
      have ho : g.tokens.length = o := of_decide_eq_true (List.mem_filter.mp hg).2
      unfold Spec.Vocab.mkn
      rw [ho])
  refine Returns.mono hcall fun files hfiles => ?_
  subst hfiles
  refine ⟨by simp, fun mins hm => ?_⟩
  obtain ⟨m, h1, h2, h3⟩ := load_built R log N docs (fun _ g => (Spec.corpusVocab N docs).mkn g.tokens)
    (by
      intro o ho1 ho2 g hg
      obtain ⟨g1, -⟩ := (ofOrder_mem ho1 ho2 g).mp hg
      exact hbig g.text (((orderTexts_spec ho1 ho2 g.text).1).mp g1).1) mins hm
  refine ⟨m, h1, h2, fun t n q l => ?_⟩
  rw [h3]
  constructor
  · rintro ⟨i, mn, hmi, ht, hn, hmn, p, rfl, h0, hq, hl⟩
    exact ⟨i, mn, hmi, ht, hn, hmn, h0, hq, hl⟩
  · rintro ⟨i, mn, hmi, ht, hn, hmn, h0, hq, hl⟩
    exact ⟨i, mn, hmi, ht, hn, hmn, _, rfl, h0, hq, hl⟩

/-- **C92.** Modified Kneser-Ney smoothing when some order from 2 up has no n-gram that occurs once, or twice, or three or
four times: `NotEnoughDataError`. -/
theorem C92_mkn_not_enough_data (N nb : Nat) (hb : 1 ≤ nb) (texts : List T)
    (docs : List (List (List Str))) (hd : texts.mapM sentencize = .ok docs) (fuel : Nat) (hf : texts.length / nb < fuel)
    (hpoor : (Spec.corpusVocab N docs).Poor N) (sched : Nat → List Move) :
    Builder.call ⟨N, .mkn, nb⟩ R sentencize fuel texts sched = .error .notEnoughData := by
  rw [call_eq (b := ⟨N, .mkn, nb⟩) hb R hd hf]
  have : mknInit (Dict.values (storeOf (Spec.corpusTexts N docs))) N = .error .notEnoughData :=
    (C22_not_enough_data _ N).1.mp (by rw [grams_corpus]; exact hpoor)
  simp only [Builder.smooth, mknSmooth, this, bind, Except.bind]

/-- **C92.** An exception of the sentencizer ends the call. -/
theorem C92_sentencizer_error (b : Builder) (hb : 1 ≤ b.nbProcesses) (texts : List T) (e : PyErr)
    (hd : texts.mapM sentencize = .error e) (fuel : Nat) (hf : texts.length / b.nbProcesses < fuel)
    (sched : Nat → List Move) : b.call R sentencize fuel texts sched = .error e := by
  have := readTexts_eq sentencize b.maxOrder b.nbProcesses hb fuel texts [] hf
  rw [show storeOf [] = [] from rfl, hd] at this
  unfold Builder.call
  rw [this]
  rfl

theorem Vocab.backoff_nonneg {V : Spec.Vocab} {n : Nat} (h1 : 0 ≤ V.D1 n) (h2 : 0 ≤ V.D2 n) (h3 : 0 ≤ V.D3 n)
    (ctx : List Str) : 0 ≤ V.backoff n ctx := by
  unfold Spec.Vocab.backoff
  positivity

theorem Vocab.pCont_nonneg {V : Spec.Vocab} {N : Nat}
    (h : ∀ n, 2 ≤ n → n ≤ N → 0 ≤ V.D1 n ∧ 0 ≤ V.D2 n ∧ 0 ≤ V.D3 n) :
    ∀ ts : List Str, ts.length ≤ N → 0 ≤ V.pCont ts
  | [], _ => by simp [Spec.Vocab.pCont]
  | [w], _ => by
    rw [Spec.Vocab.pCont]
    positivity
  | w :: v :: ts, hl => by
    have ih := Vocab.pCont_nonneg h (v :: ts) (by simp at hl ⊢; omega)
    rw [Spec.Vocab.pCont]
    obtain ⟨a, b, c⟩ := h (w :: v :: ts).length (by simp) hl
    have := Vocab.backoff_nonneg a b c (w :: v :: ts).dropLast
    have hm : (0 : ℚ) ≤ max ((V.before (w :: v :: ts) : ℚ) -
      V.D ((w :: v :: ts).length + 1) (V.before (w :: v :: ts))) 0 := le_max_right _ _
    exact add_nonneg (div_nonneg hm (by positivity)) (mul_nonneg (div_nonneg this (by positivity)) ih)

theorem blank_last {u t a b : Str} (ht : ' ' ∉ t) (hb : ' ' ∉ b) (h : u ++ ' ' :: t = a ++ ' ' :: b) : t = b := by
  have h' := congrArg List.reverse h
  simp only [List.reverse_append, List.reverse_cons, List.append_assoc] at h'
  rcases List.append_eq_append_iff.mp h' with ⟨c, h1, h2⟩ | ⟨c, h1, h2⟩
  · cases c with
    | nil =>
      rw [List.append_nil] at h1
      exact (List.reverse_injective h1).symm
    | cons x c =>
      simp only [List.singleton_append, List.cons_append, List.cons.injEq] at h2
      obtain ⟨rfl, -⟩ := h2
      exact absurd (List.mem_reverse.mp (h1 ▸ by simp)) hb
  · cases c with
    | nil =>
      rw [List.append_nil] at h1
      exact List.reverse_injective h1
    | cons x c =>
      simp only [List.singleton_append, List.cons_append, List.cons.injEq] at h2
      obtain ⟨rfl, -⟩ := h2
      exact absurd (List.mem_reverse.mp (h1 ▸ by simp)) ht

/-- When no discount is negative, an n-gram of the texts has probability zero only if it is a word that never follows
another one. -/
theorem mkn_pos_iff {N : Nat} (hN : 2 ≤ N) {docs : List (List (List Str))} (hrich : ¬ (Spec.corpusVocab N docs).Poor N)
    (hdisc : ∀ n, 2 ≤ n → n ≤ N → 0 ≤ (Spec.corpusVocab N docs).D2 n ∧ 0 ≤ (Spec.corpusVocab N docs).D3 n)
    {o : Nat} (h1 : 1 ≤ o) (h2 : o ≤ N) {t : Str} (ht : t ∈ Spec.orderTexts o docs) :
    0 < (Spec.corpusVocab N docs).mkn (splitWs t) ↔ 2 ≤ o ∨ ∃ u, u ++ c!" " ++ t ∈ Spec.orderTexts 2 docs := by
  have hok := storeOf_gramsOk N docs
  set V := Spec.corpusVocab N docs with hV
  have hV' : vocab (Dict.values (storeOf (Spec.corpusTexts N docs))) = V := grams_corpus N docs
  have hg := (List.mem_filter.mp ((ofOrder_mem h1 h2 ⟨t, (Spec.orderTexts o docs).count t, none⟩).mpr ⟨ht, rfl⟩)).1
  have hlen : (splitWs t).length = o := ((orderTexts_spec h1 h2 t).1.mp ht).2
  have hD : ∀ n, 2 ≤ n → n ≤ N → (0 < V.D1 n ∧ V.D1 n < 1) ∧ V.D2 n < 2 ∧ V.D3 n < 3 := by
    intro n hn1 hn2
    obtain ⟨a, b, c, d⟩ := rich_iff hrich hn1 hn2
    exact discount_bounds a b c d
  have hdisc' : ∀ n, 2 ≤ n → n ≤ N → 0 ≤ V.D1 n ∧ 0 ≤ V.D2 n ∧ 0 ≤ V.D3 n := fun n hn1 hn2 =>
    ⟨(hD n hn1 hn2).1.1.le, hdisc n hn1 hn2⟩
  unfold Spec.Vocab.mkn
  rw [hlen]
  by_cases ho : o = 1
  · rw [if_pos ho]
    subst ho
    obtain ⟨w, hw⟩ := List.length_eq_one_iff.mp hlen
    have htw : t = w := by
      have := hok.text _ hg
      unfold Ngram.tokens at this
      simp only [hw] at this
      exact this
    subst htw
    rw [hw, Spec.Vocab.pCont]
    have hbt : 0 < V.before [t] → 0 < V.types 2 := by
      unfold Spec.Vocab.before Spec.Vocab.types
      rw [List.countP_pos_iff, List.countP_pos_iff]
      rintro ⟨e, he, h⟩
      simp only [List.length_singleton, decide_eq_true_eq] at h
      exact ⟨e, he, decide_eq_true h.1⟩
    have hpos : (0 : ℚ) < V.before [t] / V.types 2 ↔ 0 < V.before [t] := by
      constructor
      · intro h
        rcases Nat.eq_zero_or_pos (V.before [t]) with h0 | h0
        · rw [h0] at h
          simp at h
        · exact h0
      · intro h
        have := hbt h
        positivity
    rw [hpos]
    unfold Spec.Vocab.before
    rw [List.countP_pos_iff]
    constructor
    · rintro ⟨e, he, h⟩
      simp only [List.length_singleton, decide_eq_true_eq] at h
      rw [← hV'] at he
      obtain ⟨g, hg', rfl⟩ := List.mem_map.mp he
      right
      match hgt : g.tokens, h with
      | [u, v], h =>
        have hv : v = t := by simpa using h.2
        subst hv
        have h2 := hok.text g hg'
        rw [hgt] at h2
        have h3 := (ofOrder_mem (by omega) hN g).mp (List.mem_filter.mpr ⟨hg', decide_eq_true (by
          unfold Ngram.order
          rw [hgt]
          rfl)⟩)
        refine ⟨u, ?_⟩
        rw [h2] at h3
        exact h3.1
    · rintro (h | ⟨u, hu⟩)
      · omega
      · have hg2 := (List.mem_filter.mp ((ofOrder_mem (by omega) hN
          ⟨u ++ c!" " ++ t, (Spec.orderTexts 2 docs).count (u ++ c!" " ++ t), none⟩).mpr ⟨hu, rfl⟩)).1
        have hl2 : (splitWs (u ++ c!" " ++ t)).length = 2 := ((orderTexts_spec (by omega) hN _).1.mp hu).2
        refine ⟨(splitWs (u ++ c!" " ++ t), _), by rw [← hV']; exact List.mem_map.mpr ⟨_, hg2, rfl⟩, ?_⟩
        have htx := hok.text _ hg2
        have hal2 := hok.alph _ hg2
        have hal := hok.alph _ hg
        unfold Ngram.tokens at htx hal2 hal
        simp only [hw] at htx hal2 hal
        obtain ⟨a, b, hab⟩ := List.length_eq_two.mp hl2
        rw [hab] at htx hal2 ⊢
        have hj : join c!" " [a, b] = a ++ ' ' :: b := by simp [join]
        rw [hj, List.append_assoc] at htx
        have hb : t = b := blank_last (fun h => absurd ((hal t (by simp)).2 ' ' h) (by decide))
          (fun h => absurd ((hal2 b (by simp)).2 ' ' h) (by decide)) htx
        simp [hb]
  · rw [if_neg ho]
    refine ⟨fun _ => Or.inl (by omega), fun _ => ?_⟩
    have hcnt := vocab_count hok hg
    have hctx := count_ctx_pos hok hg (show 1 < (splitWs t).length by omega)
    rw [hV'] at hcnt hctx
    have hc0 := hok.count _ hg
    unfold Ngram.tokens at hcnt hctx
    simp only at hcnt hctx hc0
    unfold Spec.Vocab.pTop
    rw [hcnt, hlen]
    obtain ⟨⟨a1, a2⟩, a3, a4⟩ := hD o (by omega) h2
    have hback := Vocab.backoff_nonneg (hdisc' o (by omega) h2).1 (hdisc' o (by omega) h2).2.1 (hdisc' o (by omega) h2).2.2
      (splitWs t).dropLast
    have hp := Vocab.pCont_nonneg hdisc' (splitWs t).tail (by rw [List.length_tail]; omega)
    have hctx' : (0 : ℚ) < V.count (splitWs t).dropLast := by exact_mod_cast hctx
    have hnum : V.D o ((Spec.orderTexts o docs).count t) < (Spec.orderTexts o docs).count t := by
      generalize (Spec.orderTexts o docs).count t = c at hc0
      match c, hc0 with
      | 1, _ => exact_mod_cast a2
      | 2, _ => exact_mod_cast a3
      | c + 3, _ =>
        show V.D3 o < _
        push_cast
        have : (0 : ℚ) ≤ c := by positivity
        linarith
    have : 0 < max (((Spec.orderTexts o docs).count t : ℚ) - V.D o ((Spec.orderTexts o docs).count t)) 0 :=
      lt_max_of_lt_left (by linarith)
    have h3 := mul_nonneg (div_nonneg hback hctx'.le) hp
    have h4 := div_pos this hctx'
    linarith

/-- **C92.** When moreover no discount is negative, modified Kneser-Ney smoothing only loses words: those that never
follow another word in the texts. -/
theorem C92_mkn_words_partial (N nb : Nat) (hN : 2 ≤ N) (hb : 1 ≤ nb) (hnb : nb ≤ 2 ^ 53) (texts : List T)
    (docs : List (List (List Str))) (hd : texts.mapM sentencize = .ok docs) (fuel : Nat) (hf : texts.length / nb < fuel)
    (hsize : (Spec.corpusTexts N docs).length ≤ 2 ^ 53) (hrich : ¬ (Spec.corpusVocab N docs).Poor N)
    (hdisc : ∀ n, 2 ≤ n → n ≤ N → 0 ≤ (Spec.corpusVocab N docs).D2 n ∧ 0 ≤ (Spec.corpusVocab N docs).D3 n)
    (hbig : ∀ t ∈ Spec.corpusTexts N docs, 0 < (Spec.corpusVocab N docs).mkn (splitWs t) →
      1 / (2 * 10 ^ 17) < (Spec.corpusVocab N docs).mkn (splitWs t)) :
    Spec.Returns (Builder.call ⟨N, .mkn, nb⟩ R sentencize fuel texts) fun files =>
      ∀ mins : List Int, mins.length ≤ N → ∃ m, LM.load R log (mins.zip files) = .ok m ∧
        ∀ t, m.contains t = true ↔ ∃ (i : Nat) (mn : Int), mins[i]? = some mn ∧ t ∈ Spec.orderTexts (i + 1) docs ∧
          mn ≤ (Spec.orderTexts (i + 1) docs).count t ∧
          (1 ≤ i ∨ ∃ u, u ++ c!" " ++ t ∈ Spec.orderTexts 2 docs) := by
  refine Returns.mono (C92_mkn_partial R log sentencize N nb hN hb hnb texts docs hd fuel hf hsize hrich hbig)
    fun files h mins hm => ?_
  obtain ⟨m, h1, -, h3⟩ := h.2 mins hm
  refine ⟨m, h1, fun t => ?_⟩
  have hpos : ∀ (i : Nat) (mn : Int), mins[i]? = some mn → t ∈ Spec.orderTexts (i + 1) docs →
      (0 < (Spec.corpusVocab N docs).mkn (splitWs t) ↔ 1 ≤ i ∨ ∃ u, u ++ c!" " ++ t ∈ Spec.orderTexts 2 docs) := by
    intro i mn hi ht
    have := (List.getElem?_eq_some_iff.mp hi).1
    rw [mkn_pos_iff hN hrich hdisc (Nat.succ_pos i) (show i + 1 ≤ N by omega) ht]
    rw [show 2 ≤ i + 1 ↔ 1 ≤ i by omega]
  unfold LM.contains
  rw [show (Dict.has m.details t = true) ↔ ∃ x, Dict.get? m.details t = some x by
    rw [← Option.isSome_iff_exists, Dict.get?_isSome_iff, Dict.has_iff]]
  constructor
  · rintro ⟨⟨n, q, l⟩, hx⟩
    obtain ⟨i, mn, hi, ht, hn, hmn, h0, -⟩ := (h3 t n q l).mp hx
    exact ⟨i, mn, hi, ht, hn ▸ hmn, (hpos i mn hi ht).mp h0⟩
  · rintro ⟨i, mn, hi, ht, hmn, h⟩
    exact ⟨_, (h3 t _ _ _).mpr ⟨i, mn, hi, ht, rfl, hmn, (hpos i mn hi ht).mpr h, rfl, rfl⟩⟩

end

instance (V : Spec.Vocab) (ts : List Str) : Decidable (0 < V.mkn ts) := Rat.instDecidableLt _ _

/-- The texts of the modified Kneser-Ney examples meet the hypotheses. -/
theorem demoCorpus_rich : ¬ (Spec.corpusVocab 2 demoCorpus).Poor 2 ∧ (Spec.corpusTexts 2 demoCorpus).length ≤ 2 ^ 53 ∧
    ∀ t ∈ Spec.corpusTexts 2 demoCorpus, 0 < (Spec.corpusVocab 2 demoCorpus).mkn (splitWs t) →
      1 / (2 * 10 ^ 17) < (Spec.corpusVocab 2 demoCorpus).mkn (splitWs t) := by
  refine ⟨by decide +kernel, by decide +kernel, ?_⟩
  have : ∀ t ∈ Spec.corpusTexts 2 demoCorpus, (Spec.corpusVocab 2 demoCorpus).mkn (splitWs t) = 0 ∨
      1 / (2 * 10 ^ 17) < (Spec.corpusVocab 2 demoCorpus).mkn (splitWs t) := by decide +kernel
  intro t ht h
  rcases this t ht with h' | h'
  · rw [h'] at h
    exact absurd h (lt_irrefl _)
  · exact h'

example : ¬ (Spec.corpusVocab 3 trigramCorpus).Poor 3 ∧ (Spec.corpusTexts 3 trigramCorpus).length ≤ 2 ^ 53 ∧
    (∀ n, 2 ≤ n → n ≤ 3 → 0 ≤ (Spec.corpusVocab 3 trigramCorpus).D2 n ∧ 0 ≤ (Spec.corpusVocab 3 trigramCorpus).D3 n) ∧
    ∀ t ∈ Spec.corpusTexts 3 trigramCorpus, 1 / (2 * 10 ^ 17) < (Spec.corpusVocab 3 trigramCorpus).mkn (splitWs t) := by
  refine ⟨by decide +kernel, by decide +kernel, fun n h1 h2 => ?_, by decide +kernel⟩
  have : ∀ n ∈ [2, 3], 0 ≤ (Spec.corpusVocab 3 trigramCorpus).D2 n ∧ 0 ≤ (Spec.corpusVocab 3 trigramCorpus).D3 n := by
    decide +kernel
  exact this n (by rcases (by omega : n = 2 ∨ n = 3) with rfl | rfl <;> simp)

example : (Spec.corpusVocab 2 twoTexts).Poor 2 := by decide +kernel

/-- **C92** is false for modified Kneser-Ney smoothing: the word `a` of these texts is unknown to the model built from
them, because it never follows another word. -/
theorem C92_mkn_lost_word_false (R : Rounding) (log : ℚ → ℚ) (nb : Nat) (hb : 1 ≤ nb) (hnb : nb ≤ 2 ^ 53) :
    c!"a" ∈ Spec.orderTexts 1 demoCorpus ∧
    Spec.Returns (Builder.call ⟨2, .mkn, nb⟩ R (fun d => .ok d) 2 demoCorpus) fun files =>
      ∃ m, LM.load R log ([1, 1].zip files) = .ok m ∧ m.hasNgram c!"a" 1 = false ∧ m.hasNgram c!"b" 1 = true := by
  refine ⟨by decide +kernel, ?_⟩
  obtain ⟨h1, h2, h3⟩ := demoCorpus_rich
  refine Returns.mono (C92_mkn_partial R log (fun d => .ok d) 2 nb le_rfl hb hnb demoCorpus demoCorpus rfl 2
    (by
      show 1 / nb < 2
      exact lt_of_le_of_lt (Nat.div_le_self 1 nb) (by omega)) h2 h1 h3) fun files h => ?_
  obtain ⟨m, e1, -, e3⟩ := h.2 [1, 1] le_rfl
  refine ⟨m, e1, ?_, ?_⟩
  · have hz : (Spec.corpusVocab 2 demoCorpus).mkn (splitWs c!"a") = 0 := by decide +kernel
    have : Dict.get? m.details c!"a" = none := by
      cases hg : Dict.get? m.details c!"a" with
      | none => rfl
      | some x =>
        obtain ⟨n, q, l⟩ := x
        obtain ⟨i, mn, -, -, -, -, h0, -⟩ := (e3 _ n q l).mp hg
        rw [hz] at h0
        exact absurd h0 (lt_irrefl _)
    unfold LM.hasNgram LM.detailsOf
    rw [this]
    rfl
  · have hz : 0 < (Spec.corpusVocab 2 demoCorpus).mkn (splitWs c!"b") := by decide +kernel
    have hg := (e3 c!"b" 1 _ _).mpr ⟨0, 1, rfl, by decide +kernel, by decide +kernel, le_rfl, hz, rfl, rfl⟩
    unfold LM.hasNgram LM.detailsOf
    rw [hg]
    rfl

end Props
