import Verif.Lemmas.FrequencyQuery

/-! C116: a maximum likelihood model answers by the frequencies in its texts. -/

namespace Props
open Py Model

section
variable {T : Type} (R : Rounding) (log : ℚ → ℚ) (sentencize : T → Except PyErr (List (List Str)))
  (N nb : Nat) (hN : 1 ≤ N) (hb : 1 ≤ nb) (hnb : nb ≤ 2 ^ 53) (texts : List T)
  (docs : List (List (List Str))) (hd : texts.mapM sentencize = .ok docs) (fuel : Nat) (hf : texts.length / nb < fuel)
  (hsize : (Spec.corpusTexts N docs).length ≤ 2 ^ 51) (hhigh : Spec.orderTexts N docs ≠ [])

include hN hb hnb hd hf hsize hhigh

/-- What building and loading gives. -/
theorem counted_built : Spec.Returns (Builder.call ⟨N, .mle, nb⟩ R sentencize fuel texts) fun files =>
    ∀ mins : List Int, mins.length ≤ N → ∃ m, LM.load R log (mins.zip files) = .ok m ∧ CountedLM R log docs mins m := by
  have hok := storeOf_gramsOk N docs
  have hsize' : (Spec.corpusTexts N docs).length ≤ 2 ^ 53 := hsize.trans (by norm_num)
  have hmle := C21_mle_probabilities R _ N nb hb hnb ((storeValues_length N docs).trans hsize') hok.count hok.order
    (shorter_orders hhigh hN)
  have hcall := call_returns (b := ⟨N, .mle, nb⟩) hb R hd hf
    (fun o g => (g.count : ℚ) / ((ofOrder (Dict.values (storeOf (Spec.corpusTexts N docs))) o).map Ngram.count).sum) hmle
  refine Returns.mono hcall fun files hfiles => ?_
  subst hfiles
  intro mins hm
  obtain ⟨m, h1, h2, h3⟩ := load_mle R log N docs hsize' mins hm
  exact ⟨m, h1, h2, h3, fun o h1 h2 => (orderTexts_length_le h1 (by omega) docs).trans hsize, (load_ok h1).wf⟩

/-- **C116.** `top_ngrams(n, limit)` lists the n-grams of `n` words that occur in the texts at least as often as the
minimum of their order, each with its number of occurrences; the most frequent ones first, equally frequent ones in order
of first occurrence in the texts; cut to `limit`. For an order that was not loaded the list is empty. -/
theorem C116_top_ngrams : Spec.Returns (Builder.call ⟨N, .mle, nb⟩ R sentencize fuel texts) fun files =>
    ∀ mins : List Int, mins.length ≤ N → ∃ m, LM.load R log (mins.zip files) = .ok m ∧
      (∀ (n : Nat) (limit : Option Int), 1 ≤ n → n ≤ mins.length → ∃ full,
        Spec.ByFrequency (Spec.orderTexts n docs) (mins.getD (n - 1) 0) full ∧
        Spec.Cut (full.map fun t => (t, ((Spec.orderTexts n docs).count t : Int),
          stored R ((Spec.orderTexts n docs).count t) (Spec.orderTexts n docs).length)) limit (m.topNgrams n limit)) ∧
      ∀ (n : Int) (limit : Option Int), n < 1 ∨ (mins.length : Int) < n → m.topNgrams n limit = [] := by
  refine Returns.mono (counted_built R log sentencize N nb hN hb hnb texts docs hd fuel hf hsize hhigh)
    fun files h mins hm => ?_
  obtain ⟨m, h1, H⟩ := h mins hm
  refine ⟨m, h1, fun n limit hn1 hn2 => ?_, fun n limit hn => H.top_none hn limit⟩
  refine ⟨_, stableDesc_sortDesc _ _, ?_⟩
  rw [H.top hn1 hn2]
  exact cut_sliceLimit _ _

/-- **C116.** `next_word`, for a text of words without white space: take the longest suffix of at most `N - 1` words
after which some word comes at least as often as the minimum of that order. The answer lists the words that do, the most
frequent ones first, equally frequent ones in order of first occurrence, cut to `limit`. If there is no such suffix it is
empty. -/
theorem C116_next_word : Spec.Returns (Builder.call ⟨N, .mle, nb⟩ R sentencize fuel texts) fun files =>
    ∀ mins : List Int, mins.length ≤ N → ∃ m, LM.load R log (mins.zip files) = .ok m ∧
      ∀ (tokens : List Str) (limit : Option Int), tokens ≠ [] → (∀ t ∈ tokens, NoBlank t) →
        (m.nextWord tokens limit = [] ∧ ∀ i, 1 ≤ i → i < mins.length →
          Spec.enough (Spec.followers (Spec.suffixN i tokens) docs) (mins.getD (Spec.suffixN i tokens).length 0) = []) ∨
        ∃ i full, 1 ≤ i ∧ i < mins.length ∧ full ≠ [] ∧
          (∀ j, i < j → j < mins.length →
            Spec.enough (Spec.followers (Spec.suffixN j tokens) docs) (mins.getD (Spec.suffixN j tokens).length 0) = []) ∧
          Spec.ByFrequency (Spec.followers (Spec.suffixN i tokens) docs) (mins.getD (Spec.suffixN i tokens).length 0) full ∧
          Spec.Cut (full.map fun w => (w, stored R ((Spec.followers (Spec.suffixN i tokens) docs).count w)
            (Spec.orderTexts ((Spec.suffixN i tokens).length + 1) docs).length)) limit (m.nextWord tokens limit) := by
  refine Returns.mono (counted_built R log sentencize N nb hN hb hnb texts docs hd fuel hf hsize hhigh)
    fun files h mins hm => ?_
  obtain ⟨m, h1, H⟩ := h mins hm
  refine ⟨m, h1, fun tokens limit hne ht => ?_⟩
  have hs : ∀ i, 1 ≤ i → i < mins.length → Spec.suffixN i tokens ≠ [] ∧ (Spec.suffixN i tokens).length < mins.length := by
    intro i h1 h2
    have := List.length_pos_iff.mpr hne
    unfold Spec.suffixN
    constructor
    · intro e
      have := congrArg List.length e
      rw [List.length_drop, List.length_nil] at this
      omega
    · rw [List.length_drop]; omega
  have hnil : ∀ i, 1 ≤ i → i < mins.length → contsOf m.details (Spec.suffixN i tokens) = [] →
      Spec.enough (Spec.followers (Spec.suffixN i tokens) docs) (mins.getD (Spec.suffixN i tokens).length 0) = [] := by
    intro i h1 h2 e
    obtain ⟨a, b⟩ := hs i h1 h2
    rw [H.conts a b, List.map_eq_nil_iff] at e
    exact ((sortDesc_perm _ _).symm.trans (by rw [e])).eq_nil
  rcases C32_next_word h1 tokens ht limit with ⟨e, hall⟩ | ⟨i, full, hi1, hi2, hc, hj, hfull, hcut⟩
  · left
    rw [H.maxOrder] at hall
    exact ⟨e, fun i a b => hnil i a b (hall i a b)⟩
  · right
    rw [H.maxOrder] at hi2 hj
    obtain ⟨a, b⟩ := hs i hi1 hi2
    have hf := stableDesc_sorted hfull (H.conts_sorted a b)
    subst hf
    rw [H.conts a b] at hc hcut
    refine ⟨i, _, hi1, hi2, ?_, fun j h1 h2 => hnil j (by omega) h2 (hj j h1 h2), stableDesc_sortDesc _ _, hcut⟩
    intro e
    rw [e] at hc
    exact hc rfl

/-- **C116.** `best_ngram` among n-grams of the same loaded order: `None` iff none of them occurs in the texts as often as
the minimum of the order; otherwise the first one of those that occur most often. -/
theorem C116_best_ngram (hlog : ∀ p q, 0 < p → p < q → log p < log q) :
    Spec.Returns (Builder.call ⟨N, .mle, nb⟩ R sentencize fuel texts) fun files =>
    ∀ mins : List Int, mins.length ≤ N → ∃ m, LM.load R log (mins.zip files) = .ok m ∧
      ∀ (n : Nat) (gs : List Str), 1 ≤ n → n ≤ mins.length → (∀ g ∈ gs, (splitWs g).length = n) →
        (m.bestNgram gs = .ok none ∧ ∀ g ∈ gs, Spec.seen n (mins.getD (n - 1) 0) docs g = 0) ∨
        ∃ r, m.bestNgram gs = .ok (some r) ∧ 0 < Spec.seen n (mins.getD (n - 1) 0) docs r ∧
          Spec.FirstMax (Spec.seen n (mins.getD (n - 1) 0) docs) gs r := by
  refine Returns.mono (counted_built R log sentencize N nb hN hb hnb texts docs hd fuel hf hsize hhigh)
    fun files h mins hm => ?_
  obtain ⟨m, h1, H⟩ := h mins hm
  refine ⟨m, h1, fun n gs hn1 hn2 hgs => ?_⟩
  have hlt : ∀ a ∈ gs, ∀ b ∈ gs, m.logp a < m.logp b ↔
      Spec.seen n (mins.getD (n - 1) 0) docs a < Spec.seen n (mins.getD (n - 1) 0) docs b := by
    intro a ha b hb
    rw [H.logp hn1 hn2 (hgs a ha), H.logp hn1 hn2 (hgs b hb)]
    exact freqLog_lt_iff hlog (seen_le ..) (seen_le ..) (H.small n hn1 hn2)
  obtain ⟨⟨r, hr⟩, hnone, hsome⟩ := C29_best_ngram h1 gs
  cases r with
  | none =>
    left
    refine ⟨hr, fun g hg => ?_⟩
    have := hnone.mp hr g hg
    by_contra hx
    rw [(H.contains hn1 hn2 (hgs g hg)).mpr (by omega)] at this
    cases this
  | some r =>
    right
    obtain ⟨hk, pre, post, e, hpre, hpost⟩ := hsome r hr
    have hrm : r ∈ gs := by rw [e]; simp
    refine ⟨r, hr, (H.contains hn1 hn2 (hgs r hrm)).mp hk, pre, post, e, fun x hx => ?_, fun x hx => ?_⟩
    · exact (hlt x (by rw [e]; simp [hx]) r hrm).mp (hpre x hx)
    · have := hlt r hrm x (by rw [e]; simp [hx])
      by_contra hc
      exact absurd (hpost x hx) (not_le.mpr (this.mpr (by omega)))

/-- **C116.** `best_token`, for words without white space and with at least `N - 1` words of left context, or none:
`None` iff no token occurs in the texts as often as the minimum of the words; otherwise a token with the greatest
support, where the most frequent n-gram of the highest order around the token counts first, then that of the next order,
and so on down to the token itself; the last such token. -/
theorem C116_best_token (hlog : ∀ p q, 0 < p → p < q → log p < log q) :
    Spec.Returns (Builder.call ⟨N, .mle, nb⟩ R sentencize fuel texts) fun files =>
    ∀ mins : List Int, 1 ≤ mins.length → mins.length ≤ N → ∃ m, LM.load R log (mins.zip files) = .ok m ∧
      ∀ (tokens before after : List Str), (∀ w ∈ tokens ++ before ++ after, NoBlank w) →
        (mins.length - 1 ≤ before.length ∨ before = []) →
        (m.bestToken tokens before after = .ok none ∧ ∀ t ∈ tokens, Spec.seen 1 (mins.getD 0 0) docs t = 0) ∨
        ∃ i t, m.bestToken tokens before after = .ok (some t) ∧ tokens[i]? = some t ∧
          ∀ (j : Nat) (u : Str), tokens[j]? = some u →
            Spec.LexLe (Spec.support mins docs before after u) (Spec.support mins docs before after t) ∧
              (Spec.support mins docs before after u = Spec.support mins docs before after t → j ≤ i) := by
  refine Returns.mono (counted_built R log sentencize N nb hN hb hnb texts docs hd fuel hf hsize hhigh)
    fun files h mins hm1 hm => ?_
  obtain ⟨m, h1, H⟩ := h mins hm
  refine ⟨m, h1, fun tokens before after hw hctx => ?_⟩
  have hone : ∀ t ∈ tokens, (splitWs t).length = 1 := by
    intro t ht
    have := splitWs_join [t] fun w hw' => by
      rw [List.mem_singleton] at hw'
      subst hw'
      exact hw w (by simp [ht])
    simp only [join] at this
    rw [this]
    rfl
  obtain ⟨⟨r, hr⟩, hnone, hsome⟩ := C30_best_token m tokens before after
  cases r with
  | none =>
    left
    refine ⟨hr, fun t ht => ?_⟩
    have := hnone.mp hr t ht
    by_contra hx
    rw [(H.contains le_rfl hm1 (hone t ht)).mpr (by show 0 < Spec.seen 1 (mins.getD 0 0) docs t; omega)] at this
    cases this
  | some t =>
    right
    obtain ⟨i, hi, hmax⟩ := hsome t hr
    refine ⟨i, t, hr, hi, fun j u hu => ?_⟩
    obtain ⟨hle, hlast⟩ := hmax j u hu
    -- the vectors, order by order
    let ev : Str → Option Nat → WithBot ℚ := fun t o => match o with
      | some k => Spec.best ((candidateList before after t (mins.length - k)).map m.logp)
      | none => m.logp t
    let su : Str → Option Nat → Nat := fun t o => match o with
      | some k => ((Spec.windowsAround (mins.length - k) (before ++ [t] ++ after) before.length).map fun w =>
          Spec.seen (mins.length - k) (mins.getD (mins.length - k - 1) 0) docs (List.intercalate c!" " w)).foldr max 0
      | none => Spec.seen 1 (mins.getD 0 0) docs t
    let idx : List (Option Nat) := (List.range (mins.length - 1)).map some ++ [none]
    have eev : ∀ t, evidence m before after t = idx.map (ev t) := by
      intro t
      unfold evidence
      rw [H.maxOrder, List.map_append, List.map_map]
      rfl
    have esu : ∀ t, Spec.support mins docs before after t = idx.map (su t) := by
      intro t
      unfold Spec.support
      rw [List.map_append, List.map_map]
      rfl
    have hval : ∀ t ∈ tokens, ∀ o ∈ idx, ∃ n, 1 ≤ n ∧ n ≤ mins.length ∧ (∀ k, o = some k → n = mins.length - k) ∧
        (o = none → n = 1) ∧ ev t o = freqLog R log (Spec.orderTexts n docs).length (su t o) ∧
        su t o ≤ (Spec.orderTexts n docs).length := by
      intro t ht o ho
      rcases List.mem_append.mp ho with ho | ho
      · obtain ⟨k, hk, rfl⟩ := List.mem_map.mp ho
        rw [List.mem_range] at hk
        refine ⟨mins.length - k, by omega, by omega, fun k' hk' => by cases hk'; rfl, by simp, ?_⟩
        have hwords : ∀ v ∈ Spec.windowsAround (mins.length - k) (before ++ [t] ++ after) before.length,
            (splitWs (List.intercalate c!" " v)).length = mins.length - k := by
          intro v hv
          refine windowsAround_words ?_ hv
          intro w hwm
          apply hw
          simp only [List.mem_append, List.mem_singleton] at hwm ⊢
          rcases hwm with (hwm | rfl) | hwm
          · exact Or.inl (Or.inr hwm)
          · exact Or.inl (Or.inl ht)
          · exact Or.inr hwm
        have hb2 := best_freqLog (R := R) (log := log) hlog (H.small (mins.length - k) (by omega) (by omega))
          ((Spec.windowsAround (mins.length - k) (before ++ [t] ++ after) before.length).map fun w =>
            Spec.seen (mins.length - k) (mins.getD (mins.length - k - 1) 0) docs (List.intercalate c!" " w))
          (by
            intro c hc
            obtain ⟨w, -, rfl⟩ := List.mem_map.mp hc
            exact seen_le ..)
        refine ⟨?_, hb2.2⟩
        show Spec.best ((candidateList before after t (mins.length - k)).map m.logp) = _
        rw [CountedLM.candidates (N := mins.length) (by omega) (by omega) hctx]
        refine Eq.trans (congrArg Spec.best ?_) hb2.1
        rw [List.map_map, List.map_map]
        refine List.map_congr_left fun w hwm => ?_
        exact H.logp (by omega) (by omega) (hwords w hwm)
      · rw [List.mem_singleton] at ho
        subst ho
        exact ⟨1, le_rfl, hm1, by simp, by simp, H.logp le_rfl hm1 (hone t ht), seen_le ..⟩
    have htm : t ∈ tokens := List.mem_of_getElem? hi
    have hum : u ∈ tokens := List.mem_of_getElem? hu
    obtain ⟨ht1, ht2⟩ := lexLe_transfer (ev u) (ev t) (su u) (su t) idx (by
      intro o ho
      obtain ⟨n, a1, a2, a3, a4, a5, a6⟩ := hval u hum o ho
      obtain ⟨n', b1, b2, b3, b4, b5, b6⟩ := hval t htm o ho
      have : n = n' := by
        cases o with
        | none => rw [a4 rfl, b4 rfl]
        | some k => rw [a3 k rfl, b3 k rfl]
      subst this
      rw [a5, b5]
      exact ⟨freqLog_lt_iff hlog a6 b6 (H.small n a1 a2), freqLog_lt_iff hlog b6 a6 (H.small n a1 a2)⟩)
    rw [eev, eev] at hle hlast
    rw [esu, esu]
    exact ⟨ht1 hle, fun e => hlast (ht2.mpr e)⟩

end

/-! ### A concrete case -/

example : Spec.orderTexts 2 twoTexts ≠ [] ∧ (Spec.corpusTexts 2 twoTexts).length ≤ 2 ^ 51 := by decide +kernel
example : Spec.followers [c!"the"] twoTexts = [c!"cat", c!"cat"] ∧ Spec.followers [c!"cat"] twoTexts = [c!"sat"] := by
  decide +kernel
example : Spec.enough (Spec.orderTexts 1 twoTexts) 1 = [c!"the", c!"cat", c!"sat", c!"a"] ∧
    Spec.enough (Spec.orderTexts 1 twoTexts) 2 = [c!"the", c!"cat"] := by decide +kernel
/-- The most frequent word comes first although it is the second word of the texts. -/
example : Spec.ByFrequency (Spec.orderTexts 1 twoTexts) 1 [c!"cat", c!"the", c!"sat", c!"a"] := by
  have := stableDesc_sortDesc (fun t => (Spec.orderTexts 1 twoTexts).count t) (Spec.enough (Spec.orderTexts 1 twoTexts) 1)
  have e : sortDesc (fun t => (Spec.orderTexts 1 twoTexts).count t) (Spec.enough (Spec.orderTexts 1 twoTexts) 1) =
      [c!"cat", c!"the", c!"sat", c!"a"] := by decide +kernel
  rw [e] at this
  exact this
example : Spec.support [1, 1] twoTexts [c!"the"] [] c!"cat" = [2, 3] ∧ Spec.support [1, 1] twoTexts [c!"the"] [] c!"sat" = [0, 1] := by
  decide +kernel
/-- The files of these texts, see `Props/Builder.lean`. -/
def twoTextsFiles : List Str :=
  [c!"cat\t3\t0.42857142857142857\nthe\t2\t0.28571428571428571\nsat\t1\t0.14285714285714286\na\t1\t0.14285714285714286\n",
   c!"the cat\t2\t0.50000000000000000\ncat sat\t1\t0.25000000000000000\na cat\t1\t0.25000000000000000\n"]

example : (LM.load Rounding.exact (fun p => p) ([1, 1].zip twoTextsFiles)).map
    (fun m => (m.topNgrams 1 none).map fun e => (e.1, e.2.1)) =
      .ok [(c!"cat", 3), (c!"the", 2), (c!"sat", 1), (c!"a", 1)] := by decide +kernel
example : (LM.load Rounding.exact (fun p => p) ([1, 1].zip twoTextsFiles)).map
    (fun m => (m.nextWord [c!"see", c!"the"] none).map Prod.fst) = .ok [c!"cat"] := by decide +kernel
example : (LM.load Rounding.exact (fun p => p) ([1, 1].zip twoTextsFiles)).map
    (fun m => m.bestNgram [c!"sat", c!"dog", c!"the"]) = .ok (.ok (some c!"the")) := by decide +kernel
example : (LM.load Rounding.exact (fun p => p) ([1, 1].zip twoTextsFiles)).map
    (fun m => m.bestToken [c!"sat", c!"cat"] [c!"the"] []) = .ok (.ok (some c!"cat")) := by decide +kernel

end Props
