import Verif.Lemmas.Ngrams

/-! C17–C20: n-gram extraction, the store and the reading loop of the builder. -/

namespace Props
open Py Model

/-- C17: for every order at least 1 the extraction never raises and lists, sentence by sentence and left to right, the
lower-cased text of exactly the windows made of plain words. -/
theorem C17_extract_ngrams (sents : List (List Str)) (n : Nat) (hn : 1 ≤ n) :
    extractNgrams sents n = .ok (sents.flatMap fun l =>
      (((List.range (l.length + 1 - n)).map fun k => (l.drop k).take n).filter
        fun w => ∀ t ∈ w, Spec.PlainWord t).map fun w => (List.intercalate [' '] w).map Char.toLower) :=
  extractNgrams_eq sents hn

/-- C17: which texts occur: exactly those of a run of `n` consecutive plain words of one sentence. -/
theorem C17_extract_ngrams_mem (sents : List (List Str)) (n : Nat) (hn : 1 ≤ n) (t : Str) :
    ∃ out, extractNgrams sents n = .ok out ∧ (t ∈ out ↔ ∃ l ∈ sents, ∃ w, w.length = n ∧ w <:+: l ∧
      (∀ x ∈ w, Spec.PlainWord x) ∧ Spec.windowText w = t) :=
  ⟨_, extractNgrams_eq sents hn, mem_ngramTexts hn⟩

example : extractNgrams [[c!"Paris", c!"is", c!"what", c!"I", c!"love", c!"!"], [c!"so", c!"nice"]] 2 =
    .ok [c!"is what", c!"what i", c!"i love", c!"so nice"] := by decide +kernel

/-- C18: after any sequence of calls the store has one n-gram per distinct text, in first-seen order, counting the
calls made with that text. -/
theorem C18_store_counts (texts : List Str) :
    texts.foldl makeNgram [] = (Spec.distinctInOrder texts).map fun t => (t, { text := t, count := texts.count t }) := by
  have := foldl_makeNgram [] texts
  simpa [storeOf, Spec.distinctInOrder] using this

example : [c!"a", c!"b", c!"a"].foldl makeNgram [] =
    [(c!"a", { text := c!"a", count := 2 }), (c!"b", { text := c!"b", count := 1 })] := by decide +kernel

/-- C19: with at least one process the loop ends within `len / p + 1` rounds, every text is sentencized, and the store
counts the n-gram texts of orders `1..N` of all texts taken one after the other. An error of the sentencizer is
raised. Nothing depends on the number of processes. -/
theorem C19_builder_counts {T} (sentencize : T → Except PyErr (List (List Str))) (N p : Nat) (hp : 1 ≤ p)
    (iter : List T) (fuel : Nat) (hf : iter.length / p < fuel) :
    readTexts sentencize N p fuel iter [] = (iter.mapM sentencize).map fun docs =>
      some ((Spec.distinctInOrder (Spec.corpusTexts N docs)).map fun t =>
        (t, { text := t, count := (Spec.corpusTexts N docs).count t })) := by
  have := readTexts_eq sentencize N p hp fuel iter [] hf
  simpa [storeOf, Spec.distinctInOrder] using this

/-- C19: two process counts give the same store. -/
theorem C19_builder_process_independent {T} (sentencize : T → Except PyErr (List (List Str))) (N p q : Nat)
    (hp : 1 ≤ p) (hq : 1 ≤ q) (iter : List T) :
    readTexts sentencize N p (iter.length + 1) iter [] = readTexts sentencize N q (iter.length + 1) iter [] := by
  rw [C19_builder_counts _ _ _ hp _ _ (Nat.lt_succ_of_le (Nat.div_le_self _ _)),
    C19_builder_counts _ _ _ hq _ _ (Nat.lt_succ_of_le (Nat.div_le_self _ _))]

example : readTexts (fun t : List (List Str) => .ok t) 2 2 3
    [[[c!"a", c!"b"]], [[c!"b", c!"a"], [c!"a", c!"b"]], [[c!"b"]]] [] =
    .ok (some [(c!"a", { text := c!"a", count := 3 }), (c!"b", { text := c!"b", count := 4 }),
      (c!"a b", { text := c!"a b", count := 2 }), (c!"b a", { text := c!"b a", count := 1 })]) := by decide +kernel

/-- C20: in a store made by the builder every contiguous, non-empty part of the words of a stored n-gram is stored with
at least the same count; and an n-gram is the blank-separated join of 1 to `N` lower-cased alphabetic words. -/
theorem C20_store_closed {T} (sentencize : T → Except PyErr (List (List Str))) (N p fuel : Nat) (hp : 1 ≤ p)
    (iter : List T) (hf : iter.length / p < fuel) (s : Store)
    (h : readTexts sentencize N p fuel iter [] = .ok (some s)) :
    ∀ g ∈ Dict.values s, g.text = join c!" " g.tokens ∧ 1 ≤ g.tokens.length ∧ g.tokens.length ≤ N ∧
      (∀ t ∈ g.tokens, t ≠ [] ∧ ∀ c ∈ t, c.isAlpha = true) ∧
      ∀ part, part <:+: g.tokens → part ≠ [] →
        ∃ g' ∈ Dict.values s, g'.text = join c!" " part ∧ g'.tokens = part ∧ g.count ≤ g'.count := by
  have e := readTexts_eq sentencize N p hp fuel iter [] hf
  rw [show storeOf [] = [] from rfl, h] at e
  cases hm : iter.mapM sentencize with
  | error err => rw [hm] at e; simp [Except.map] at e
  | ok docs =>
    rw [hm] at e
    simp only [Except.map, Except.ok.injEq, Option.some.injEq, List.nil_append] at e
    subst e
    have hval : ∀ t ∈ Spec.corpusTexts N docs,
        ({ text := t, count := (Spec.corpusTexts N docs).count t } : Ngram) ∈
          Dict.values (storeOf (Spec.corpusTexts N docs)) := by
      intro t ht
      unfold Dict.values storeOf
      rw [List.map_map]
      exact List.mem_map.mpr ⟨t, mem_distinctInOrder.mpr ht, rfl⟩
    intro g hg
    unfold Dict.values storeOf at hg
    rw [List.map_map] at hg
    obtain ⟨t, ht, rfl⟩ := List.mem_map.mp hg
    rw [mem_distinctInOrder] at ht
    obtain ⟨d, hd, l, hl, w, h0, hN, hwl, hplain, rfl⟩ := mem_corpusTexts.mp ht
    have htok : splitWs (Spec.windowText w) = w.map lowerWord := tokens_windowText hplain
    have halph := alphabetic_of_plain hplain
    simp only [Function.comp, Ngram.tokens, htok, List.length_map]
    refine ⟨windowText_join w, h0, hN, halph, ?_⟩
    rintro part ⟨pre, post, hpp⟩ hne
    have hall : ∀ t ∈ pre ++ part ++ post, Alphabetic t := by rw [hpp]; exact halph
    have hle := count_corpus_le (N := N) docs hall hne (by rw [hpp, List.length_map]; exact hN)
    rw [hpp, ← windowText_join] at hle
    refine ⟨_, hval (join c!" " part) ?_, rfl, ?_, hle⟩
    · rw [← List.count_pos_iff]
      exact Nat.lt_of_lt_of_le (List.count_pos_iff.mpr ht) hle
    · exact splitWs_join_alphabetic fun t ht => hall t (by simp [ht])

example : ∃ s, readTexts (fun t : List (List Str) => .ok t) 3 2 2 [[[c!"a", c!"b", c!"c"]]] [] = .ok (some s) ∧
    s.length = 6 := by refine ⟨_, rfl, ?_⟩; decide +kernel

end Props
