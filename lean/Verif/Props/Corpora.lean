import Verif.Lemmas.Corpora

/-! C118: a language model depends on the sentences it is built from, not on their order. -/

namespace Props
open Py Model

section
variable {T T' : Type} (R : Rounding) (log : ℚ → ℚ) (sentencize : T → Except PyErr (List (List Str)))
  (sentencize' : T' → Except PyErr (List (List Str))) (N nb nb' : Nat) (hb : 1 ≤ nb) (hnb : nb ≤ 2 ^ 53)
  (hb' : 1 ≤ nb') (hnb' : nb' ≤ 2 ^ 53) (texts : List T) (texts' : List T') (docs docs' : List (List (List Str)))
  (hd : texts.mapM sentencize = .ok docs) (hd' : texts'.mapM sentencize' = .ok docs') (fuel fuel' : Nat)
  (hf : texts.length / nb < fuel) (hf' : texts'.length / nb' < fuel') (hsame : Spec.SameSentences docs docs')
  (hsize : (Spec.corpusTexts N docs).length ≤ 2 ^ 53)

include hb hnb hb' hnb' hd hd' hf hf' hsame hsize

/-- **C118.** Maximum likelihood models built from the same sentences — in any order, cut into texts in any way, with any
numbers of threads — give the same answers. -/
theorem C118_mle (hN : 1 ≤ N) (hhigh : Spec.orderTexts N docs ≠ []) (sched sched' : Nat → List Move)
    (files files' : List Str) (h : Builder.call ⟨N, .mle, nb⟩ R sentencize fuel texts sched = .ok (some files))
    (h' : Builder.call ⟨N, .mle, nb'⟩ R sentencize' fuel' texts' sched' = .ok (some files')) (mins : List Int)
    (hm : mins.length ≤ N) : ∃ m m', LM.load R log (mins.zip files) = .ok m ∧
      LM.load R log (mins.zip files') = .ok m' ∧ Spec.SameAnswers m m' := by
  have hsize' : (Spec.corpusTexts N docs').length ≤ 2 ^ 53 := by rw [← (corpusTexts_perm hsame N).length_eq]; exact hsize
  have hhigh' : Spec.orderTexts N docs' ≠ [] := by
    intro e
    have := (orderTexts_perm hsame N).length_eq
    rw [e, List.length_nil, List.length_eq_zero_iff] at this
    exact hhigh this
  have c1 := (C92_mle R log sentencize N nb hN hb hnb texts docs hd fuel hf hsize hhigh).1 sched
  have c2 := (C92_mle R log sentencize' N nb' hN hb' hnb' texts' docs' hd' fuel' hf' hsize' hhigh').1 sched'
  rw [h] at c1
  rw [h'] at c2
  rcases c1 with c1 | ⟨_, e1, -, c1⟩
  · cases c1
  rcases c2 with c2 | ⟨_, e2, -, c2⟩
  · cases c2
  cases e1
  cases e2
  obtain ⟨m, l1, o1, g1⟩ := c1 mins hm
  obtain ⟨m', l2, o2, g2⟩ := c2 mins hm
  refine ⟨m, m', l1, l2, sameAnswers l1 l2 (o1.trans o2.symm) (get?_ext fun t n q l => ?_)⟩
  rw [g1, g2]
  have hp := fun i => orderTexts_perm hsame (i + 1)
  simp only [(hp _).mem_iff, (hp _).count_eq, (hp _).length_eq]

/-- **C118.** The same for modified Kneser-Ney smoothing, as long as no positive probability is so small that it is written
as zero. -/
theorem C118_mkn (hN : 2 ≤ N) (hrich : ¬ (Spec.corpusVocab N docs).Poor N)
    (hbig : ∀ t ∈ Spec.corpusTexts N docs, 0 < (Spec.corpusVocab N docs).mkn (splitWs t) →
      1 / (2 * 10 ^ 17) < (Spec.corpusVocab N docs).mkn (splitWs t)) (sched sched' : Nat → List Move)
    (files files' : List Str) (h : Builder.call ⟨N, .mkn, nb⟩ R sentencize fuel texts sched = .ok (some files))
    (h' : Builder.call ⟨N, .mkn, nb'⟩ R sentencize' fuel' texts' sched' = .ok (some files')) (mins : List Int)
    (hm : mins.length ≤ N) : ∃ m m', LM.load R log (mins.zip files) = .ok m ∧
      LM.load R log (mins.zip files') = .ok m' ∧ Spec.SameAnswers m m' := by
  have hv := corpusVocab_perm hsame N
  have hmkn := mkn_perm hv (corpusVocab_nodup N docs)
  have hsize' : (Spec.corpusTexts N docs').length ≤ 2 ^ 53 := by rw [← (corpusTexts_perm hsame N).length_eq]; exact hsize
  have hrich' : ¬ (Spec.corpusVocab N docs').Poor N := by rw [← Poor_perm hv]; exact hrich
  have c1 := (C92_mkn_partial R log sentencize N nb hN hb hnb texts docs hd fuel hf hsize hrich hbig).1 sched
  have c2 := (C92_mkn_partial R log sentencize' N nb' hN hb' hnb' texts' docs' hd' fuel' hf' hsize' hrich' (by
    intro t ht
    rw [← hmkn]
    exact hbig t ((corpusTexts_perm hsame N).mem_iff.mpr ht))).1 sched'
  rw [h] at c1
  rw [h'] at c2
  rcases c1 with c1 | ⟨_, e1, -, c1⟩
  · cases c1
  rcases c2 with c2 | ⟨_, e2, -, c2⟩
  · cases c2
  cases e1
  cases e2
  obtain ⟨m, l1, o1, g1⟩ := c1 mins hm
  obtain ⟨m', l2, o2, g2⟩ := c2 mins hm
  refine ⟨m, m', l1, l2, sameAnswers l1 l2 (o1.trans o2.symm) (get?_ext fun t n q l => ?_)⟩
  rw [g1, g2]
  have hp := fun i => orderTexts_perm hsame (i + 1)
  simp only [(hp _).mem_iff, (hp _).count_eq, hmkn]

end

/-! ### A concrete case -/

/-- The sentences of `twoTexts`, the other way round and in a single text. -/
def oneText : List (List (List Str)) := [twoTexts.flatten.reverse]

example : Spec.SameSentences twoTexts oneText := by
  unfold Spec.SameSentences oneText
  rw [List.flatten_cons, List.flatten_nil, List.append_nil]
  exact (List.reverse_perm _).symm
example : twoTexts ≠ oneText ∧ Spec.orderTexts 2 twoTexts ≠ [] ∧ (Spec.corpusTexts 2 twoTexts).length ≤ 2 ^ 53 := by
  decide +kernel
/-- Its files: equally probable n-grams change places, so the lists of a model are the same up to their order only. -/
example : Builder.call ⟨2, .mle, 1⟩ Rounding.exact (fun d => .ok d) 2 oneText (fun _ => demoMoves) =
    .ok (some [c!"cat\t3\t0.42857142857142857\nthe\t2\t0.28571428571428571\na\t1\t0.14285714285714286\nsat\t1\t0.14285714285714286\n",
      c!"the cat\t2\t0.50000000000000000\na cat\t1\t0.25000000000000000\ncat sat\t1\t0.25000000000000000\n"]) := by
  decide +kernel
/-- A corpus for modified Kneser-Ney smoothing. -/
example : ¬ (Spec.corpusVocab 2 demoCorpus).Poor 2 ∧ (Spec.corpusTexts 2 demoCorpus).length ≤ 2 ^ 53 ∧
    ∀ t ∈ Spec.corpusTexts 2 demoCorpus, 0 < (Spec.corpusVocab 2 demoCorpus).mkn (splitWs t) →
      1 / (2 * 10 ^ 17) < (Spec.corpusVocab 2 demoCorpus).mkn (splitWs t) := demoCorpus_rich
example : Spec.SameSentences demoCorpus [demoCorpus.flatten.reverse] := by
  unfold Spec.SameSentences
  rw [List.flatten_cons, List.flatten_nil, List.append_nil]
  exact (List.reverse_perm _).symm

end Props
