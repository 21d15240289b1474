import Verif.Lemmas.Copies
import Verif.Props.Corpora

/-! C123: a language model of a corpus in which every sentence is repeated. -/

namespace Props
open Py Model

section
variable {T T' : Type} (R : Rounding) (log : ℚ → ℚ) (sentencize : T → Except PyErr (List (List Str)))
  (sentencize' : T' → Except PyErr (List (List Str))) (N nb nb' : Nat) (texts : List T) (texts' : List T')
  (docs docs' : List (List (List Str))) (fuel fuel' : Nat)

/-- **C123.** Repeating every sentence of a corpus `k` times leaves the answers of the maximum likelihood model as they
are, when the minimal counts are `k` times as high; the counts become `k` times as high. -/
theorem C123_mle_partial (k : Nat) (hk : 1 ≤ k) (hb : 1 ≤ nb) (hnb : nb ≤ 2 ^ 53) (hb' : 1 ≤ nb') (hnb' : nb' ≤ 2 ^ 53)
    (hd : texts.mapM sentencize = .ok docs) (hd' : texts'.mapM sentencize' = .ok docs')
    (hf : texts.length / nb < fuel) (hf' : texts'.length / nb' < fuel') (hcopies : Spec.Copies k docs docs')
    (hsize : k * (Spec.corpusTexts N docs).length ≤ 2 ^ 53) (hN : 1 ≤ N) (hhigh : Spec.orderTexts N docs ≠ [])
    (sched sched' : Nat → List Move) (files files' : List Str)
    (h : Builder.call ⟨N, .mle, nb⟩ R sentencize fuel texts sched = .ok (some files))
    (h' : Builder.call ⟨N, .mle, nb'⟩ R sentencize' fuel' texts' sched' = .ok (some files')) (mins : List Int)
    (hm : mins.length ≤ N) : ∃ m m', LM.load R log (mins.zip files) = .ok m ∧
      LM.load R log ((mins.map fun c => (k : Int) * c).zip files') = .ok m' ∧ Spec.ScaledAnswers k m m' := by
  have hsize0 : (Spec.corpusTexts N docs).length ≤ 2 ^ 53 := (Nat.le_mul_of_pos_left _ hk).trans hsize
  have hlen := corpusTexts_length_copies hcopies N
  have hhigh' : Spec.orderTexts N docs' ≠ [] := by
    obtain ⟨t, ht⟩ := List.exists_mem_of_ne_nil _ hhigh
    exact List.ne_nil_of_mem ((orderTexts_mem_copies hk hcopies N t).mpr ht)
  have c1 := (C92_mle R log sentencize N nb hN hb hnb texts docs hd fuel hf hsize0 hhigh).1 sched
  have c2 := (C92_mle R log sentencize' N nb' hN hb' hnb' texts' docs' hd' fuel' hf' (hlen ▸ hsize) hhigh').1 sched'
  rw [h] at c1
  rw [h'] at c2
  rcases c1 with c1 | ⟨_, e1, -, c1⟩
  · cases c1
  rcases c2 with c2 | ⟨_, e2, -, c2⟩
  · cases c2
  cases e1
  cases e2
  obtain ⟨m, l1, o1, g1⟩ := c1 mins hm
  obtain ⟨m', l2, o2, g2⟩ := c2 (mins.map fun c => (k : Int) * c) (by rw [List.length_map]; exact hm)
  rw [List.length_map] at o2
  refine ⟨m, m', l1, l2, scaledAnswers hk l1 l2 (o1.trans o2.symm) fun t => ?_⟩
  have hk' : (0 : Int) < k := by omega
  have hkq : (k : ℚ) ≠ 0 := by exact_mod_cast (by omega : k ≠ 0)
  apply Option.ext
  rintro ⟨n', q, l⟩
  rw [g2, Option.map_eq_some_iff]
  constructor
  · rintro ⟨⟨n, q', l'⟩, h1, h2⟩
    cases h2
    obtain ⟨i, mn, hi, ht, hn, hmn, hq, hl⟩ := (g1 t n q l).mp h1
    refine ⟨i, k * mn, by rw [List.getElem?_map, hi]; rfl, (orderTexts_mem_copies hk hcopies _ t).mpr ht, ?_, ?_, ?_, hl⟩
    · rw [orderTexts_count_copies hcopies, hn]
      push_cast
      rfl
    · exact mul_le_mul_of_nonneg_left hmn hk'.le
    · rw [orderTexts_count_copies hcopies, orderTexts_length_copies hcopies]
      push_cast
      rw [mul_div_mul_left _ _ hkq]
      exact hq
  · rintro ⟨i, mn', hi, ht, hn, hmn, hq, hl⟩
    rw [List.getElem?_map, Option.map_eq_some_iff] at hi
    obtain ⟨mn, hi, rfl⟩ := hi
    rw [orderTexts_count_copies hcopies] at hn
    push_cast at hn
    refine ⟨(((Spec.orderTexts (i + 1) docs).count t : Int), q, l), (g1 t _ q l).mpr ⟨i, mn, hi,
      (orderTexts_mem_copies hk hcopies _ t).mp ht, rfl, ?_, ?_, hl⟩, ?_⟩
    · rw [hn] at hmn
      exact le_of_mul_le_mul_left hmn hk'
    · rw [orderTexts_count_copies hcopies, orderTexts_length_copies hcopies] at hq
      push_cast at hq
      rw [mul_div_mul_left _ _ hkq] at hq
      exact hq
    · rw [hn]
      rfl

/-- **C123.** With modified Kneser-Ney smoothing a corpus in which every sentence occurs at least twice is refused: no
n-gram occurs once. -/
theorem C123_mkn_refused (k : Nat) (hk : 2 ≤ k) (hb' : 1 ≤ nb') (hd' : texts'.mapM sentencize' = .ok docs')
    (hf' : texts'.length / nb' < fuel') (hcopies : Spec.Copies k docs docs') (hN : 2 ≤ N) (sched' : Nat → List Move) :
    Builder.call ⟨N, .mkn, nb'⟩ R sentencize' fuel' texts' sched' = .error .notEnoughData :=
  C92_mkn_not_enough_data R sentencize' N nb' hb' texts' docs' hd' fuel' hf' (copies_poor hk hcopies hN) sched'

end

/-! ### Concrete cases -/

/-- Every sentence of `twoTexts` twice, the second time in another text. -/
def twiceTexts : List (List (List Str)) := twoTexts ++ [twoTexts.flatten.reverse]

example : Spec.Copies 2 twoTexts twiceTexts := by
  unfold Spec.Copies twiceTexts
  rw [List.flatten_append, List.flatten_cons, List.flatten_nil, List.append_nil]
  show (twoTexts.flatten ++ (twoTexts.flatten ++ [])).Perm _
  rw [List.append_nil]
  exact ((List.reverse_perm _).symm).append_left _
example : Spec.orderTexts 2 twoTexts ≠ [] ∧ 2 * (Spec.corpusTexts 2 twoTexts).length ≤ 2 ^ 53 := by decide +kernel
example : Builder.call ⟨2, .mle, 1⟩ Rounding.exact (fun d => .ok d) 4 twiceTexts (fun _ => demoMoves) =
    .ok (some [c!"cat\t6\t0.42857142857142857\nthe\t4\t0.28571428571428571\nsat\t2\t0.14285714285714286\na\t2\t0.14285714285714286\n",
      c!"the cat\t4\t0.50000000000000000\ncat sat\t2\t0.25000000000000000\na cat\t2\t0.25000000000000000\n"]) := by
  decide +kernel

/-- **C123** is false for modified Kneser-Ney smoothing: a model can be built from these texts, but not from the same texts
read twice. -/
theorem C123_mkn_false (R : Rounding) (nb : Nat) (hb : 1 ≤ nb) (hnb : nb ≤ 2 ^ 53) (sched : Nat → List Move) :
    Spec.Returns (Builder.call ⟨2, .mkn, nb⟩ R (fun d => .ok d) 3 demoCorpus) (fun files => files.length = 2) ∧
    Builder.call ⟨2, .mkn, nb⟩ R (fun d => .ok d) 3 (demoCorpus ++ demoCorpus) sched = .error .notEnoughData := by
  obtain ⟨h1, h2, h3⟩ := demoCorpus_rich
  constructor
  · refine Returns.mono (C92_mkn_partial R (fun q => q) (fun d => .ok d) 2 nb le_rfl hb hnb demoCorpus demoCorpus rfl 3
      ?_ h2 h1 h3) fun files h => h.1
    show 1 / nb < 3
    exact lt_of_le_of_lt (Nat.div_le_self 1 nb) (by omega)
  · refine C123_mkn_refused R (fun d => .ok d) 2 nb (demoCorpus ++ demoCorpus) demoCorpus (demoCorpus ++ demoCorpus) 3 2
      le_rfl hb rfl ?_ ?_ le_rfl sched
    · show 2 / nb < 3
      exact lt_of_le_of_lt (Nat.div_le_self 2 nb) (by omega)
    · unfold Spec.Copies
      rw [List.flatten_append]
      show (demoCorpus.flatten ++ (demoCorpus.flatten ++ [])).Perm _
      rw [List.append_nil]

end Props
