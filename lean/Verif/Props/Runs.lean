import Verif.Lemmas.Runs
import Verif.Props.Paragraphs

/-! # Property C124: language models of ordinary prose -/

namespace Props
open Py Model

/-- The sentences that the builder counts in ordinary prose. -/
theorem prose_docs (db : CharDB) {texts : List Str} {prose : List (List (List Spec.Chunk))}
    (h : List.Forall₂ (Spec.ProseText db) texts prose) :
    texts.mapM (sentencize db (tokenize db)) = .ok (prose.map Spec.proseSentences) := by
  induction h with
  | nil => rfl
  | cons hp _ ih =>
    obtain ⟨ls, h1, h2⟩ := hp
    rw [List.mapM_cons, C120_sentences db _ ls h1 _ h2, ih]
    rfl

/-- **C124.** A maximum likelihood model of texts of ordinary prose has the n-gram `ws` with a count of at least `c` iff the
words `ws` come one after another in the sentences of the texts at least `c` times, and as often as the minimum for n-grams
of this length. -/
theorem C124_counts (db : CharDB) (R : Rounding) (log : ℚ → ℚ) (N nb : Nat) (hN : 1 ≤ N) (hb : 1 ≤ nb) (hnb : nb ≤ 2 ^ 53)
    (texts : List Str) (prose : List (List (List Spec.Chunk))) (hp : List.Forall₂ (Spec.ProseText db) texts prose)
    (fuel : Nat) (hf : texts.length / nb < fuel)
    (hsize : N * (prose.flatMap Spec.proseSentences).flatten.length ≤ 2 ^ 53)
    (hhigh : ∃ ws, ws.length = N ∧ (∀ w ∈ ws, NoBlank w) ∧ 0 < Spec.runs ws (prose.flatMap Spec.proseSentences)) :
    Spec.Returns (Builder.call ⟨N, .mle, nb⟩ R (sentencize db (tokenize db)) fuel texts) fun files =>
      ∀ mins : List Int, mins.length ≤ N → ∃ m, LM.load R log (mins.zip files) = .ok m ∧
        ∀ (ws : List Str) (c : Int), (∀ w ∈ ws, NoBlank w) → (m.hasNgram (List.intercalate c!" " ws) c = true ↔
          1 ≤ c ∧ ∃ (n : Nat) (least : Int), ws.length = n + 1 ∧ mins[n]? = some least ∧
            max least c ≤ Spec.runs ws (prose.flatMap Spec.proseSentences)) := by
  have hflat : (prose.map Spec.proseSentences).flatten = prose.flatMap Spec.proseSentences := rfl
  have hhigh' : Spec.orderTexts N (prose.map Spec.proseSentences) ≠ [] := by
    obtain ⟨ws, h1, h2, h3⟩ := hhigh
    have hne : ws ≠ [] := by rintro rfl; simp at h1; omega
    rw [← hflat, ← orderTexts_runs h2 hne, h1] at h3
    exact List.ne_nil_of_mem (List.count_pos_iff.mp h3)
  refine Returns.mono (C92_mle_has_ngram R log (sentencize db (tokenize db)) N nb hN hb hnb texts _ (prose_docs db hp) fuel hf
    ((corpusTexts_size N _).trans hsize) hhigh') fun files h mins hm => ?_
  obtain ⟨m, h1, h2⟩ := h mins hm
  refine ⟨m, h1, fun ws c hws => ?_⟩
  rw [h2]
  refine and_congr_right fun hc => ?_
  constructor
  · rintro ⟨i, mn, hi, hle⟩
    have hmem : List.intercalate c!" " ws ∈ Spec.orderTexts (i + 1) (prose.map Spec.proseSentences) := by
      rw [← List.count_pos_iff]
      have := (le_max_right mn c).trans hle
      omega
    have hl := orderTexts_words (Nat.succ_pos i) hmem
    rw [← join_eq_intercalate, splitWs_join ws hws] at hl
    have hne : ws ≠ [] := by rintro rfl; simp at hl
    refine ⟨i, mn, hl, hi, ?_⟩
    rw [← hflat, ← orderTexts_runs hws hne, hl]
    exact hle
  · rintro ⟨n, least, hl, hi, hle⟩
    have hne : ws ≠ [] := by rintro rfl; simp at hl
    refine ⟨n, least, hi, ?_⟩
    rw [← hl, orderTexts_runs hws hne]
    exact hle

/-! ### A concrete case -/

example : Spec.ProseText asciiDB
    c!"They're late, \"so (probably) soon.\" We cannot  wait! \n\tGo (he said \"now\", twice) on" proseLines :=
  ⟨_, proseLines_lines, proseLines_ordinary⟩
/-- Words in quotation marks, after a comma or after the end of a sentence do not follow the word before. -/
example : Spec.runs [c!"not", c!"wait"] (Spec.proseSentences proseLines) = 1 ∧
    Spec.runs [c!"he", c!"said"] (Spec.proseSentences proseLines) = 1 ∧
    Spec.runs [c!"said", c!"now"] (Spec.proseSentences proseLines) = 0 ∧
    Spec.runs [c!"late", c!"so"] (Spec.proseSentences proseLines) = 0 ∧
    Spec.runs [c!"we"] (Spec.proseSentences proseLines) = 0 ∧ Spec.runs [c!"wait"] (Spec.proseSentences proseLines) = 1 ∧
    2 * (Spec.proseSentences proseLines).flatten.length ≤ 2 ^ 53 := by decide +kernel

end Props
