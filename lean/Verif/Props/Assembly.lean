import Verif.Model.Assembly
import Verif.Lemmas.TestHelpers
import Verif.Props.Builder
import Verif.Props.Lexicon
import Verif.Props.Networks
import Verif.Props.Pipeline
import Verif.Props.Samples
import Verif.Props.Semantics
import Verif.Props.Sentences
import Verif.Props.Wordset

/-! C97: the assembled pipeline, from the files it reads to the documents it returns. -/

namespace Props
open Py Model Spec

/-- **C97.** The constructor succeeds iff the two n-gram files load, every line of the five tables has exactly one tab, and
the character set is not empty. -/
theorem C97_constructor {α : Type} [Zero α] (R : Rounding) (log : ℚ → ℚ) (lower : Str → Str) (f : DataFiles α) :
    (∃ r, pipelineInit R log lower f = .ok r) ↔
      (∃ m, LM.load R log [(1, f.grams1), (1, f.grams2)] = .ok m) ∧
      (∀ t ∈ [f.preterits, f.pps, f.plurals, f.comparatives, f.superlatives],
        ∀ line ∈ fileLines t, (strip line).count '\t' = 1) ∧ f.charset ≠ [] := by
  have hd : ∀ content : Str, (∀ line ∈ fileLines content, (strip line).count '\t' = 1) ↔
      ∃ d, loadDict content = .ok d := by
    intro content
    obtain ⟨h1, h2⟩ := C86_load_dict_raises content
    cases hl : loadDict content with
    | ok d =>
      rw [hl] at h1
      refine ⟨fun _ => ⟨d, rfl⟩, fun _ line hm => ?_⟩
      by_contra hc
      cases h1.mpr ⟨line, hm, hc⟩
    | error e =>
      obtain rfl := h2 e hl
      rw [hl] at h1
      obtain ⟨line, hm, hc⟩ := h1.mp rfl
      exact ⟨fun h => absurd (h line hm) hc, fun ⟨d, h⟩ => by cases h⟩
  have hc : f.charset ≠ [] ↔ ∃ cs, Charset.load f.charset = .ok cs := by
    unfold Charset.load
    cases h : f.charset with
    | nil => simp [Dict.values]
    | cons p l =>
      have : (Dict.values (p :: l)).max? ≠ none := by simp [Dict.values]
      cases hm : (Dict.values (p :: l)).max? with
      | none => exact absurd hm this
      | some m => simp
  simp only [List.forall_mem_cons, List.not_mem_nil, false_imp_iff, implies_true, and_true, hd, hc]
  unfold pipelineInit Logic.init Tables.load
  simp only [bind, Except.bind, pure, Except.pure]
  cases LM.load R log [(1, f.grams1), (1, f.grams2)] <;> cases loadDict f.preterits <;> cases loadDict f.pps <;>
    cases loadDict f.plurals <;> cases loadDict f.comparatives <;> cases loadDict f.superlatives <;>
    cases Charset.load f.charset <;> simp

/-- **C97.** Each file plays its own part: with the shipped tables every listed irregular form is lemmatized to the lemma of
its line, the participle of a lemma is the listed one, the adjectives and nouns are the lines of their files, and the language
model holds the n-grams of the two files. -/
theorem C97_files {α : Type} [Zero α] {R : Rounding} {log : ℚ → ℚ} {lower : Str → Str} {f : DataFiles α} {c : Logic}
    {v : List Str → Except PyErr (Nat × List (List Nat) × List (List α))} (hi : pipelineInit R log lower f = .ok (c, v)) :
    LM.load R log [(1, f.grams1), (1, f.grams2)] = .ok c.lemmatizer.lm ∧ c.lower = lower ∧
    (∀ w, w ∈ c.lemmatizer.adjs ↔ ∃ line ∈ fileLines f.adjs, w = strip line) ∧
    (∀ w, w ∈ c.nouns ↔ ∃ line ∈ fileLines f.nouns, w = strip line) ∧
    (f.preterits = fileContent irregularPreteritsLines → f.pps = fileContent irregularPastParticiplesLines →
      f.plurals = fileContent irregularPluralsLines → f.comparatives = fileContent irregularComparativesLines →
      f.superlatives = fileContent irregularSuperlativesLines →
      (∀ e ∈ [(Tag.VERB, Suffix.PAST, irregularPreteritsLines), (.VERB, .PAST, irregularPastParticiplesLines),
          (.NOUN, .PLURAL, irregularPluralsLines), (.ADJ, .COMPARATIVE, irregularComparativesLines),
          (.ADJ, .SUPERLATIVE, irregularSuperlativesLines)], ∀ form lem w : Str, form ++ '\t' :: lem ∈ e.2.2 → lower w = form →
        c.lemmatizer.call w e.1 = .ok (lem, some e.2.1)) ∧
      ∀ lem pp, pp ++ '\t' :: lem ∈ irregularPastParticiplesLines → c.pp lem = pp) := by
  unfold pipelineInit Logic.init at hi
  simp only [bind, Except.bind, pure, Except.pure] at hi
  cases hm : LM.load R log [(1, f.grams1), (1, f.grams2)] with
  | error e => rw [hm] at hi; cases hi
  | ok m =>
    cases ht : Tables.load f.preterits f.pps f.plurals f.comparatives f.superlatives with
    | error e => rw [hm, ht] at hi; cases hi
    | ok t =>
      cases hcs : Charset.load f.charset with
      | error e => rw [hm, ht, hcs] at hi; cases hi
      | ok cs =>
        rw [hm, ht, hcs] at hi
        obtain ⟨rfl, -⟩ := Prod.mk.inj (Except.ok.inj hi)
        refine ⟨rfl, rfl, fun w => C86_load_set f.adjs w, fun w => C86_load_set f.nouns w, ?_⟩
        intro h1 h2 h3 h4 h5
        have hs : shippedTables = .ok t := by rw [← ht, h1, h2, h3, h4, h5]; rfl
        refine ⟨fun e he form lem w h hw => C87_listed_forms hs lower m (loadSet f.adjs) e he form lem w h hw, ?_⟩
        intro lem pp h
        unfold Logic.pp
        show (match pastParticiple m [[]] t.lemmaPP lem with | .ok s => s | .error _ => []) = pp
        rw [C87_past_participle hs m [[]] lem pp h]

/-- A language model that knows only n-grams of texts has words. -/
theorem hasWords_of_orderTexts {m : LM} {docs : List (List (List Str))}
    (h : ∀ t x, Dict.get? m.details t = some x → ∃ i, t ∈ Spec.orderTexts (i + 1) docs) : HasWords m := by
  intro g hg
  unfold LM.contains at hg
  rw [Dict.has_iff] at hg
  obtain ⟨x, hx⟩ := Option.isSome_iff_exists.mp ((Dict.get?_isSome_iff _ _).mpr hg)
  obtain ⟨i, hi⟩ := h g x hx
  have := ((orderTexts_spec (N := i + 1) (Nat.succ_pos i) le_rfl g).1.mp hi).2
  exact splitWs_ne.mp (by intro e; rw [e] at this; cases this)

section
variable {α F : Type} [Zero α] [LinearOrder F] {R : Rounding} {log : ℚ → ℚ} {lower : Str → Str}

/-- Networks that predict by the given scores. -/
structure Predicts {W : Type} (s : ScoreNets F W) (nets : Networks W) : Prop where
  tags : ∀ ws, predictSeqs (s.tags ws) = .ok (nets.tags ws)
  deps : ∀ ts ws, predictSeqs (s.deps ts ws) = .ok (nets.deps ts ws)
  trans : ∀ rows, predictCodes (s.trans rows) = .ok ((nets.trans rows).map Trans.code)

theorem Predicts.ok {W : Type} {s : ScoreNets F W} {nets : Networks W} (h : Predicts s nets) (hs : ScoreShapes s) :
    NetsOk nets := by
  obtain ⟨n, hn, h1, h2, h3⟩ := C91_predictions s hs
  have : nets = n := by
    obtain ⟨a, b, c⟩ := nets
    obtain ⟨a', b', c'⟩ := n
    congr
    · funext ws; have := h.tags ws; rw [h1] at this; exact (Except.ok.inj this).symm
    · funext ts ws; have := h.deps ts ws; rw [h2] at this; exact (Except.ok.inj this).symm
    · funext rows
      have := h.trans rows
      rw [h3] at this
      simp only [Except.ok.injEq] at this
      have hinj : Function.Injective Trans.code := by
        intro x y; cases x <;> cases y <;> decide
      exact (List.map_injective_iff.mpr hinj this).symm
  rw [this]; exact hn

/-- What makes the files of a pipeline good: the shipped tables, a character set saved by `Charset.save`, word vectors saved by
`Wordset.save` from a file with 100 numbers for every known word. -/
structure GoodFiles (f : DataFiles α) : Prop where
  tables : Tables.load f.preterits f.pps f.plurals f.comparatives f.superlatives = shippedTables
  charset : ∃ chars : List Char, chars.Perm charsetChars ∧ f.charset = Charset.codes chars
  vectors : ∃ (toFloat : Str → Except PyErr α) (num : Str → α) (lm : LM) (rows : List (Str × List Str)) (e : Str)
    (closed : Bool), e ∈ [c!"\n", c!"\r\n", c!"\r"] ∧
    (∀ r ∈ rows, ∀ x ∈ r.1 :: r.2, x ≠ [] ∧ ∀ c ∈ x, isSpace c = false) ∧
    (∀ r ∈ rows, lm.hasNgram r.1 1 = true → r.2.length = 100 ∧ ∀ x ∈ r.2, toFloat x = .ok (num x)) ∧
    wordsetSave toFloat lm (Spec.textLines (rows.map fun r => join c!" " (r.1 :: r.2)) e closed) = .ok f.wordVectors

/-- The text is one that the sentencizer takes (C71). -/
def Readable (text : Str) : Prop := Spec.Writing text ∧ ∀ c ∈ ['༺', '༻', '⦅', '⦆'], c ∉ text

/-- Sentencizing readable training texts gives the hypothesis of the next theorem. -/
theorem readable_mapM (db : CharDB) {train : List Str} (htrain : ∀ t ∈ train, Readable t) :
    ∃ docs, train.mapM (sentencize db (tokenize db)) = .ok docs := by
  obtain ⟨docs, h, -⟩ := mapM_ok_of_forall (f := sentencize db (tokenize db)) (l := train)
    fun t ht => C71_returns_partial db t (htrain t ht).1 (htrain t ht).2
  exact ⟨docs, h⟩

/-- All character codes given to the networks are below the size of the character set. -/
def CodesKnown (f : DataFiles α)
    (vectorize : List Str → Except PyErr (Nat × List (List Nat) × List (List α))) : Prop :=
  ∃ cs, Charset.load f.charset = .ok cs ∧ ∀ tokens n chars vecs, vectorize tokens = .ok (n, chars, vecs) →
    ∀ row ∈ chars, ∀ code ∈ row, code < cs.len

/-- Called on any readable texts the pipeline raises nothing, can return from any point of any schedule, and when it has
returned there is one document per text, in order, with one sentence per resplit sentence of the text. Every tuple has one
of the documented shapes and can only be negative in its second argument. -/
def Works {W : Type} (db : CharDB) (nets : Networks W) (vectorize : List Str → Except PyErr (Nat × W))
    (c : Logic) : Prop :=
  ∀ (texts : List Str), (∀ t ∈ texts, Readable t) → ∀ (chunk : Bool) (cfg : PipelineCfg), 0 < cfg.nbCores →
    0 < cfg.batchSize →
    (∀ e, pipelineCall cfg (sentencize db (tokenize db)) vectorize nets c texts chunk ≠ .error e) ∧
    (∀ docs, pipelineCall cfg (sentencize db (tokenize db)) vectorize nets c texts chunk = .ok (some docs) →
      List.Forall₂ (fun text (d : Document) => ∃ sents, sentencize db (tokenize db) text = .ok sents ∧
        d.sentences.length = (splitTokens sents).length ∧
        ∀ t ∈ d.sentences.flatMap Sentence.stuples, Spec.Shape (t.args.map (·.code)) ∧
          ∀ i a, t.args[i]? = some a → i ≠ 1 → a.isAff = true) texts docs) ∧
    (100 ≤ cfg.fuel → ∃ s₁ s₂ s₃ s₄ s₅ docs, pipelineCall { cfg with
      schedSentencize := cfg.schedSentencize ++ s₁, schedSplit := cfg.schedSplit ++ s₂,
      schedVectorize := cfg.schedVectorize ++ s₃, schedTrees := cfg.schedTrees ++ s₄,
      schedLogic := cfg.schedLogic ++ s₅ } (sentencize db (tokenize db)) vectorize nets c texts chunk =
        .ok (some docs))

/-- **C97.** With a language model that loads and whose n-grams have words, and good files for the rest, the pipeline is
constructed and works. -/
theorem C97_with_model (db : CharDB) (m : LM) (f : DataFiles α)
    (hload : LM.load R log [(1, f.grams1), (1, f.grams2)] = .ok m) (hwords : HasWords m) (good : GoodFiles f)
    (s : ScoreNets F (List (List Nat) × List (List α))) (hs : ScoreShapes s)
    (nets : Networks (List (List Nat) × List (List α))) (hnets : Predicts s nets) :
    ∃ c vectorize, pipelineInit R log lower f = .ok (c, vectorize) ∧
      CodesKnown f vectorize ∧ Works db nets vectorize c := by
  obtain ⟨chars, hperm, hchars⟩ := good.charset
  obtain ⟨cs, hcs, hlt, -⟩ := C50_codes chars hperm
  obtain ⟨toFloat, num, lm₀, rows, e, closed, he, hr, hn, hw⟩ := good.vectors
  obtain ⟨d, hd, hv⟩ := C96_vectorize (lm := lm₀) rows e he closed hr num 100 hn
  rw [hw] at hd
  obtain rfl := Except.ok.inj hd
  have hv1 : ∀ w, (wordsetGet lower (List.replicate wordVectorSize 0) f.wordVectors w).length = wordVectorSize :=
    (hv lower).1
  obtain ⟨t, ht, -⟩ := C87_tables_load
  have hinit : pipelineInit R log lower f = .ok (⟨lower, t.lemmatizer lower m (loadSet f.adjs), loadSet f.nouns, t.lemmaPP⟩,
      vectorizeSentence cs.get (wordsetGet lower (List.replicate wordVectorSize 0) f.wordVectors)) := by
    unfold pipelineInit Logic.init
    rw [hload, good.tables, ht, hchars, hcs]
    rfl
  have ok : PipeOk nets (vectorizeSentence cs.get (wordsetGet lower (List.replicate wordVectorSize 0) f.wordVectors))
      ⟨lower, t.lemmatizer lower m (loadSet f.adjs), loadSet f.nouns, t.lemmaPP⟩ :=
    pipeOk_vectorizeSentence cs.get _ wordVectorSize hv1 (hnets.ok hs) ⟨⟨R, log, _, hload⟩, hwords⟩
  refine ⟨_, _, hinit, ⟨cs, by rw [hchars]; exact hcs, ?_⟩, ?_⟩
  · intro tokens n ch vecs hvec row hrow code hcode
    have h0 : 0 < cs.len := by unfold Charset.len; omega
    by_cases hl : tokens.length ≤ 50
    · rw [vectorizeSentence_ok cs.get _ wordVectorSize hv1 tokens hl] at hvec
      obtain ⟨-, rfl, -⟩ := by simpa using hvec
      rcases List.mem_append.mp hrow with h | h
      · obtain ⟨w, -, rfl⟩ := List.mem_map.mp h
        unfold wordRow padTo at hcode
        rcases List.mem_append.mp hcode with h | h
        · obtain ⟨x, -, rfl⟩ := List.mem_map.mp h
          exact hlt x
        · rw [(List.mem_replicate.mp h).2]; exact h0
      · rw [(List.mem_replicate.mp h).2] at hcode
        obtain rfl : code = 0 := by simpa using hcode
        exact h0
    · have := ((C49_too_long cs.get _ wordVectorSize hv1 tokens) .sentenceTooLong).mpr ⟨by omega, rfl⟩
      rw [hvec] at this
      cases this
  · intro texts htexts chunk cfg hk hbs
    have hok : ∀ text ∈ texts, ∃ ss, sentencize db (tokenize db) text = .ok ss := fun t ht =>
      C71_returns_partial db t (htexts t ht).1 (htexts t ht).2
    obtain ⟨sents, hmap, hfa⟩ := mapM_ok_of_forall hok
    refine ⟨(C63_aligned ok _ texts sents (mapM_forall₂ hmap) chunk cfg hk hbs).1, ?_,
      fun hfuel => C63_returns ok _ texts hok chunk cfg hk hbs hfuel⟩
    intro ds hds
    obtain ⟨a1, -⟩ := runMultithreads_of_ok cfg.rounding texts _ sents hmap cfg.nbCores hk
    obtain ⟨⟨r, hr, hsp⟩, -⟩ := pipelineRest_spec ok sents chunk cfg hk hbs
    rw [pipelineCall_eq] at hds
    rcases a1 cfg.schedSentencize with e' | e'
    · simp [e', bind, Except.bind, pure, Except.pure] at hds
    · simp only [e', bind, Except.bind, hr, Except.ok.injEq] at hds
      obtain ⟨tags, trees, results, tls, -, hres, hflat, hlen, rfl⟩ := hsp ds hds
      have hgood : ∀ ts ∈ results.map Prod.snd, ∀ t ∈ ts, Spec.Shape (t.args.map (·.code)) ∧
          ∀ i a, t.args[i]? = some a → i ≠ 1 → a.isAff = true := by
        intro ts hts t htt
        obtain ⟨⟨⟨hp, di⟩, ts'⟩, hx, rfl⟩ := List.mem_map.mp hts
        obtain ⟨i, hi⟩ := List.mem_iff_getElem?.mp hx
        obtain ⟨pk, hpk⟩ : ∃ pk, Logic.process _ pk = .ok ((hp, di), ts') := by
          have h2 := List.forall₂_iff_get.mp (mapM_forall₂ hres)
          obtain ⟨hlt, hget⟩ := List.getElem?_eq_some_iff.mp hi
          have h3 := h2.2 i (by rw [h2.1]; exact hlt) hlt
          rw [List.get_eq_getElem, List.get_eq_getElem, hget] at h3
          exact ⟨_, h3⟩
        have hex := process_extract hpk
        exact ⟨(C57_shapes hex t htt).1, C58_only_second_negative hex t htt⟩
      rw [← hflat] at hgood
      rw [List.forall₂_map_right_iff]
      have hlen' : List.Forall₂ (fun ss l => l.length = (splitTokens ss).length) sents tls := by
        have h2 : List.Forall₂ (fun a b => a = b) (tls.map List.length) (sents.map fun s => (splitTokens s).length) := by
          rw [List.forall₂_eq_eq_eq]; exact hlen
        rw [List.forall₂_map_left_iff, List.forall₂_map_right_iff] at h2
        exact h2.flip
      have hall : ∀ l ∈ tls, ∀ ts ∈ l, ∀ t ∈ ts, Spec.Shape (t.args.map (·.code)) ∧
          ∀ i a, t.args[i]? = some a → i ≠ 1 → a.isAff = true :=
        fun l hl ts hts => hgood ts (List.mem_flatten.mpr ⟨l, hl, hts⟩)
      have h1 := mapM_forall₂ hmap
      clear hgood hflat hlen hres hsp hr a1 e' hok hfa hmap htexts hds
      induction h1 generalizing tls with
      | nil => cases hlen'; exact .nil
      | @cons x y xs ys hxy hrest ih =>
        cases hlen' with
        | @cons _ l _ tls hl hls =>
          refine .cons ⟨y, hxy, by simpa using hl, ?_⟩ (ih _ hls fun l' h' => hall l' (by simp [h']))
          intro t htt
          obtain ⟨sn, h3, h4⟩ := List.mem_flatMap.mp htt
          obtain ⟨ts, h5, rfl⟩ := List.mem_map.mp h3
          exact hall l (by simp) ts h5 t h4

/-- **C97.** A language model is built by maximum likelihood from training texts with an n-gram of the highest order; its
files are put beside good files for the rest. The pipeline is constructed and works. -/
theorem C97_end_to_end (db : CharDB) (train : List Str) (N nb fuel : Nat) (hN : 2 ≤ N) (hb : 1 ≤ nb)
    (hnb : nb ≤ 2 ^ 53) (hf : train.length / nb < fuel)
    (docs : List (List (List Str))) (hdocs : train.mapM (sentencize db (tokenize db)) = .ok docs)
    (hsize : (Spec.corpusTexts N docs).length ≤ 2 ^ 53) (hhigh : Spec.orderTexts N docs ≠ [])
    (sched : Nat → List Move) (g₁ g₂ : Str) (rest : List Str)
    (hcall : Builder.call ⟨N, .mle, nb⟩ R (sentencize db (tokenize db)) fuel train sched =
      .ok (some (g₁ :: g₂ :: rest)))
    (f : DataFiles α) (hg : f.grams1 = g₁ ∧ f.grams2 = g₂) (good : GoodFiles f)
    (s : ScoreNets F (List (List Nat) × List (List α))) (hs : ScoreShapes s)
    (nets : Networks (List (List Nat) × List (List α))) (hnets : Predicts s nets) :
    ∃ c vectorize, pipelineInit R log lower f = .ok (c, vectorize) ∧
      CodesKnown f vectorize ∧ Works db nets vectorize c := by
  have hmle := C92_mle R log (sentencize db (tokenize db)) N nb (by omega) hb hnb train docs hdocs fuel hf hsize hhigh
  obtain ⟨a, ha, -, hm⟩ : ∃ a, (some (g₁ :: g₂ :: rest) = some a) ∧ a.length = N ∧ _ := by
    rcases hmle.1 sched with h | ⟨a, h, h1, h2⟩
    · rw [hcall] at h; cases h
    · rw [hcall] at h; exact ⟨a, Except.ok.inj h, h1, h2⟩
  obtain rfl := Option.some.inj ha
  obtain ⟨m, hm1, -, hm2⟩ := hm [1, 1] (by simpa using hN)
  have hload : LM.load R log [(1, f.grams1), (1, f.grams2)] = .ok m := by rw [hg.1, hg.2]; exact hm1
  have hwords : HasWords m := hasWords_of_orderTexts (docs := docs) fun g x hx => by
    obtain ⟨n, q, l⟩ := x
    obtain ⟨i, mn, -, hi, -⟩ := (hm2 g n q l).mp hx
    exact ⟨i, hi⟩
  exact C97_with_model db m f hload hwords good s hs nets hnets

/-- **C97.** A language model is built by modified Kneser-Ney smoothing (the default) from training texts
with enough data and without positive probabilities that are written as zero; its files are put beside good files for the
rest. The pipeline is constructed and works. -/
theorem C97_end_to_end_mkn (db : CharDB) (train : List Str) (N nb fuel : Nat) (hN : 2 ≤ N) (hb : 1 ≤ nb)
    (hnb : nb ≤ 2 ^ 53) (hf : train.length / nb < fuel)
    (docs : List (List (List Str))) (hdocs : train.mapM (sentencize db (tokenize db)) = .ok docs)
    (hsize : (Spec.corpusTexts N docs).length ≤ 2 ^ 53) (hrich : ¬ (Spec.corpusVocab N docs).Poor N)
    (hbig : ∀ t ∈ Spec.corpusTexts N docs, 0 < (Spec.corpusVocab N docs).mkn (splitWs t) →
      1 / (2 * 10 ^ 17) < (Spec.corpusVocab N docs).mkn (splitWs t))
    (sched : Nat → List Move) (g₁ g₂ : Str) (rest : List Str)
    (hcall : Builder.call ⟨N, .mkn, nb⟩ R (sentencize db (tokenize db)) fuel train sched =
      .ok (some (g₁ :: g₂ :: rest)))
    (f : DataFiles α) (hg : f.grams1 = g₁ ∧ f.grams2 = g₂) (good : GoodFiles f)
    (s : ScoreNets F (List (List Nat) × List (List α))) (hs : ScoreShapes s)
    (nets : Networks (List (List Nat) × List (List α))) (hnets : Predicts s nets) :
    ∃ c vectorize, pipelineInit R log lower f = .ok (c, vectorize) ∧
      CodesKnown f vectorize ∧ Works db nets vectorize c := by
  have hmkn := C92_mkn_partial R log (sentencize db (tokenize db)) N nb hN hb hnb train docs hdocs fuel hf hsize hrich hbig
  obtain ⟨a, ha, -, hm⟩ : ∃ a, (some (g₁ :: g₂ :: rest) = some a) ∧ a.length = N ∧ _ := by
    rcases hmkn.1 sched with h | ⟨a, h, h1, h2⟩
    · rw [hcall] at h; cases h
    · rw [hcall] at h; exact ⟨a, Except.ok.inj h, h1, h2⟩
  obtain rfl := Option.some.inj ha
  obtain ⟨m, hm1, -, hm2⟩ := hm [1, 1] (by simpa using hN)
  have hload : LM.load R log [(1, f.grams1), (1, f.grams2)] = .ok m := by rw [hg.1, hg.2]; exact hm1
  have hwords : HasWords m := hasWords_of_orderTexts (docs := docs) fun g x hx => by
    obtain ⟨n, q, l⟩ := x
    obtain ⟨i, mn, -, hi, -⟩ := (hm2 g n q l).mp hx
    exact ⟨i, hi⟩
  exact C97_with_model db m f hload hwords good s hs nets hnets

end

/-! ### A case -/

/-- Files as the theorem wants them. -/
def demoData (g₁ g₂ : Str) : DataFiles Nat where
  grams1 := g₁
  grams2 := g₂
  preterits := fileContent irregularPreteritsLines
  pps := fileContent irregularPastParticiplesLines
  plurals := fileContent irregularPluralsLines
  comparatives := fileContent irregularComparativesLines
  superlatives := fileContent irregularSuperlativesLines
  nouns := c!"cat\ndog\n"
  adjs := c!"red\n"
  charset := Charset.codes charsetChars
  wordVectors := [(c!"the", List.replicate 100 1)]

theorem demoVectors_saved : wordsetSave (fun _ => .ok 1) demoLM (Spec.textLines
    (([(c!"the", List.replicate 100 c!"1"), (c!"zebra", [c!"x"])] : List (Str × List Str)).map
      fun r => join c!" " (r.1 :: r.2)) c!"\n" true) = .ok [(c!"the", List.replicate 100 1)] := by decide +kernel

theorem demoData_good (g₁ g₂ : Str) : GoodFiles (demoData g₁ g₂) where
  tables := rfl
  charset := ⟨charsetChars, .refl _, rfl⟩
  vectors := ⟨fun _ => .ok 1, fun _ => 1, demoLM, [(c!"the", List.replicate 100 c!"1"), (c!"zebra", [c!"x"])], c!"\n", true,
    by decide, by decide +kernel, by decide +kernel, demoVectors_saved⟩

/-- Two training texts. -/
def demoTrain : List Str := [c!"The cat sat. A dog ran.", c!"the cat ran"]

/-- Their sentences. -/
def demoTrainDocs : List (List (List Str)) :=
  [[[c!"The", c!"cat", c!"sat", c!"."], [c!"A", c!"dog", c!"ran", c!"."]], [[c!"the", c!"cat", c!"ran"]]]

theorem demoTrain_docs : demoTrain.mapM (sentencize asciiDB (tokenize asciiDB)) = .ok demoTrainDocs := by decide +kernel

/-- All hypotheses together. -/
example : ∃ g₁ g₂ c vectorize, pipelineInit Rounding.exact (fun p => p) id (demoData g₁ g₂) = .ok (c, vectorize) := by
  have hsize : (Spec.corpusTexts 2 demoTrainDocs).length ≤ 2 ^ 53 := by decide +kernel
  have hhigh : Spec.orderTexts 2 demoTrainDocs ≠ [] := by decide +kernel
  have h := C92_mle Rounding.exact (fun p => p) (sentencize asciiDB (tokenize asciiDB)) 2 2 (by decide) (by decide) (by decide)
    demoTrain demoTrainDocs demoTrain_docs 2 (by decide) hsize hhigh
  obtain ⟨more, files, hcall⟩ := h.2 fun _ => []
  have hl : files.length = 2 := by
    rcases h.1 (fun o => [] ++ more o) with h' | ⟨a, h', h1, -⟩
    · rw [hcall] at h'; cases h'
    · rw [hcall] at h'
      obtain rfl := Option.some.inj (Except.ok.inj h')
      exact h1
  match files, hl with
  | [g₁, g₂], _ =>
    obtain ⟨nets, -, n1, n2, n3⟩ := C91_predictions (flatNets (W := List (List Nat) × List (List Nat))) flatNets_shapes
    obtain ⟨c, v, hi, -⟩ := C97_end_to_end (lower := id) asciiDB demoTrain 2 2 2 le_rfl (by decide) (by decide) (by decide)
      demoTrainDocs demoTrain_docs hsize hhigh _ g₁ g₂ [] hcall (demoData g₁ g₂) ⟨rfl, rfl⟩ (demoData_good g₁ g₂)
      flatNets flatNets_shapes nets ⟨n1, n2, n3⟩
    exact ⟨g₁, g₂, c, v, hi⟩

example : Readable sentText := ⟨sentText_ok.writing, sentText_marks⟩
example : Readable slashSents := ⟨slashSents_ok, by decide +kernel⟩

end Props
