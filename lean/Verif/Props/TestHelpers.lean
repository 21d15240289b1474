import Verif.Lemmas.TestHelpers
import Verif.Props.Pipeline

/-! C95: the testing functions of the pipeline.

Full statement: `_test_process(text)` returns the tokens of the first sentence of the text with its own tags, tree, nodes and
tuples, the tuples that the pipeline gives to the first sentence of the text.  False of the code for texts with sentences of
more than 50 tokens, which are not resplit here (`C95_other_sentence_false`, `C95_long_first_false`). -/

namespace Props
open Py Model Spec

variable {W : Type} {nets : Networks W} {vectorize : List Str → Except PyErr (Nat × W)} {c : Logic}

theorem index_cons_zero {α : Type} (x : α) (l : List α) : index (x :: l) 0 = .ok x := rfl

/-- The results for sentences of at most 50 tokens: what the first three components of the state of the first sentence are. -/
theorem testTokens_spec (ok : PipeOk nets vectorize c) (s : List Str) (ss : List (List Str))
    (hlen : ∀ x ∈ s :: ss, x.length ≤ 50) (cfg : PipelineCfg) (hk : 0 < cfg.nbCores) (hb : 0 < cfg.batchSize) :
    processTokensAll cfg vectorize nets c (s :: ss) true = .ok none ∨
    ∃ tg tags o trees n nodes ts tl, processTokensAll cfg vectorize nets c (s :: ss) true =
        .ok (some (tg :: tags, o :: trees, n :: nodes, ts :: tl)) ∧
      Returned nets vectorize (s :: ss) (tg :: tags) (o :: trees) ∧ tg.length = s.length ∧
      c.process (s, tg, o, true) = .ok (n, ts) ∧
      (n :: nodes).mapM (fun n => extractTuples c.pp n.1 n.2.values) = .ok (ts :: tl) := by
  obtain ⟨⟨r, hr, h⟩, -⟩ := processTokensAll_spec ok hlen true cfg hk hb
  cases r with
  | none => exact .inl hr
  | some r =>
    right
    obtain ⟨tags, trees, nodes, tl⟩ := r
    obtain ⟨results, h1, h2, h3, h4⟩ := h _ _ _ _ rfl
    obtain ⟨al1, al2⟩ := C41_parser_aligned nets vectorize _ tags trees h1
    have hl2 := al2.length_eq
    cases tags with
    | nil => simp at hl2
    | cons tg tags =>
      cases trees with
      | nil => simp at al1
      | cons o trees =>
        have hlg := Returned.lengths ok hlen h1 (i := 0) rfl rfl
        have hx : sentPacks (s :: ss) (tg :: tags) (o :: trees) true =
            (s, tg, o, true) :: sentPacks ss tags trees true := rfl
        have hext : ∀ (l : List (List Str × List Tag × Option (Tree Dep Nat) × Bool))
            (rs : List ((Heap × Dict Nat Ref) × List STuple)), l.mapM c.process = .ok rs →
            (rs.map Prod.fst).mapM (fun n => extractTuples c.pp n.1 n.2.values) = .ok (rs.map Prod.snd) := by
          intro l
          induction l with
          | nil => intro rs h; cases h; rfl
          | cons a l ih =>
            intro rs h
            rw [List.mapM_cons] at h
            cases ha : c.process a with
            | error e => simp [ha, bind, Except.bind] at h
            | ok y =>
              cases hm : l.mapM c.process with
              | error e => simp [ha, hm, bind, Except.bind] at h
              | ok ys =>
                simp only [ha, hm, bind, Except.bind, pure, Except.pure, Except.ok.injEq] at h
                subst h
                obtain ⟨⟨hp, d⟩, ts⟩ := y
                simp [process_extract ha, ih ys hm, bind, Except.bind, pure, Except.pure]
        have hre := hext _ _ h2
        rw [hx, List.mapM_cons] at h2
        cases hp : c.process (s, tg, o, true) with
        | error e => simp [hp, bind, Except.bind] at h2
        | ok y =>
          cases hm : (sentPacks ss tags trees true).mapM c.process with
          | error e => simp [hp, hm, bind, Except.bind] at h2
          | ok ys =>
            simp only [hp, hm, bind, Except.bind, pure, Except.pure, Except.ok.injEq] at h2
            subst h2 h3 h4
            exact ⟨tg, tags, o, trees, y.1, ys.map Prod.fst, y.2, ys.map Prod.snd, hr, h1, hlg.symm, hp, hre⟩

/-- **C95** (partial: full statement refuted by `C95_other_sentence_false` and `C95_long_first_false`). When all sentences
of the text have at most 50 tokens, `_test_process` raises nothing and can always return. What it returns belongs together:
the tokens of the first sentence, the tags and the tree of the parser for it, the nodes and tuples made from them. -/
theorem C95_process_partial (ok : PipeOk nets vectorize c) (sentencizer : Str → Except PyErr (List (List Str))) (text : Str)
    (s : List Str) (ss : List (List Str)) (hs : sentencizer text = .ok (s :: ss)) (hlen : ∀ x ∈ s :: ss, x.length ≤ 50)
    (cfg : PipelineCfg) (hk : 0 < cfg.nbCores) (hb : 0 < cfg.batchSize) :
    (∀ e, testProcess cfg vectorize nets c sentencizer text ≠ .error e) ∧
    (∀ x ts, testProcess cfg vectorize nets c sentencizer text = .ok (some (x, ts)) →
      x.tokens = s ∧ x.tags.length = s.length ∧
      (∃ tags trees, Returned nets vectorize (s :: ss) (x.tags :: tags) (x.tree :: trees)) ∧
      c.process (s, x.tags, x.tree, true) = .ok (x.nodes, ts)) ∧
    (100 ≤ cfg.fuel → ∃ s₁ s₂ s₃ r, testProcess { cfg with
      schedVectorize := cfg.schedVectorize ++ s₁, schedTrees := cfg.schedTrees ++ s₂, schedLogic := cfg.schedLogic ++ s₃ }
      vectorize nets c sentencizer text = .ok (some r)) := by
  refine ⟨?_, ?_, ?_⟩
  · intro e he
    rcases testTokens_spec ok s ss hlen cfg hk hb with h | ⟨tg, tags, o, trees, n, nodes, ts, tl, h, -, -, -, hm⟩
    · simp [testProcess, hs, h, bind, Except.bind, pure, Except.pure] at he
    · simp [testProcess, hs, h, hm, -List.mapM_cons, index_cons_zero, bind, Except.bind, pure, Except.pure] at he
  · intro x ts' hx
    rcases testTokens_spec ok s ss hlen cfg hk hb with h | ⟨tg, tags, o, trees, n, nodes, ts, tl, h, hr, hl, hp, hm⟩
    · simp [testProcess, hs, h, bind, Except.bind, pure, Except.pure] at hx
    · simp [testProcess, hs, h, hm, -List.mapM_cons, index_cons_zero, bind, Except.bind, pure, Except.pure] at hx
      obtain ⟨rfl, rfl⟩ := hx
      exact ⟨rfl, hl, ⟨tags, trees, hr⟩, hp⟩
  · intro hf
    obtain ⟨-, h⟩ := processTokensAll_spec ok hlen true cfg hk hb
    obtain ⟨s₁, s₂, s₃, out, h⟩ := h hf
    refine ⟨s₁, s₂, s₃, ?_⟩
    rcases testTokens_spec ok s ss hlen { cfg with
      schedVectorize := cfg.schedVectorize ++ s₁, schedTrees := cfg.schedTrees ++ s₂,
      schedLogic := cfg.schedLogic ++ s₃ } hk hb with h' | ⟨tg, tags, o, trees, n, nodes, ts, tl, h', -, -, -, hm⟩
    · rw [h'] at h; cases h
    · exact ⟨(⟨s, tg, o, n⟩, ts),
        by simp [testProcess, hs, h', hm, -List.mapM_cons, index_cons_zero, bind, Except.bind, pure, Except.pure]⟩

/-- **C95** (partial). With networks that predict rows independently, its tuples are those that the pipeline gives to the
first sentence of the text, wherever the text is and whatever the configurations. -/
theorem C95_same_tuples_partial (ok : PipeOk nets vectorize c) (hr : RowWise nets)
    (sentencizer : Str → Except PyErr (List (List Str))) (text : Str) (s : List Str) (ss : List (List Str))
    (hs : sentencizer text = .ok (s :: ss)) (hlen : ∀ x ∈ s :: ss, x.length ≤ 50) (cfg cfg' : PipelineCfg)
    (hk : 0 < cfg.nbCores) (hb : 0 < cfg.batchSize) (hk' : 0 < cfg'.nbCores) (hb' : 0 < cfg'.batchSize) (x : Tested)
    (ts : List STuple) (hx : testProcess cfg vectorize nets c sentencizer text = .ok (some (x, ts))) (texts : List Str)
    (hts : ∀ t ∈ texts, ∃ ss, sentencizer t = .ok ss) (i : Nat) (hi : texts[i]? = some text) (docs : List Document)
    (hd : pipelineCall cfg' sentencizer vectorize nets c texts true = .ok (some docs)) :
    ∃ d : Document, docs[i]? = some d ∧ d.sentences[0]? = some ⟨ts⟩ := by
  obtain ⟨-, h2, -⟩ := C95_process_partial ok sentencizer text s ss hs hlen cfg hk hb
  obtain ⟨-, -, ⟨tags, trees, hret⟩, hp⟩ := h2 x ts hx
  obtain ⟨P, hP⟩ := rowWise_parse (S := List Str) (vectorize := vectorize) ok.nets hr
  obtain ⟨e1, e2⟩ := hP _ _ _ hret
  simp only [List.map_cons, List.cons.injEq] at e1 e2
  obtain ⟨parts, -, q2, -, q4⟩ := documents_of ok hP sentencizer true texts cfg' hk' hb'
  have hparts : (parts.filter fun p => p.all fun t => (sentencizer t).toOption.isSome) = parts := by
    rw [List.filter_eq_self]
    intro p hp
    refine all_ok.mpr fun t ht => hts t ?_
    rw [← q2]
    exact List.mem_flatten.mpr ⟨p, hp, ht⟩
  rw [hparts, q2] at q4
  rw [q4 docs hd, List.getElem?_map, hi]
  refine ⟨_, rfl, ?_⟩
  have : sentsOf sentencizer text = s :: ss := by simp [sentsOf, hs]
  simp only [this, C62_short_unchanged _ hlen, List.map_cons, List.getElem?_cons_zero, Option.some.injEq, Sentence.mk.injEq]
  unfold tuplesOf
  rw [← e1.1, ← e2.1, hp]

/-- **C95** (partial). `_test_parse` returns the same as `_test_process` but the tuples. -/
theorem C95_parse_partial (ok : PipeOk nets vectorize c) (sentencizer : Str → Except PyErr (List (List Str))) (text : Str)
    (s : List Str) (ss : List (List Str)) (hs : sentencizer text = .ok (s :: ss)) (hlen : ∀ x ∈ s :: ss, x.length ≤ 50)
    (cfg : PipelineCfg) (hk : 0 < cfg.nbCores) (hb : 0 < cfg.batchSize) :
    testParse cfg vectorize nets c sentencizer (.inr text) =
      (testProcess cfg vectorize nets c sentencizer text).map (Option.map Prod.fst) := by
  rcases testTokens_spec ok s ss hlen cfg hk hb with h | ⟨tg, tags, o, trees, n, nodes, ts, tl, h, -, -, -, hm⟩
  · simp [testProcess, testParse, testParseTokens, hs, h, bind, Except.bind, pure, Except.pure, Except.map]
  · simp [testProcess, testParse, testParseTokens, hs, h, hm, -List.mapM_cons, index_cons_zero, bind, Except.bind, pure,
      Except.pure, Except.map]

/-- **C95** (partial). On a list of at most 50 tokens, `_test_parse` raises nothing, and with networks that predict rows
independently it returns what it returns for any text of which the tokens are the first sentence. -/
theorem C95_parse_tokens_partial (ok : PipeOk nets vectorize c) (sentencizer : Str → Except PyErr (List (List Str)))
    (s : List Str) (hl : s.length ≤ 50) (cfg : PipelineCfg) (hk : 0 < cfg.nbCores) (hb : 0 < cfg.batchSize) :
    (∀ e, testParse cfg vectorize nets c sentencizer (.inl s) ≠ .error e) ∧
    (RowWise nets → ∀ x, testParse cfg vectorize nets c sentencizer (.inl s) = .ok (some x) →
      ∀ (text : Str) (ss : List (List Str)), sentencizer text = .ok (s :: ss) → (∀ x ∈ ss, x.length ≤ 50) →
      ∀ cfg' : PipelineCfg, 0 < cfg'.nbCores → 0 < cfg'.batchSize → ∀ x',
        testParse cfg' vectorize nets c sentencizer (.inr text) = .ok (some x') → x' = x) := by
  have h1 := testTokens_spec ok s [] (by simpa using hl) cfg hk hb
  constructor
  · intro e he
    rcases h1 with h | ⟨tg, tags, o, trees, n, nodes, ts, tl, h, -, -, -, -⟩
    · simp [testParse, testParseTokens, h, bind, Except.bind, pure, Except.pure] at he
    · simp [testParse, testParseTokens, h, index_cons_zero, bind, Except.bind, pure, Except.pure] at he
  · intro hr x hx text ss hs hlen cfg' hk' hb' x' hx'
    obtain ⟨P, hP⟩ := rowWise_parse (S := List Str) (vectorize := vectorize) ok.nets hr
    have h2 := testTokens_spec ok s ss (by
      intro y hy
      rcases List.mem_cons.mp hy with rfl | hy
      · exact hl
      · exact hlen y hy) cfg' hk' hb'
    rcases h1 with h | ⟨tg, tags, o, trees, n, nodes, ts, tl, h, hret, -, hp, -⟩
    · simp [testParse, testParseTokens, h, bind, Except.bind, pure, Except.pure] at hx
    rcases h2 with h' | ⟨tg', tags', o', trees', n', nodes', ts', tl', h', hret', -, hp', -⟩
    · simp [testParse, testParseTokens, hs, h', bind, Except.bind, pure, Except.pure] at hx'
    simp [testParse, testParseTokens, h, index_cons_zero, bind, Except.bind, pure, Except.pure] at hx
    simp [testParse, testParseTokens, hs, h', index_cons_zero, bind, Except.bind, pure, Except.pure] at hx'
    obtain ⟨a1, a2⟩ := hP _ _ _ hret
    obtain ⟨b1, b2⟩ := hP _ _ _ hret'
    simp only [List.map_cons, List.cons.injEq] at a1 a2 b1 b2
    obtain rfl : tg' = tg := b1.1.trans a1.1.symm
    obtain rfl : o' = o := b2.1.trans a2.1.symm
    rw [hp] at hp'
    simp only [Except.ok.injEq, Prod.mk.injEq] at hp'
    rw [← hx, ← hx', hp'.1]

/-- **C95** (negation). Longer sentences are not resplit: the thread that vectorizes one dies, and `_test_parse` raises an
`IndexError`, on all schedules that complete. -/
theorem C95_long_first_false (sentencizer : Str → Except PyErr (List (List Str))) (s : List Str) (e : PyErr)
    (he : vectorize s = .error e) (cfg : PipelineCfg) (hk : 0 < cfg.nbCores) (hb : 0 < cfg.batchSize) :
    (testParse cfg vectorize nets c sentencizer (.inl s) = .ok none ∨
      testParse cfg vectorize nets c sentencizer (.inl s) = .error .index) ∧
    ∃ s₁ s₂ s₃, testParse { cfg with
      schedVectorize := cfg.schedVectorize ++ s₁, schedTrees := cfg.schedTrees ++ s₂, schedLogic := cfg.schedLogic ++ s₃ } vectorize nets c sentencizer (.inl s) = .error .index := by
  obtain ⟨a, s₁, s₂, b⟩ := parserCall_of_error (nets := nets) he cfg.parser hk hb
  obtain ⟨p1, p2⟩ := runMultithreads_of_ok cfg.rounding (sentPacks [s] [] [] true) c.process [] rfl cfg.nbCores hk
  have hidx : index ([] : List (List Tag)) 0 = .error .index := rfl
  constructor
  · unfold testParse testParseTokens processTokensAll Logic.processAll
    rcases a with h | h
    · simp [h, bind, Except.bind, pure, Except.pure]
    · rcases p1 cfg.schedLogic with h' | h' <;>
        simp [h, h', hidx, index_cons_zero, bind, Except.bind, pure, Except.pure]
  · obtain ⟨s₃, h'⟩ := p2 cfg.schedLogic
    refine ⟨s₁, s₂, s₃, ?_⟩
    have b' : parserCall (PipelineCfg.parser { cfg with
      schedVectorize := cfg.schedVectorize ++ s₁, schedTrees := cfg.schedTrees ++ s₂, schedLogic := cfg.schedLogic ++ s₃ }) vectorize nets [s] = .ok (some ([], [])) := b
    unfold testParse testParseTokens processTokensAll Logic.processAll
    simp [b', h', hidx, index_cons_zero, bind, Except.bind, pure, Except.pure]

/-! ### Examples -/

def demoTest (cfg : PipelineCfg) (text : Str) : Except PyErr (Option (Tested × List STuple)) :=
  testProcess cfg lengthOnly clauseNets demoLogic (sentencize asciiDB (tokenize asciiDB)) text

/-- Tokens, number of tags and tuples. -/
def testShown (r : Except PyErr (Option (Tested × List STuple))) : Except PyErr (Option (List Str × Nat × List Str)) :=
  r.map fun o => o.map fun x => (x.1.tokens, x.1.tags.length, x.2.map fun t => t.flatten true)

example : testShown (demoTest (demoCfg 1 (oneThread 9) 9) c!"Foxes baked formats. They format foxes!") =
    .ok (some ([c!"Foxes", c!"baked", c!"formats", c!"."], 4, [c!"NTN(fox, bake, format)", c!"NCL(format, be, baked)"])) := by
  decide +kernel

example : (sentencize asciiDB (tokenize asciiDB) c!"Foxes baked formats. They format foxes!").map (fun ss => ss.map List.length) =
    .ok [4, 4] := by decide +kernel

/-- The hypotheses hold. -/
example : ∃ s ss, sentencize asciiDB (tokenize asciiDB) c!"Foxes baked formats. They format foxes!" = .ok (s :: ss) ∧
    ∀ x ∈ s :: ss, x.length ≤ 50 := by
  refine ⟨[c!"Foxes", c!"baked", c!"formats", c!"."], [[c!"They", c!"format", c!"foxes", c!"!"]], by decide +kernel,
    by decide⟩

/-- Two threads, the first one first. -/
def twoThreads (n : Nat) : List Move :=
  [.main, .main] ++ List.replicate (n + 2) (.worker 0) ++ List.replicate (n + 2) (.worker 1) ++ [.main, .main, .main, .main]

/-- A sentence of 51 words and a full stop before a short one. -/
def longText : Str := (List.replicate 51 c!"Foxes ").flatten ++ c!"! They format foxes."

/-- **C95** (negation). With two threads, the first sentence, which is too long, is shown with the tags of the second, and
the tuples mix the two: the words of the first sentence with the tree of the second. The pipeline says nothing of the kind:
it drops the sentence, which cannot be resplit, and finds the tuples of the second. -/
theorem C95_other_sentence_false :
    testShown (demoTest ⟨Rounding.exact, 2, 2, twoThreads 2, twoThreads 2, twoThreads 2, twoThreads 2, 100, twoThreads 2⟩
      longText) = .ok (some (List.replicate 51 c!"Foxes" ++ [c!"!"], 4, [c!"NTN(fox, fox, fox)", c!"NCL(fox, be, foxed)"])) ∧
    shown (demoPipe ⟨Rounding.exact, 2, 2, twoThreads 2, twoThreads 2, twoThreads 2, twoThreads 2, 100, twoThreads 2⟩
      [longText]) = .ok (some [[[c!"NTN(they, format, fox)", c!"NCL(fox, be, formated)"]]]) := by
  decide +kernel

end Props
