import Verif.Lemmas.Pipeline
import Verif.Props.Preprocessing

/-! Properties of the pipeline: C62 - C65 and C80. -/

namespace Props
open Py Model Spec

variable {W : Type} {nets : Networks W} {vectorize : List Str → Except PyErr (Nat × W)} {c : Logic}

/-! ### C62: long sentences -/

/-- C62: resplitting treats every sentence of a text on its own, as specified, and keeps the order. -/
theorem C62_resplit (lists : List (List Str)) : ∃ parts : List (List (List Str)),
    List.Forall₂ Resplit lists parts ∧ splitTokens lists = parts.flatten := by
  refine ⟨lists.map fun tokens => (splitLong tokens).filter fun t => decide (t.length ≤ maxSentLength), ?_, ?_⟩
  · rw [List.forall₂_map_right_iff, List.forall₂_same]
    exact fun x _ => splitLong_spec x
  · rw [splitTokens_eq, List.flatMap]

/-- C62: no sentence has more than 50 tokens afterwards. -/
theorem C62_at_most_50 (lists : List (List Str)) : ∀ s ∈ splitTokens lists, s.length ≤ 50 :=
  fun _ h => splitTokens_length h

/-- C62: a text without long sentences is not changed. -/
theorem C62_short_unchanged (lists : List (List Str)) (h : ∀ s ∈ lists, s.length ≤ 50) : splitTokens lists = lists := by
  rw [splitTokens_eq]
  have : ∀ s ∈ lists, (splitLong s).filter (fun t => decide (t.length ≤ maxSentLength)) = [s] :=
    fun s hs => (splitLong_spec s).1 (h s hs)
  rw [List.flatMap_def, List.map_congr_left this]
  clear this h
  induction lists with
  | nil => rfl
  | cons a l ih => rw [List.map_cons, List.flatten_cons, ih]; rfl

theorem pieces_sublist {tokens : List Str} {ps : List (List Str)} (h : Pieces tokens ps) : ps.flatten.Sublist tokens := by
  induction h with
  | none cuts _ => simp
  | last cuts piece cuts' _ _ _ _ =>
    simp only [List.flatten_cons, List.flatten_nil, List.append_nil]
    exact (List.sublist_append_right cuts piece).trans (List.sublist_append_left _ _)
  | more cuts piece cut rest p ps _ _ _ _ _ ih =>
    rw [List.flatten_cons]
    exact List.Sublist.append (List.sublist_append_right cuts piece) (ih.trans (List.sublist_cons_self _ _))

theorem filter_flatten_sublist {α : Type} (p : List α → Bool) : ∀ ls : List (List α), (ls.filter p).flatten.Sublist ls.flatten
  | [] => by simp
  | a :: ls => by
    rw [List.filter_cons, List.flatten_cons]
    split
    · rw [List.flatten_cons]
      exact List.Sublist.append (List.Sublist.refl _) (filter_flatten_sublist p ls)
    · exact (filter_flatten_sublist p ls).trans (List.sublist_append_right _ _)

/-- C62: the tokens that remain keep their order; none is made up. -/
theorem C62_order (lists : List (List Str)) : (splitTokens lists).flatten.Sublist lists.flatten := by
  obtain ⟨parts, h, e⟩ := C62_resplit lists
  rw [e]
  clear e
  induction h with
  | nil => simp
  | @cons a b l₁ l₂ hr _ ih =>
    rw [List.flatten_cons, List.flatten_append, List.flatten_cons]
    refine List.Sublist.append ?_ ih
    by_cases hl : a.length ≤ 50
    · rw [hr.1 hl]; simp
    · obtain ⟨ps, h1, rfl⟩ := hr.2 (by omega)
      exact (filter_flatten_sublist _ ps).trans (pieces_sublist h1)

/-- C62: the sentences of any text, once resplit, are vectorized without `SentenceTooLongError`, and the parser raises
nothing on them. -/
theorem C62_parser_never_raises {α : Type} [Zero α] (code : Char → Nat) (vec : Str → List α) (D : Nat)
    (hv : ∀ w, (vec w).length = D) (nets : Networks (List (List Nat) × List (List α))) (hn : NetsOk nets)
    (lists : List (List Str)) :
    (∀ s ∈ splitTokens lists, ∃ w, vectorizeSentence code vec s = .ok (s.length + 2, w)) ∧
    ∀ (R : Rounding) (k : Int) (bs : Nat) (_ : 0 < k) (_ : 0 < bs) (s₁ s₂ : List Move) (fuel : Nat) (e : PyErr),
      parserCall ⟨R, k, bs, s₁, s₂, fuel⟩ (vectorizeSentence code vec) nets (splitTokens lists) ≠ .error e := by
  have h : ∀ s ∈ splitTokens lists, ∃ w, vectorizeSentence code vec s = .ok (s.length + 2, w) := fun s hs =>
    ⟨_, vectorizeSentence_ok code vec D hv s (splitTokens_length hs)⟩
  refine ⟨h, ?_⟩
  intro R k bs hk hb
  refine (C41_parser_terminates nets hn _ _ ?_ R k hk bs hb).1
  intro s hs
  obtain ⟨w, hw⟩ := h s hs
  exact ⟨_, w, splitTokens_length hs, hw⟩

/-- The components of a real pipeline satisfy `PipeOk`. -/
theorem pipeOk_vectorizeSentence {α : Type} [Zero α] (code : Char → Nat) (vec : Str → List α) (D : Nat)
    (hv : ∀ w, (vec w).length = D) {nets : Networks (List (List Nat) × List (List α))} (hn : NetsOk nets)
    {c : Logic} (hc : LogicOk c) : PipeOk nets (vectorizeSentence code vec) c :=
  ⟨hn, fun s hs => ⟨_, vectorizeSentence_ok code vec D hv s hs⟩, hc⟩

/-! ### C80: one sentence -/

/-- C80: for a parse of the parser, the logic part raises nothing. Nodes are normalized, then their tags are fixed, then
(if asked) nouns are chunked, then nodes are canonicalized, then arguments are found; the tuples of the sentence are
exactly what the resulting nodes say. -/
theorem C80_sentence_tuples {S : Type} {vectorize : S → Except PyErr (Nat × W)} {sentences : List S}
    {tags : List (List Tag)} {trees : List (Option (Tree Dep Nat))}
    (h : Returned nets vectorize sentences tags trees) (hc : LogicOk c) (i : Nat) (t : Tree Dep Nat)
    (ht : trees[i]? = some (some t)) (tg : List Tag) (hg : tags[i]? = some tg) (tokens : List Str)
    (hl : tokens.length = tg.length) (chunk : Bool) :
    ∃ h₀ dict nt h₁ h₂ h₃ h₄ h₅ ts, nodify c.lower tokens tg (some t) = .ok (h₀, dict, some nt) ∧
      c.process (tokens, tg, some t, chunk) = .ok ((h₅, dict), ts) ∧
      Normalized c.lemmatizer h₀ dict.values h₁ ∧ TagsFixed c.lemmatizer.adjs c.nouns h₁ nt dict.values h₂ ∧
      (chunk = true → Chunked h₂ nt dict.values h₃) ∧ (chunk = false → h₃ = h₂) ∧
      Canonical c.lemmatizer h₃ dict.values h₄ ∧ ArgsFound h₄ nt dict.values h₅ ∧
      (∀ x, x ∈ ts ↔ Said c.pp h₅ dict.values x.args) ∧
      ∀ lem, pastParticiple c.lemmatizer.lm [[]] c.reversedPps lem = .ok (c.pp lem) := by
  obtain ⟨arcs, H, h1, h2⟩ := h.idxTree ht hg
  rw [← hl] at H
  obtain ⟨s, nt, dict, e, -, -, -, -, hb, -, -⟩ := nodify_spec (lower := c.lower) H hl.symm h1 h2
  obtain ⟨-, hnd, -⟩ := C53_node_indexes h i t ht tg hg c.lower tokens hl _ _ _ e
  obtain ⟨h₁, h₂, h₃, h₄, h₅, ts, g1, g2, g3, g4, g5, g6, ⟨g7, -⟩, g8⟩ := Logic.process_some hc e hb hnd chunk
  exact ⟨_, _, _, h₁, h₂, h₃, h₄, h₅, ts, e, g1, g2, g3, g4, g5, g6, g7, g8, c.pp_eq⟩

/-! ### C63: documents -/

/-- C63: with a sentencizer that does not raise on the texts, the pipeline raises nothing, and if it has returned there is
one document per text, in order, with one sentence per sentence of the text after resplitting. -/
theorem C63_aligned (ok : PipeOk nets vectorize c) (sentencizer : Str → Except PyErr (List (List Str)))
    (texts : List Str) (sents : List (List (List Str)))
    (hs : List.Forall₂ (fun text ss => sentencizer text = .ok ss) texts sents) (chunk : Bool) (cfg : PipelineCfg)
    (hk : 0 < cfg.nbCores) (hb : 0 < cfg.batchSize) :
    (∀ e, pipelineCall cfg sentencizer vectorize nets c texts chunk ≠ .error e) ∧
    (∀ docs, pipelineCall cfg sentencizer vectorize nets c texts chunk = .ok (some docs) →
      docs.map (fun d => d.sentences.length) = sents.map fun ss => (splitTokens ss).length) := by
  have hm : texts.mapM sentencizer = .ok sents := by
    induction hs with
    | nil => rfl
    | cons h _ ih => simp [h, ih, bind, Except.bind, pure, Except.pure]
  obtain ⟨a1, -⟩ := runMultithreads_of_ok cfg.rounding texts sentencizer sents hm cfg.nbCores hk
  obtain ⟨⟨r, hr, hsp⟩, -⟩ := pipelineRest_spec ok sents chunk cfg hk hb
  rw [pipelineCall_eq]
  rcases a1 cfg.schedSentencize with e | e
  · simp [e, bind, Except.bind, pure, Except.pure]
  · simp only [e, bind, Except.bind, hr]
    refine ⟨by simp, ?_⟩
    intro docs hd
    obtain ⟨tags, trees, results, tls, -, -, -, h4, rfl⟩ := hsp docs (by simpa using hd)
    rw [← h4, List.map_map]
    refine List.map_congr_left fun l _ => ?_
    simp

/-- C63: from any point of any schedule the pipeline can still return. -/
theorem C63_returns (ok : PipeOk nets vectorize c) (sentencizer : Str → Except PyErr (List (List Str)))
    (texts : List Str) (hs : ∀ text ∈ texts, ∃ ss, sentencizer text = .ok ss) (chunk : Bool) (cfg : PipelineCfg)
    (hk : 0 < cfg.nbCores) (hb : 0 < cfg.batchSize) (hf : 100 ≤ cfg.fuel) :
    ∃ s₁ s₂ s₃ s₄ s₅ docs, pipelineCall { cfg with
      schedSentencize := cfg.schedSentencize ++ s₁, schedSplit := cfg.schedSplit ++ s₂,
      schedVectorize := cfg.schedVectorize ++ s₃, schedTrees := cfg.schedTrees ++ s₄,
      schedLogic := cfg.schedLogic ++ s₅ } sentencizer vectorize nets c texts chunk = .ok (some docs) := by
  obtain ⟨sents, hm, -⟩ := mapM_ok_of_forall hs
  obtain ⟨-, a2⟩ := runMultithreads_of_ok cfg.rounding texts sentencizer sents hm cfg.nbCores hk
  obtain ⟨s₁, e⟩ := a2 cfg.schedSentencize
  obtain ⟨-, h⟩ := pipelineRest_spec ok sents chunk cfg hk hb
  obtain ⟨s₂, s₃, s₄, s₅, docs, h⟩ := h hf
  refine ⟨s₁, s₂, s₃, s₄, s₅, docs, ?_⟩
  rw [pipelineCall_eq]
  simp only [e, bind, Except.bind]
  exact h

/-- Networks that predict every row independently of the others. -/
structure RowWise (nets : Networks W) : Prop where
  tags : ∃ f : W → List Nat, ∀ ws, nets.tags ws = ws.map f
  deps : ∃ g : List Nat → W → List Nat, ∀ ts ws, nets.deps ts ws = List.zipWith g ts ws
  trans : ∃ m : (List Nat × List Nat × W) × List Bool × List Bool → Trans, ∀ rows, nets.trans rows = rows.map m

/-- With such networks, tags and trees are a function of the sentence. -/
theorem rowWise_parse {S : Type} {vectorize : S → Except PyErr (Nat × W)} (hn : NetsOk nets) (hr : RowWise nets) :
    ∃ P : S → List Tag × Option (Tree Dep Nat), ∀ sentences tags trees, Returned nets vectorize sentences tags trees →
      tags = sentences.map (fun s => (P s).1) ∧ trees = sentences.map fun s => (P s).2 := by
  obtain ⟨⟨f, hf⟩, ⟨g, hg⟩, ⟨m, hm⟩⟩ := hr
  have h1 : ∀ s : S, (∃ n w, n ≤ maxSentLength ∧ vectorize s = .ok (n + 2, w)) →
      ∃ tags' trees', Returned nets vectorize [s] tags' trees' := by
    intro s hs
    have hv : ∀ s' ∈ [s], ∃ n w, n ≤ maxSentLength ∧ vectorize s' = .ok (n + 2, w) := by
      intro s' h; rw [List.mem_singleton.mp h]; exact hs
    obtain ⟨-, h⟩ := C41_parser_terminates nets hn vectorize [s] hv Rounding.exact 1 (by decide) 1 (by decide)
    obtain ⟨s₁, s₂, ⟨tags', trees'⟩, h⟩ := h [] [] 100 (by decide)
    exact ⟨tags', trees', hn, hv, _, Int.one_pos, Int.one_pos, h⟩
  have h2 : ∀ s : S, ∃ p : List Tag × Option (Tree Dep Nat), ∀ sentences tags trees,
      Returned nets vectorize sentences tags trees → ∀ i : Nat, sentences[i]? = some s →
        tags[i]? = some p.1 ∧ trees[i]? = some p.2 := by
    intro s
    by_cases hs : ∃ n w, n ≤ maxSentLength ∧ vectorize s = .ok (n + 2, w)
    · obtain ⟨tags', trees', h'⟩ := h1 s hs
      obtain ⟨tg₀, tr₀, -, -, e1, e2⟩ :=
        C46_batching_irrelevant nets f g m hf hg hm vectorize [s] tags' trees' h' 0 s rfl tags' trees' h'
      refine ⟨(tg₀, tr₀), ?_⟩
      intro sentences tags trees h i hi
      obtain ⟨tg, tr, g1, g2, g3, g4⟩ :=
        C46_batching_irrelevant nets f g m hf hg hm vectorize sentences tags trees h i s hi tags' trees' h'
      rw [e1] at g3
      rw [e2] at g4
      cases g3
      cases g4
      exact ⟨g1, g2⟩
    · refine ⟨([], none), ?_⟩
      intro sentences tags trees h i hi
      exact absurd (h.vec s (List.mem_of_getElem? hi)) hs
  choose P hP using h2
  refine ⟨P, ?_⟩
  intro sentences tags trees h
  obtain ⟨l1, l2⟩ := C41_parser_aligned nets vectorize sentences tags trees h
  have l2 := l2.length_eq
  constructor
  · apply List.ext_getElem?
    intro i
    cases hi : sentences[i]? with
    | none =>
      rw [List.getElem?_eq_none_iff] at hi
      rw [List.getElem?_eq_none_iff.mpr (by omega), List.getElem?_eq_none_iff.mpr (by simp; omega)]
    | some s => rw [(hP s sentences tags trees h i hi).1, List.getElem?_map, hi]; rfl
  · apply List.ext_getElem?
    intro i
    cases hi : sentences[i]? with
    | none =>
      rw [List.getElem?_eq_none_iff] at hi
      rw [List.getElem?_eq_none_iff.mpr (by omega), List.getElem?_eq_none_iff.mpr (by simp; omega)]
    | some s => rw [(hP s sentences tags trees h i hi).2, List.getElem?_map, hi]; rfl

theorem mapM_eq_map {α β : Type} {f : α → Except PyErr β} {g : α → β} {l : List α} {ys : List β}
    (h : l.mapM f = .ok ys) (hg : ∀ x y, f x = .ok y → y = g x) : ys = l.map g := by
  induction l generalizing ys with
  | nil => cases h; rfl
  | cons a l ih =>
    rw [List.mapM_cons] at h
    simp only [bind, Except.bind, pure, Except.pure] at h
    split at h
    · cases h
    · rename_i y hy
      split at h
      · cases h
      · rename_i zs hz
        cases h
        rw [ih hz, List.map_cons, hg a y hy]

theorem split_map {α β : Type} (f : α → β) : ∀ (gs : List (List α)) (tls : List (List β)),
    tls.flatten = gs.flatten.map f → tls.map List.length = gs.map List.length → tls = gs.map fun g => g.map f
  | [], tls, _, h => by simpa using h
  | g :: gs, [], _, h => by simp at h
  | g :: gs, l :: tls, h1, h2 => by
    simp only [List.map_cons, List.cons.injEq] at h2
    rw [List.flatten_cons, List.flatten_cons, List.map_append] at h1
    obtain ⟨a, b⟩ := List.append_inj h1 (by rw [List.length_map]; exact h2.1)
    rw [split_map f gs tls b h2.2, a]
    rfl

/-- The tuples of a sentence with given tags and tree, none if processing raises. -/
def tuplesOf (c : Logic) (chunk : Bool) (s : List Str) (p : List Tag × Option (Tree Dep Nat)) : List STuple :=
  match c.process (s, p.1, p.2, chunk) with
  | .ok r => r.2
  | .error _ => []

/-- When tags and trees are a function of the sentence, the part after sentencization is a map. -/
theorem rest_map (ok : PipeOk nets vectorize c) (chunk : Bool) {P : List Str → List Tag × Option (Tree Dep Nat)}
    (hP : ∀ sentences tags trees, Returned nets vectorize sentences tags trees →
      tags = sentences.map (fun s => (P s).1) ∧ trees = sentences.map fun s => (P s).2)
    (ss : List (List (List Str))) (cfg : PipelineCfg) (hk : 0 < cfg.nbCores) (hb : 0 < cfg.batchSize) :
      ∃ r, pipelineRest cfg vectorize nets c ss chunk = .ok r ∧ ∀ docs, r = some docs →
        docs = ss.map fun s => ⟨(splitTokens s).map fun t => ⟨tuplesOf c chunk t (P t)⟩⟩ := by
  obtain ⟨⟨r, hr, hsp⟩, -⟩ := pipelineRest_spec ok ss chunk cfg hk hb
  refine ⟨r, hr, ?_⟩
  intro docs hd
  obtain ⟨tags, trees, results, tls, h1, h2, h3, h4, rfl⟩ := hsp docs hd
  obtain ⟨e1, e2⟩ := hP _ _ _ h1
  have hpack : sentPacks (ss.map splitTokens).flatten tags trees chunk =
      (ss.map splitTokens).flatten.map fun s => (s, (P s).1, (P s).2, chunk) := by
    subst e1 e2
    generalize (ss.map splitTokens).flatten = l
    unfold sentPacks
    induction l with
    | nil => rfl
    | cons a l ih => simp [List.replicate_succ, ih]
  rw [hpack] at h2
  have h5 : tls.flatten = (ss.map splitTokens).flatten.map fun s => tuplesOf c chunk s (P s) := by
    rw [h3, mapM_eq_map (g := fun x => match c.process x with | .ok r => r | .error _ => ((Heap.empty, []), [])) h2
      (fun x y e => by simp [e]), List.map_map, List.map_map]
    refine List.map_congr_left fun s hs => ?_
    simp only [Function.comp_def, tuplesOf]
    cases he : c.process (s, (P s).1, (P s).2, chunk) with
    | ok r => rfl
    | error e => rfl
  have := split_map _ _ _ h5 (by rw [h4, List.map_map]; rfl)
  rw [this, List.map_map, List.map_map]
  refine List.map_congr_left fun s _ => ?_
  simp [Function.comp_def]

/-- What the sentencizer gives for a text, nothing if it raises. -/
def sentsOf (sentencizer : Str → Except PyErr (List (List Str))) (text : Str) : List (List Str) :=
  match sentencizer text with
  | .ok ss => ss
  | .error _ => []

theorem all_ok {sentencizer : Str → Except PyErr (List (List Str))} {l : List Str} :
    (l.all fun t => (sentencizer t).toOption.isSome) = true ↔ ∀ t ∈ l, ∃ ss, sentencizer t = .ok ss := by
  rw [List.all_eq_true]
  refine forall₂_congr fun t _ => ?_
  cases sentencizer t <;> simp [Except.toOption]

theorem sliceResults_eq (sentencizer : Str → Except PyErr (List (List Str))) (l : List Str) :
    sliceResults sentencizer l =
      if l.all fun t => (sentencizer t).toOption.isSome then l.map (sentsOf sentencizer) else [] := by
  unfold sliceResults
  split
  · rename_i ys h
    have hall : ∀ t ∈ l, ∃ ss, sentencizer t = .ok ss := by
      clear * - h
      induction l generalizing ys with
      | nil => simp
      | cons a l ih =>
        rw [List.mapM_cons] at h
        simp only [bind, Except.bind, pure, Except.pure] at h
        split at h
        · cases h
        · rename_i y hy
          split at h
          · cases h
          · rename_i zs hz
            intro t ht
            rcases List.mem_cons.mp ht with rfl | ht
            · exact ⟨y, hy⟩
            · exact ih zs hz t ht
    rw [if_pos (all_ok.mpr hall)]
    exact mapM_eq_map h fun x y e => by simp [sentsOf, e]
  · rename_i e h
    rw [if_neg]
    intro hall
    obtain ⟨ys, h1, -⟩ := mapM_ok_of_forall (all_ok.mp hall)
    rw [h] at h1
    cases h1

/-- C63 and C64 with row-wise networks: there is a document for every text, which depends on nothing but the text. If no
text makes the sentencizer raise, the pipeline gives these documents; else it gives those of the texts that are in a
slice without failing text. -/
theorem documents_of (ok : PipeOk nets vectorize c) {P : List Str → List Tag × Option (Tree Dep Nat)}
    (hP : ∀ sentences tags trees, Returned nets vectorize sentences tags trees →
      tags = sentences.map (fun s => (P s).1) ∧ trees = sentences.map fun s => (P s).2)
    (sentencizer : Str → Except PyErr (List (List Str))) (chunk : Bool) (texts : List Str) (cfg : PipelineCfg)
    (hk : 0 < cfg.nbCores) (hb : 0 < cfg.batchSize) :
        ∃ parts, divideList cfg.rounding texts cfg.nbCores = .ok parts ∧ parts.flatten = texts ∧
          (∀ e, pipelineCall cfg sentencizer vectorize nets c texts chunk ≠ .error e) ∧
          ∀ docs, pipelineCall cfg sentencizer vectorize nets c texts chunk = .ok (some docs) →
            docs = ((parts.filter fun p => p.all fun t => (sentencizer t).toOption.isSome).flatten.map fun text =>
              ⟨(splitTokens (sentsOf sentencizer text)).map fun s => ⟨tuplesOf c chunk s (P s)⟩⟩) := by
  obtain ⟨parts, h1, h2, h3⟩ := C05_run_multithreads_exact_loss_partial cfg.rounding texts sentencizer cfg.nbCores hk
  refine ⟨parts, h1, h2, ?_⟩
  rw [pipelineCall_eq]
  cases hrun : runMultithreads cfg.rounding texts sentencizer cfg.nbCores cfg.schedSentencize with
  | error e =>
    exfalso
    simp only [runMultithreads, h1, bind, Except.bind, pure, Except.pure] at hrun
    split at hrun <;> cases hrun
  | ok o =>
    cases o with
    | none => simp [bind, Except.bind, pure, Except.pure]
    | some ss =>
      simp only [bind, Except.bind]
      obtain ⟨r, hr, hsp⟩ := rest_map ok chunk hP ss cfg hk hb
      rw [hr]
      refine ⟨by simp, ?_⟩
      intro docs hd
      have hss := (h3 _ _ hrun).1
      have : parts.flatMap (sliceResults sentencizer) =
          (parts.filter fun p => p.all fun t => (sentencizer t).toOption.isSome).flatten.map (sentsOf sentencizer) := by
        clear * -
        induction parts with
        | nil => rfl
        | cons a l ih =>
          rw [List.flatMap_cons, ih, sliceResults_eq, List.filter_cons]
          split
          · rw [List.flatten_cons, List.map_append]
          · rfl
      rw [hsp docs (by simpa using hd), hss, this, List.map_map]
      rfl

theorem documents (ok : PipeOk nets vectorize c) (hr : RowWise nets) (sentencizer : Str → Except PyErr (List (List Str)))
    (chunk : Bool) : ∃ T : List Str → List STuple,
      ∀ (texts : List Str) (cfg : PipelineCfg), 0 < cfg.nbCores → 0 < cfg.batchSize →
        ∃ parts, divideList cfg.rounding texts cfg.nbCores = .ok parts ∧ parts.flatten = texts ∧
          (∀ e, pipelineCall cfg sentencizer vectorize nets c texts chunk ≠ .error e) ∧
          ∀ docs, pipelineCall cfg sentencizer vectorize nets c texts chunk = .ok (some docs) →
            docs = ((parts.filter fun p => p.all fun t => (sentencizer t).toOption.isSome).flatten.map fun text =>
              ⟨(splitTokens (sentsOf sentencizer text)).map fun s => ⟨T s⟩⟩) := by
  obtain ⟨P, hP⟩ := rowWise_parse (S := List Str) (vectorize := vectorize) ok.nets hr
  exact ⟨fun s => tuplesOf c chunk s (P s), documents_of ok hP sentencizer chunk⟩

/-- C63: with networks that predict rows independently, there is for every text a document, the same for every list of
texts around it, number of cores, batch size and schedule: if the sentencizer raises on none of the texts, the pipeline
raises nothing and what it returns is the list of these documents, in the order of the texts. -/
theorem C63_documents (ok : PipeOk nets vectorize c) (hr : RowWise nets)
    (sentencizer : Str → Except PyErr (List (List Str))) (chunk : Bool) : ∃ docOf : Str → Document,
      ∀ texts : List Str, (∀ text ∈ texts, ∃ ss, sentencizer text = .ok ss) →
        ∀ cfg : PipelineCfg, 0 < cfg.nbCores → 0 < cfg.batchSize →
          (∀ e, pipelineCall cfg sentencizer vectorize nets c texts chunk ≠ .error e) ∧
          ∀ docs, pipelineCall cfg sentencizer vectorize nets c texts chunk = .ok (some docs) → docs = texts.map docOf := by
  obtain ⟨T, hT⟩ := documents ok hr sentencizer chunk
  refine ⟨fun text => ⟨(splitTokens (sentsOf sentencizer text)).map fun s => ⟨T s⟩⟩, fun texts hs cfg hk hb => ?_⟩
  obtain ⟨parts, -, h2, h3, h4⟩ := hT texts cfg hk hb
  refine ⟨h3, fun docs hd => ?_⟩
  rw [h4 docs hd]
  have : (parts.filter fun p => p.all fun t => (sentencizer t).toOption.isSome) = parts := by
    rw [List.filter_eq_self]
    intro p hp
    refine all_ok.mpr fun t ht => hs t ?_
    rw [← h2]
    exact List.mem_flatten.mpr ⟨p, hp, ht⟩
  rw [this, h2]

/-- C63: in particular the document of a text is that of the text processed alone, with any other configuration. -/
theorem C63_alone (ok : PipeOk nets vectorize c) (hr : RowWise nets)
    (sentencizer : Str → Except PyErr (List (List Str))) (chunk : Bool) (texts : List Str)
    (hs : ∀ text ∈ texts, ∃ ss, sentencizer text = .ok ss) (cfg cfg' : PipelineCfg) (hk : 0 < cfg.nbCores)
    (hb : 0 < cfg.batchSize) (hk' : 0 < cfg'.nbCores) (hb' : 0 < cfg'.batchSize) (docs : List Document)
    (hd : pipelineCall cfg sentencizer vectorize nets c texts chunk = .ok (some docs)) (i : Nat) (text : Str)
    (hi : texts[i]? = some text) (docs' : List Document)
    (hd' : pipelineCall cfg' sentencizer vectorize nets c [text] chunk = .ok (some docs')) :
    ∃ d, docs[i]? = some d ∧ docs' = [d] := by
  obtain ⟨docOf, h⟩ := C63_documents ok hr sentencizer chunk
  rw [(h texts hs cfg hk hb).2 docs hd, List.getElem?_map, hi]
  refine ⟨docOf text, rfl, ?_⟩
  exact (h [text] (by simpa using hs text (List.mem_of_getElem? hi)) cfg' hk' hb').2 docs' hd'

/-! ### C64: texts on which the sentencizer raises -/

/-- C64, the part that holds: the documents are those of the texts handled by a thread none of whose texts fails, in
order, unaffected by the others. `parts` are the slices of the texts given to the threads. -/
theorem C64_exact_loss_partial (ok : PipeOk nets vectorize c) (hr : RowWise nets)
    (sentencizer : Str → Except PyErr (List (List Str))) (chunk : Bool) : ∃ docOf : Str → Document,
      ∀ (texts : List Str) (cfg : PipelineCfg), 0 < cfg.nbCores → 0 < cfg.batchSize →
        ∃ parts, divideList cfg.rounding texts cfg.nbCores = .ok parts ∧ parts.flatten = texts ∧
          (∀ e, pipelineCall cfg sentencizer vectorize nets c texts chunk ≠ .error e) ∧
          ∀ docs, pipelineCall cfg sentencizer vectorize nets c texts chunk = .ok (some docs) →
            docs = (parts.filter fun p => p.all fun t => (sentencizer t).toOption.isSome).flatten.map docOf := by
  obtain ⟨T, hT⟩ := documents ok hr sentencizer chunk
  exact ⟨_, hT⟩

/-! ### C65: sentences with fewer than two syntactic tokens -/

/-- C65: a sentence without tree yields no tuple, no node and no error. -/
theorem C65_no_tree (tokens : List Str) (tags : List Tag) (chunk : Bool) :
    c.process (tokens, tags, none, chunk) = .ok ((Heap.empty, []), []) := rfl

/-- C65: whatever transitions the network predicts, if no two tokens have a predicted dependency other than `NODEP`
(code 1), there is no tree. -/
theorem C65_predictions {X : Type} (mats : X) (n : Nat) (tagCodes depCodes : List Nat) (ht : ∀ x ∈ tagCodes, x < 17)
    (hd : ∀ x ∈ depCodes, x < 25) (hlt : n + 1 ≤ tagCodes.length) (hld : n + 1 ≤ depCodes.length)
    (h : ∀ i j, i < j → j < n → depCodes[i + 1]? = some 1 ∨ depCodes[j + 1]? = some 1) :
    ∃ p₀, Parse.new mats (n + 2) tagCodes depCodes = .ok p₀ ∧
      ∀ ts p, runTrans p₀ ts = .ok p → buildParseTree p.arcs = .ok none := by
  obtain ⟨tags, deps, h1, h2, h3, h4, h5⟩ := Parse.new_ok mats n tagCodes depCodes ht hd hld hlt
  refine ⟨_, h1, ?_⟩
  intro ts p hp
  obtain ⟨p', g1, g2, g3, -⟩ := runTrans_inv (freshParse_inv mats tags deps) ts
  rw [hp] at g1
  cases g1
  have hfd : (freshParse mats tags deps).deps = deps := by
    unfold freshParse; split <;> rfl
  rw [hfd] at g3
  have hcode : ∀ i : Nat, i < n → depCodes[i + 1]? = some 1 → deps[i]? = some .NODEP := by
    intro i hi hc
    have hsl : slice depCodes 1 ((n : Int) + 1) = (depCodes.take (n + 1)).drop 1 := by
      have := slice_nat depCodes 1 (n + 1)
      push_cast at this
      exact this
    rw [hsl] at h5
    have hg : ((depCodes.take (n + 1)).drop 1)[i]? = some 1 := by
      rw [List.getElem?_drop, List.getElem?_take, if_pos (by omega), Nat.add_comm 1 i, hc]
    generalize (depCodes.take (n + 1)).drop 1 = l at h5 hg
    clear * - h5 hg
    induction l generalizing deps i with
    | nil => simp at hg
    | cons a l ih =>
      rw [List.mapM_cons] at h5
      simp only [bind, Except.bind, pure, Except.pure] at h5
      split at h5
      · cases h5
      · rename_i d hd
        split at h5
        · cases h5
        · rename_i ds hds
          cases h5
          cases i with
          | zero =>
            simp only [List.getElem?_cons_zero, Option.some.injEq] at hg
            subst hg
            cases hd
            rfl
          | succ i =>
            simp only [List.getElem?_cons_succ] at hg ⊢
            exact ih ds i hds hg
  have hnil : p.arcs = [] := by
    obtain ⟨dead, hc⟩ := g2.core
    rw [List.eq_nil_iff_forall_not_mem]
    intro a ha
    have hb := (hc.before a ha).mem
    have hne : a.2.1 ≠ a.2.2 := hc.ne a ha
    have hmem : ∀ i, i = a.2.1 ∨ i = a.2.2 → ∃ d, deps[i]? = some d ∧ d ≠ .NODEP := by
      intro i hi
      have := hc.valid i (by
        simp only [List.mem_append]
        rcases hi with rfl | rfl
        · rcases hb.2 with h | h | h <;> simp [h]
        · rcases hb.1 with h | h <;> simp [h])
      rwa [g3] at this
    have hlt' : ∀ i, (∃ d, deps[i]? = some d ∧ d ≠ .NODEP) → i < n := by
      rintro i ⟨d, hd, -⟩
      rw [← h3]
      exact (List.getElem?_eq_some_iff.mp hd).1
    have hno : ∀ i, (∃ d, deps[i]? = some d ∧ d ≠ .NODEP) → depCodes[i + 1]? ≠ some 1 := by
      rintro i ⟨d, hd, hnd⟩ hc
      rw [hcode i (hlt' i ⟨d, hd, hnd⟩) hc] at hd
      exact hnd (Option.some.inj hd).symm
    have m1 := hmem _ (Or.inl rfl)
    have m2 := hmem _ (Or.inr rfl)
    rcases Nat.lt_or_gt_of_ne hne with hlt | hlt
    · rcases h _ _ hlt (hlt' _ m2) with e | e
      · exact hno _ m1 e
      · exact hno _ m2 e
    · rcases h _ _ hlt (hlt' _ m1) with e | e
      · exact hno _ m2 e
      · exact hno _ m1 e
  rw [hnil]
  rfl

/-- C65: a sentence of fewer than two tokens has no tree, with all networks. -/
theorem C65_short {S : Type} {vectorize : S → Except PyErr (Nat × W)} {sentences : List S}
    {tags : List (List Tag)} {trees : List (Option (Tree Dep Nat))}
    (h : Returned nets vectorize sentences tags trees) (i : Nat) (tg : List Tag) (hg : tags[i]? = some tg)
    (hl : tg.length < 2) : trees[i]? = some none := by
  obtain ⟨l1, l2⟩ := C41_parser_aligned nets vectorize sentences tags trees h
  have l2 := l2.length_eq
  have hi := (List.getElem?_eq_some_iff.mp hg).1
  cases ht : trees[i]? with
  | none => rw [List.getElem?_eq_none_iff] at ht; omega
  | some o =>
    cases o with
    | none => rfl
    | some t =>
      exfalso
      obtain ⟨tg', g1, g2, g3, g4⟩ := C44_parse_well_formed nets vectorize sentences tags trees h i t ht
      rw [hg] at g1
      cases g1
      obtain ⟨x, xs, hx⟩ := List.exists_cons_of_ne_nil g3
      have := g4 x.1 t.root x.2 (by rw [hx]; simp)
      omega

/-- C65: texts all of whose sentences have fewer than two tokens get documents without any tuple, one sentence each. -/
theorem C65_no_tuples (ok : PipeOk nets vectorize c) (sentencizer : Str → Except PyErr (List (List Str)))
    (texts : List Str) (sents : List (List (List Str)))
    (hs : List.Forall₂ (fun text ss => sentencizer text = .ok ss) texts sents)
    (hl : ∀ ss ∈ sents, ∀ s ∈ ss, s.length < 2) (chunk : Bool) (cfg : PipelineCfg)
    (hk : 0 < cfg.nbCores) (hb : 0 < cfg.batchSize) :
    (∀ e, pipelineCall cfg sentencizer vectorize nets c texts chunk ≠ .error e) ∧
    (∀ docs, pipelineCall cfg sentencizer vectorize nets c texts chunk = .ok (some docs) →
      docs = sents.map fun ss => ⟨ss.map fun _ => ⟨[]⟩⟩) := by
  refine ⟨(C63_aligned ok sentencizer texts sents hs chunk cfg hk hb).1, ?_⟩
  have hm : texts.mapM sentencizer = .ok sents := by
    clear hl
    induction hs with
    | nil => rfl
    | cons h _ ih => simp [h, ih, bind, Except.bind, pure, Except.pure]
  obtain ⟨a1, -⟩ := runMultithreads_of_ok cfg.rounding texts sentencizer sents hm cfg.nbCores hk
  obtain ⟨⟨r, hr, hsp⟩, -⟩ := pipelineRest_spec ok sents chunk cfg hk hb
  rw [pipelineCall_eq]
  rcases a1 cfg.schedSentencize with e | e
  · simp [e, bind, Except.bind, pure, Except.pure]
  · simp only [e, bind, Except.bind, hr]
    intro docs hd
    obtain ⟨tags, trees, results, tls, h1, h2, h3, h4, rfl⟩ := hsp docs (by simpa using hd)
    have hsplit : sents.map splitTokens = sents := by
      have : ∀ ss ∈ sents, splitTokens ss = ss := fun ss h =>
        C62_short_unchanged ss fun s hs => by have := hl ss h s hs; omega
      rw [List.map_congr_left this, List.map_id']
    rw [hsplit] at h1 h2
    have hres : ∀ x ∈ sentPacks sents.flatten tags trees chunk, c.process x = .ok ((Heap.empty, []), []) := by
      rintro ⟨tokens, tg, o, b⟩ hx
      obtain ⟨i, g1, g2, g3, -⟩ := mem_sentPacks hx
      simp only at g1 g2 g3
      have hm : tokens ∈ sents.flatten := List.mem_of_getElem? g1
      obtain ⟨ss, hm1, hm2⟩ := List.mem_flatten.mp hm
      have hle : ∀ s ∈ sents.flatten, s.length ≤ 50 := by
        intro s hs
        obtain ⟨ss, k1, k2⟩ := List.mem_flatten.mp hs
        have := hl ss k1 s k2
        omega
      have := Model.Returned.lengths ok hle h1 g1 g2
      have := hl ss hm1 tokens hm2
      have := C65_short h1 i tg g2 (by omega)
      rw [g3] at this
      cases this
      rfl
    rw [mapM_ok_map (g := fun _ => ((Heap.empty, ([] : Dict Nat Ref)), ([] : List STuple))) hres] at h2
    cases h2
    have hlen : (sentPacks sents.flatten tags trees chunk).length = sents.flatten.length := by
      obtain ⟨al1, al2⟩ := C41_parser_aligned nets vectorize _ tags trees h1
      have := al2.length_eq
      unfold sentPacks
      simp only [List.length_zip, List.length_replicate]
      omega
    have h5 : tls.flatten = sents.flatten.map fun _ => ([] : List STuple) := by
      rw [h3, List.map_map]
      simp only [Function.comp_def, List.map_const', hlen]
    have h6 := split_map _ _ _ h5 (by
      rw [h4]
      refine List.map_congr_left fun ss h => ?_
      rw [C62_short_unchanged ss fun s hs => by have := hl ss h s hs; omega])
    rw [h6, List.map_map]
    refine List.map_congr_left fun ss _ => ?_
    simp

theorem sentencize_nil (db : CharDB) : sentencize db (tokenize db) [] = .ok [[[]]] := by
  have a1 : reNewline.split db [] = [[]] := rfl
  have a2 : sanitize db sentSanitization [] = [] := rfl
  have a3 : findBlocksAll db reQuote '༺' '༻' [[]] [] = ([[]], []) := rfl
  have a4 : findBlocksAll db reBracket '⦅' '⦆' [[]] [] = ([[]], []) := rfl
  have a5 : splitSentences db [[]] = [[[]]] := rfl
  have a6 : sentToken db (tokenize db) [] [] [] = .ok [[]] := rfl
  unfold sentencize
  simp only [a1, List.map_cons, a2, List.map_nil, a3, a4, List.flatMap_cons, C67_empty, a5, List.flatMap_nil, List.append_nil]
  simp [a6, bind, Except.bind, pure, Except.pure]

/-- C65: the empty text has one sentence, without tuple. -/
theorem C65_empty_text (ok : PipeOk nets vectorize c) (db : CharDB) (chunk : Bool) (cfg : PipelineCfg)
    (hk : 0 < cfg.nbCores) (hb : 0 < cfg.batchSize) :
    (∀ e, pipelineCall cfg (sentencize db (tokenize db)) vectorize nets c [[]] chunk ≠ .error e) ∧
    (∀ docs, pipelineCall cfg (sentencize db (tokenize db)) vectorize nets c [[]] chunk = .ok (some docs) →
      docs = [⟨[⟨[]⟩]⟩]) :=
  C65_no_tuples ok _ [[]] [[[[]]]] (.cons (sentencize_nil db) .nil) (by simp) chunk cfg hk hb

/-! ### Examples and the counterexample to C64 -/

/-- The lemmatizer of the examples, without nouns and irregular participles. -/
def demoLogic : Logic := ⟨fun s => s.map Char.toLower, demoLemmatizer, [], []⟩

theorem demoLogic_ok : LogicOk demoLogic where
  loaded := ⟨Rounding.exact, fun p => p, demoWords, by decide +kernel⟩
  words := by
    intro g hg
    have h1 : g ∈ demoWordsLM.details.keys := (Dict.has_iff _ _).mp hg
    have h2 : ∀ g ∈ demoWordsLM.details.keys, ∃ c ∈ g, isSpace c = false := by decide +kernel
    exact h2 g h1

/-- Networks that see a subject, the root and an object, and a token without dependency after them. -/
def clauseNets : Networks Unit where
  tags ws := ws.map fun _ => [0, Tag.NOUN.code, Tag.VERB.code, Tag.NOUN.code] ++ List.replicate 48 Tag.PUNCT.code
  deps ts ws := List.zipWith (fun _ _ => [0, Dep.SUBJ.code, Dep.ROOT.code, Dep.OBJ.code] ++ List.replicate 48 1) ts ws
  trans rows := rows.map fun row => if row.2.1[1]? = some true then .LEFT else .RIGHT

theorem clauseNets_ok : NetsOk clauseNets where
  tagsLen := by simp [clauseNets]
  tagsRow := by
    intro ws r hr
    simp only [clauseNets, List.mem_map] at hr
    obtain ⟨-, -, rfl⟩ := hr
    decide +kernel
  depsLen := by intro ts ws h; simp [clauseNets, h]
  depsRow := by
    intro ts ws r hr
    simp only [clauseNets, ← List.map_uncurry_zip_eq_zipWith, List.mem_map] at hr
    obtain ⟨⟨_, _⟩, _, rfl⟩ := hr
    simp only [Function.uncurry]
    decide +kernel
  trans := by intro rows; simp [clauseNets]

theorem clauseNets_rowWise : RowWise clauseNets := ⟨⟨_, fun _ => rfl⟩, ⟨_, fun _ _ => rfl⟩, ⟨_, fun _ => rfl⟩⟩

/-- The length of the sentence is all that these networks need. -/
def lengthOnly (s : List Str) : Except PyErr (Nat × Unit) :=
  if s.length ≤ 50 then .ok (s.length + 2, ()) else .error .sentenceTooLong

theorem demoPipe_ok : PipeOk clauseNets lengthOnly demoLogic :=
  ⟨clauseNets_ok, fun s hs => ⟨(), by simp [lengthOnly, hs]⟩, demoLogic_ok⟩

/-- One thread, which first starts and then handles `n` items. -/
def oneThread (n : Nat) : List Move := [.main] ++ List.replicate (n + 2) (.worker 0) ++ [.main, .main]

def demoCfg (k : Int) (sents : List Move) (n : Nat) : PipelineCfg :=
  ⟨Rounding.exact, k, 2, sents, oneThread n, oneThread n, oneThread n, 100, oneThread n⟩

/-- The tuples of all sentences of all documents. -/
def shown (r : Except PyErr (Option (List Document))) : Except PyErr (Option (List (List (List Str)))) :=
  r.map fun o => o.map fun docs => docs.map fun d => d.sentences.map fun s => s.stuples.map fun t => t.flatten true

/-- The pipeline of the examples, with the real tokenizer and sentencizer. -/
def demoPipe (cfg : PipelineCfg) (texts : List Str) : Except PyErr (Option (List Document)) :=
  pipelineCall cfg (sentencize asciiDB (tokenize asciiDB)) lengthOnly clauseNets demoLogic texts true

/-- The hypotheses of C63 and C80 are satisfiable and the pipeline computes. -/
example : shown (demoPipe (demoCfg 1 (oneThread 9) 9) [c!"Foxes baked formats. They format foxes!", c!"", c!"Foxes"]) =
    .ok (some [[[c!"NTN(fox, bake, format)", c!"NCL(format, be, baked)"],
        [c!"NTN(they, format, fox)", c!"NCL(fox, be, formated)"]], [[]], [[]]]) := by
  decide +kernel

/-- C62: 31 tokens, a semicolon, 20 tokens. -/
example : (splitTokens [[c!"a", c!":"], List.replicate 31 c!"a" ++ [c!";"] ++ List.replicate 20 c!"b" ++ [c!"(", c!")"],
    List.replicate 51 c!"a" ++ c!"-" :: [c!"b"]]).map List.length = [2, 31, 20, 1] := by decide +kernel

/-- C65: two tokens, of which one has a dependency; the hypotheses of `C65_predictions` hold and the parse is not trivial. -/
example : ∃ p₀, Parse.new () 4 [0, 5, 5, 0] [0, 2, 1, 0] = .ok p₀ ∧
    ∀ ts p, runTrans p₀ ts = .ok p → buildParseTree p.arcs = .ok none :=
  C65_predictions () 2 _ _ (by decide) (by decide) (by decide) (by decide) fun i j h1 h2 => by
    obtain rfl : i = 0 := by omega
    obtain rfl : j = 1 := by omega
    decide

/-- The expectation of C64: every text on which the sentencizer does not raise has its document at its position. -/
def OtherTextsKept : Prop :=
  ∀ (cfg : PipelineCfg) (texts : List Str) (docs : List Document), 0 < cfg.nbCores → 0 < cfg.batchSize →
    demoPipe cfg texts = .ok (some docs) →
    ∀ (i : Nat) text ss, texts[i]? = some text → sentencize asciiDB (tokenize asciiDB) text = .ok ss →
      ∃ d : Document, docs[i]? = some d ∧ d.sentences.length = (splitTokens ss).length

/-- C64 is false of the code, with the real sentencizer on plain texts: the text that fails takes the others of its thread
with it. -/
theorem C64_other_texts_lost_false : ¬ OtherTextsKept := by
  intro h
  have h0 : shown (demoPipe (demoCfg 1 (oneThread 2) 2) [c!"Foxes baked formats.", c!"\"hi\" 'n' a.b/c"]) = .ok (some []) := by
    decide +kernel
  have h1 : (sentencize asciiDB (tokenize asciiDB) c!"Foxes baked formats.") =
      .ok [[c!"Foxes", c!"baked", c!"formats", c!"."]] := by decide +kernel
  cases hp : demoPipe (demoCfg 1 (oneThread 2) 2) [c!"Foxes baked formats.", c!"\"hi\" 'n' a.b/c"] with
  | error e => rw [hp] at h0; cases h0
  | ok o =>
    rw [hp] at h0
    cases o with
    | none => cases h0
    | some docs =>
      have hd : docs = [] := by simpa [shown, Except.map] using h0
      subst hd
      obtain ⟨d, hd, -⟩ := h _ _ _ (by decide) (by decide) hp 0 _ _ rfl h1
      cases hd

/-- C64: nor do the documents that remain keep their positions: with two threads, the document of the second text comes
first. -/
theorem C64_positions_shift_false :
    shown (demoPipe (demoCfg 2 ([.main, .main] ++ List.replicate 3 (.worker 0) ++ List.replicate 4 (.worker 1) ++
        [.main, .main, .main, .main]) 3) [c!"\"hi\" 'n' a.b/c", c!"Foxes baked formats."]) =
      .ok (some [[[c!"NTN(fox, bake, format)", c!"NCL(format, be, baked)"]]]) := by
  decide +kernel

end Props
