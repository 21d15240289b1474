import Verif.Lemmas.GoldParse

/-! C93 and C94: what the tuples of a sentence depend on, and tests on labelled samples. -/

namespace Props
open Py Model Spec

variable {W : Type} {nets : Networks W} {vectorize : List Str → Except PyErr (Nat × W)} {c : Logic}

/-! ### C93 -/

/-- **C93** (partial: full statement refuted by `C93_arcs_order_false`). *The nodes and tuples of a sentence depend
on the arcs of its tree, not on the order they are registered in.* They do not when every token has at most one head
and the dependents of a token under one of the labels SUBJ, OBJ, PROP, MARK, AND and OR keep their order. -/
theorem C93_arcs_order_partial (root : Nat) (arcs arcs' : List (Dep × Nat × Nat)) (H : SameArcs arcs arcs')
    (t : Tree Dep Nat) (hb : buildTree root arcs = .ok t) : ∃ t', buildTree root arcs' = .ok t' ∧
      ∀ (c : Logic) (tokens : List Str) (tags : List Tag) (chunk : Bool),
        c.process (tokens, tags, some t', chunk) = c.process (tokens, tags, some t, chunk) := by
  obtain ⟨t', hb'⟩ := buildTree_total root arcs' fun a ha => (buildTree_inv hb).ne a (H.perm.mem_iff.mpr ha)
  exact ⟨t', hb', fun c tokens tags chunk => (process_same hb hb' H c tokens tags chunk).symm⟩

/-- The tuples of a sentence with the given arcs. -/
def arcTuples (tokens : List Str) (tags : List Tag) (root : Nat) (arcs : List (Dep × Nat × Nat)) :
    Except PyErr (List Str) := do
  let t ← buildTree root arcs
  let r ← demoLogic.process (tokens, tags, some t, true)
  return r.2.map fun x => x.flatten true

/-- "Foxes quickly format baked formats": the arcs of the verb and of its object can be mixed. -/
example : SameArcs [(Dep.SUBJ, 2, 0), (.CPL, 2, 1), (.CPL, 4, 3), (.OBJ, 2, 4)]
    [(Dep.CPL, 4, 3), (.OBJ, 2, 4), (.CPL, 2, 1), (.SUBJ, 2, 0)] := by
  refine ⟨by decide, by decide, ?_⟩
  intro l hl p
  by_cases hp : p = 2
  · subst hp
    revert l
    decide
  · have hp' : 2 ≠ p := fun e => hp e.symm
    simp only [rankedDeps, List.mem_cons, List.not_mem_nil, or_false] at hl
    rcases hl with rfl | rfl | rfl | rfl | rfl | rfl <;> simp [labelled, hp']

example : arcTuples [c!"Foxes", c!"quickly", c!"format", c!"baked", c!"formats"] [.NOUN, .ADV, .VERB, .ADJ, .NOUN] 2
      [(.CPL, 4, 3), (.OBJ, 2, 4), (.CPL, 2, 1), (.SUBJ, 2, 0)] =
    .ok [c!"NTN(fox, format, format)", c!"NCL(format, be, baked)", c!"NCL(format, be, formated)"] := by
  decide +kernel

/-- **C93** (negation). With two subjects of a copula, the property is said of the subject registered first. -/
theorem C93_arcs_order_false : ∃ (tokens : List Str) (tags : List Tag) (root : Nat) (arcs arcs' : List (Dep × Nat × Nat)),
    arcs.Perm arcs' ∧ SingleHead arcs ∧ arcTuples tokens tags root arcs = .ok [c!"NCL(fox, be, baked)"] ∧
      arcTuples tokens tags root arcs' = .ok [c!"NCL(format, be, baked)"] :=
  ⟨[c!"Foxes", c!"formats", c!"are", c!"baked"], [.NOUN, .NOUN, .VERB, .ADJ], 2,
    [(.SUBJ, 2, 0), (.SUBJ, 2, 1), (.PROP, 2, 3)], [(.SUBJ, 2, 1), (.SUBJ, 2, 0), (.PROP, 2, 3)],
    by decide, by decide, by decide +kernel, by decide +kernel⟩

/-! ### C94 -/

/-- The networks predict rows on their own, and for this sentence they predict its labels and the transitions of the
oracle. `w` is the vector of the sentence; predictions for padding positions do not matter. -/
structure Reproduces (nets : Networks W) (w : W) (l : List WordTuple) : Prop where
  rows : ∃ (f : W → List Nat) (g : List Nat → W → List Nat) (m : (List Nat × List Nat × W) × List Bool × List Bool → Trans),
    (∀ ws, nets.tags ws = ws.map f) ∧ (∀ ts ws, nets.deps ts ws = List.zipWith g ts ws) ∧
    (∀ rows, nets.trans rows = rows.map m) ∧
    ((f w).drop 1).take l.length = l.map (fun t => t.2.1.code) ∧
    ((g (f w) w).drop 1).take l.length = l.map (fun t => t.2.2.1.code) ∧
    ∀ gs trs, GoldSentence.read (names l) = .ok gs → gs.transitions = .ok trs → ∀ x ∈ trs,
      m ((f w, g (f w) w, w), oneHot 52 (x.1 + 1), oneHot 52 (x.2.1 + 1)) = x.2.2

/-- **C94** (partial: full statement refuted by `C94_sample_false`). *When the networks reproduce the labels of a sample,
the pipeline gives its sentence the tuples that `test_sample` gives the sample.* It does for projective samples of at most
50 tokens in which no token has two dependents on its left under the same label among SUBJ, OBJ, PROP, MARK, AND and OR:
`test_sample` raises nothing, and in whatever text the sentence is, the tuples of the sentence are the same, for all other
texts, configurations and schedules. -/
theorem C94_sample_partial (ok : PipeOk nets vectorize c) (l : List WordTuple) (r : Nat)
    (H : ProjectiveGold (l.map Prod.snd) r) (hone : LeftUnique (l.map Prod.snd)) (hlen : l.length ≤ 50) (w : W)
    (hw : vectorize (l.map Prod.fst) = .ok (l.length + 2, w)) (hrep : Reproduces nets w l) :
    ∃ ts : List STuple,
      (∀ (R : Rounding) (k : Int), 0 < k →
        (∀ sched, testSample c R k sched (names l) = .ok none ∨ testSample c R k sched (names l) = .ok (some ts)) ∧
        ∀ sched, ∃ sched', testSample c R k (sched ++ sched') (names l) = .ok (some ts)) ∧
      ∀ (sentencizer : Str → Except PyErr (List (List Str))) (texts : List Str),
        (∀ text ∈ texts, ∃ ss, sentencizer text = .ok ss) →
        ∀ cfg : PipelineCfg, 0 < cfg.nbCores → 0 < cfg.batchSize → ∀ docs : List Document,
        pipelineCall cfg sentencizer vectorize nets c texts true = .ok (some docs) →
        ∀ (i j : Nat) (text : Str) (ss : List (List Str)), texts[i]? = some text → sentencizer text = .ok ss →
          (splitTokens ss)[j]? = some (l.map Prod.fst) →
          ∃ d : Document, docs[i]? = some d ∧ d.sentences[j]? = some ⟨ts⟩ := by
  obtain ⟨f, g, m, hf, hg, hm, ht, hd, htr⟩ := hrep.rows
  have hrow1 : (f w).length = 52 ∧ ∀ c ∈ f w, c < 17 := ok.nets.tagsRow [w] (f w) (by rw [hf]; simp)
  have hrow2 : (g (f w) w).length = 52 ∧ ∀ c ∈ g (f w) w, c < 25 :=
    ok.nets.depsRow [f w] [w] (g (f w) w) (by rw [hg]; simp)
  have hl : (l.map Prod.snd).length = l.length := List.length_map _
  have ht' : ((f w).drop 1).take (l.map Prod.snd).length = (l.map Prod.snd).map fun t => t.1.code := by
    rw [hl, ht, List.map_map]; rfl
  have hd' : ((g (f w) w).drop 1).take (l.map Prod.snd).length = (l.map Prod.snd).map fun t => t.2.1.code := by
    rw [hl, hd, List.map_map]; rfl
  obtain ⟨s, trs, -, -, hs, htrs, -⟩ := C47_oracle_replays (l.map Prod.snd) r H () (f w) (g (f w) w) hrow1.2 hrow2.2
    (by omega) hd'
  have hroot : ∃ t ∈ l, t.2.2.1 = Dep.ROOT := by
    obtain ⟨tag, q, hr⟩ := H.rootTok
    have := List.mem_of_getElem? hr
    obtain ⟨t, h1, h2⟩ := List.mem_map.mp this
    exact ⟨t, h1, by rw [h2]⟩
  have hread : GoldSentence.read (names l) = .ok ⟨l.map Prod.fst, s⟩ := by
    have := read_typed l
    rw [hs] at this
    simp only [hroot, if_true] at this
    exact this
  have htr' := htr ⟨l.map Prod.fst, s⟩ trs hread (by
    unfold GoldSentence.transitions
    rw [hl] at htrs
    simp [htrs, bind, Except.bind, pure, Except.pure])
  have key : ∀ (ss : List (List Str)) (tags : List (List Tag)) (trees : List (Option (Tree Dep Nat))),
      Returned nets vectorize ss tags trees → ∀ i : Nat, ss[i]? = some (l.map Prod.fst) →
      ∃ o x x' ts, tags[i]? = some s.tags ∧ trees[i]? = some o ∧
        c.process (l.map Prod.fst, s.tags, o, true) = .ok (x, ts) ∧
        c.process (l.map Prod.fst, s.tags, s.tree, true) = .ok (x', ts) := fun ss tags trees h i hi =>
    gold_tuples ok hf hg hm H hone (by simp) (by omega) (by rw [hl]; exact hw) ht' hd' hs htrs htr' h hi true
  obtain ⟨P, hP⟩ := rowWise_parse (S := List Str) (vectorize := vectorize) ok.nets ⟨⟨f, hf⟩, ⟨g, hg⟩, ⟨m, hm⟩⟩
  -- the sentence alone
  have hv : ∀ s' ∈ [l.map Prod.fst], ∃ n w, n ≤ maxSentLength ∧ vectorize s' = .ok (n + 2, w) := by
    intro s' h; rw [List.mem_singleton.mp h]; exact ⟨l.length, w, hlen, hw⟩
  obtain ⟨-, hterm⟩ := C41_parser_terminates nets ok.nets vectorize [l.map Prod.fst] hv Rounding.exact 1 (by decide) 1
    (by decide)
  obtain ⟨s₁, s₂, ⟨tags', trees'⟩, hterm⟩ := hterm [] [] 100 (by decide)
  have hret : Returned nets vectorize [l.map Prod.fst] tags' trees' :=
    ⟨ok.nets, hv, _, Int.one_pos, Int.one_pos, hterm⟩
  obtain ⟨o, x, x', ts, h1, h2, h3, h4⟩ := key _ _ _ hret 0 rfl
  obtain ⟨e1, e2⟩ := hP _ _ _ hret
  rw [e1] at h1
  rw [e2] at h2
  simp only [List.map_cons, List.map_nil, List.getElem?_cons_zero, Option.some.injEq] at h1 h2
  refine ⟨ts, fun R k hk => testSample_ok hread h4 R k hk, ?_⟩
  intro sentencizer texts hsent cfg hk hb docs hdocs i j text ss hi hss hj
  obtain ⟨parts, -, q2, -, q4⟩ := documents_of ok hP sentencizer true texts cfg hk hb
  have hparts : (parts.filter fun p => p.all fun t => (sentencizer t).toOption.isSome) = parts := by
    rw [List.filter_eq_self]
    intro p hp
    refine all_ok.mpr fun t ht => hsent t ?_
    rw [← q2]
    exact List.mem_flatten.mpr ⟨p, hp, ht⟩
  rw [hparts, q2] at q4
  rw [q4 docs hdocs, List.getElem?_map, hi]
  refine ⟨_, rfl, ?_⟩
  have : sentsOf sentencizer text = ss := by simp [sentsOf, hss]
  simp only [this, List.getElem?_map, hj, Option.map_some, Option.some.injEq, Sentence.mk.injEq]
  unfold tuplesOf
  rw [h1, h2, h3]

/-- **C94.** A sample without root says nothing, whatever its tokens. -/
theorem C94_no_root (tuples : List RawTuple) (hd : ∀ t ∈ tuples, ∃ d : Dep, t.2.2.1 = d.name)
    (hr : ∀ t ∈ tuples, t.2.2.1 ≠ c!"ROOT") (R : Rounding) (k : Int) (hk : 0 < k) :
    (∀ sched, testSample c R k sched tuples = .ok none ∨ testSample c R k sched tuples = .ok (some [])) ∧
    ∀ sched, ∃ sched', testSample c R k (sched ++ sched') tuples = .ok (some []) :=
  testSample_ok (C89_no_root_false tuples hd hr) rfl R k hk

/-- Networks for one sentence: its labels, completed with padding, and a table of transitions. -/
def labelNets (tags : List Tag) (deps : List Dep) (trs : List (Nat × Nat × Trans)) : Networks Unit where
  tags ws := ws.map fun _ => labelRow (tags.map Tag.code)
  deps ts ws := List.zipWith (fun _ _ => labelRow (deps.map Dep.code)) ts ws
  trans rows := rows.map fun row =>
    ((trs.find? fun x => oneHot 52 (x.1 + 1) = row.2.1 ∧ oneHot 52 (x.2.1 + 1) = row.2.2).map fun x => x.2.2).getD .SHIFT

theorem labelRow_ok {n : Nat} {ids : List Nat} (hl : ids.length ≤ 50) (h : ∀ x ∈ ids, x < n) (hn : 0 < n) :
    (labelRow ids).length = paddedSentLength ∧ ∀ x ∈ labelRow ids, x < n := by
  unfold labelRow padTo paddedSentLength maxSentLength
  constructor
  · simp; omega
  · intro x hx
    simp only [List.mem_append, List.mem_singleton, List.mem_replicate] at hx
    rcases hx with ((rfl | hx) | rfl) | ⟨-, rfl⟩
    · exact hn
    · exact h x hx
    · exact hn
    · exact hn

theorem labelNets_ok {tags : List Tag} {deps : List Dep} (ht : tags.length ≤ 50) (hd : deps.length ≤ 50)
    (trs : List (Nat × Nat × Trans)) : NetsOk (labelNets tags deps trs) where
  tagsLen := by simp [labelNets]
  tagsRow := by
    intro ws r hr
    simp only [labelNets, List.mem_map] at hr
    obtain ⟨-, -, rfl⟩ := hr
    refine labelRow_ok (by simpa using ht) ?_ (by decide)
    intro x hx
    obtain ⟨t, -, rfl⟩ := List.mem_map.mp hx
    cases t <;> decide
  depsLen := by intro ts ws h; simp [labelNets, h]
  depsRow := by
    intro ts ws r hr
    simp only [labelNets, ← List.map_uncurry_zip_eq_zipWith, List.mem_map] at hr
    obtain ⟨⟨_, _⟩, _, rfl⟩ := hr
    refine labelRow_ok (by simpa using hd) ?_ (by decide)
    intro x hx
    obtain ⟨t, -, rfl⟩ := List.mem_map.mp hx
    cases t <;> decide
  trans := by intro rows; simp [labelNets]

/-- "Foxes bake the formats." -/
def demoSample : List WordTuple :=
  [c!"Foxes", c!"bake", c!"the", c!"formats", c!"."].zip demoTuples

def demoSampleNets : Networks Unit :=
  labelNets (demoSample.map (·.2.1)) (demoSample.map (·.2.2.1)) [(0, 1, .LEFT), (1, 2, .SHIFT), (2, 3, .LEFT), (1, 3, .RIGHT)]

/-- The hypotheses of `C94_sample_partial` hold of the sample and these networks. -/
example : PipeOk demoSampleNets lengthOnly demoLogic ∧ LeftUnique (demoSample.map Prod.snd) ∧
    lengthOnly (demoSample.map Prod.fst) = .ok (demoSample.length + 2, ()) ∧ Reproduces demoSampleNets () demoSample := by
  refine ⟨⟨labelNets_ok (by decide) (by decide) _, fun s hs => ⟨(), by simp [lengthOnly, hs]⟩, demoLogic_ok⟩, ?_, rfl,
    ⟨⟨_, _, _, fun _ => rfl, fun _ _ => rfl, fun _ => rfl, by decide +kernel, by decide +kernel, ?_⟩⟩⟩
  · intro l _ p c c' h h' _ _
    rw [← mem_goldArcs] at h h'
    have e : goldArcs (demoSample.map Prod.snd) = [(Dep.SUBJ, 1, 0), (.ART, 3, 2), (.OBJ, 1, 3)] := by decide
    rw [e] at h h'
    simp only [List.mem_cons, Prod.mk.injEq, List.not_mem_nil, or_false] at h h'
    rcases h with ⟨rfl, -, rfl⟩ | ⟨rfl, -, rfl⟩ | ⟨rfl, -, rfl⟩ <;> simp at h' <;> omega
  · intro gs trs h1 h2
    have e : ((GoldSentence.read (names demoSample)).bind fun g => g.transitions) =
        .ok [(0, 1, .LEFT), (1, 2, .SHIFT), (2, 3, .LEFT), (1, 3, .RIGHT)] := by decide +kernel
    rw [h1] at e
    simp only [Except.bind] at e
    rw [h2] at e
    cases e
    decide +kernel

/-- The tuples of a test. -/
def tested (r : Except PyErr (Option (List STuple))) : Except PyErr (Option (List Str)) :=
  r.map fun o => o.map fun l => l.map fun t => t.flatten true

example : tested (testSample demoLogic Rounding.exact 4 (oneThread 2) (names demoSample)) =
    .ok (some [c!"NTN(fox, bake, format)", c!"NCL(format, be, baked)"]) := by decide +kernel

/-- "Foxes formats are baked", with two subjects before the verb. -/
def twoSubjects : List WordTuple :=
  [(c!"Foxes", .NOUN, .SUBJ, 2), (c!"formats", .NOUN, .SUBJ, 2), (c!"are", .VERB, .ROOT, -1), (c!"baked", .ADJ, .PROP, 2)]

def twoSubjectsNets : Networks Unit :=
  labelNets (twoSubjects.map (·.2.1)) (twoSubjects.map (·.2.2.1)) [(0, 1, .SHIFT), (1, 2, .LEFT), (0, 2, .LEFT), (2, 3, .RIGHT)]

/-- **C94** (negation). The networks reproduce this projective sample, but the tree of the parser has the subject next to
the verb first, where that of the sample has the first word first: the property is said of another noun. -/
theorem C94_sample_false : ProjectiveGold (twoSubjects.map Prod.snd) 2 ∧ Reproduces twoSubjectsNets () twoSubjects ∧
    PipeOk twoSubjectsNets lengthOnly demoLogic ∧
    tested (testSample demoLogic Rounding.exact 1 (oneThread 1) (names twoSubjects)) = .ok (some [c!"NCL(fox, be, baked)"]) ∧
    shown (pipelineCall (demoCfg 1 (oneThread 1) 1) (fun _ => .ok [twoSubjects.map Prod.fst]) lengthOnly twoSubjectsNets
      demoLogic [c!"Foxes formats are baked"] true) = .ok (some [[[c!"NCL(format, be, baked)"]]]) := by
  refine ⟨?_, ⟨⟨_, _, _, fun _ => rfl, fun _ _ => rfl, fun _ => rfl, by decide +kernel, by decide +kernel, ?_⟩⟩,
    ⟨labelNets_ok (by decide) (by decide) _, fun s hs => ⟨(), by simp [lengthOnly, hs]⟩, demoLogic_ok⟩,
    by decide +kernel, by decide +kernel⟩
  · have arcs : ∀ d p c, GoldArc (twoSubjects.map Prod.snd) d p c ↔
        (d, p, c) ∈ [(Dep.SUBJ, 2, 0), (.SUBJ, 2, 1), (.PROP, 2, 3)] := by
      intro d p c
      rw [← mem_goldArcs]
      exact Iff.rfl
    have small : ∀ (i : Nat) t, (twoSubjects.map Prod.snd)[i]? = some t → i < 4 :=
      fun i t h => (List.getElem?_eq_some_iff.mp h).1
    refine ⟨⟨.VERB, -1, rfl⟩, ?_, ?_, ?_, ?_, ?_⟩
    · intro i tag p h
      have := small i _ h
      interval_cases i <;> simp [twoSubjects] at h ⊢
    · intro i tag d p h h1 h2
      have := small i _ h
      interval_cases i <;> simp [twoSubjects] at h <;> obtain ⟨rfl, rfl, rfl⟩ := h
      · exact ⟨2, rfl, .VERB, .ROOT, -1, rfl, by simp⟩
      · exact ⟨2, rfl, .VERB, .ROOT, -1, rfl, by simp⟩
      · exact absurd rfl h1
      · exact ⟨2, rfl, .VERB, .ROOT, -1, rfl, by simp⟩
    · apply acyclic_of_rank (fun n => match n with | 2 => 0 | _ => 1)
      rintro p c ⟨d, h⟩
      rw [arcs] at h
      simp at h
      rcases h with ⟨_, rfl, rfl⟩ | ⟨_, rfl, rfl⟩ | ⟨_, rfl, rfl⟩ <;> simp
    · intro d p c d' p' c' h h'
      rw [arcs] at h h'
      simp at h h'
      rcases h with ⟨_, rfl, rfl⟩ | ⟨_, rfl, rfl⟩ | ⟨_, rfl, rfl⟩ <;>
      rcases h' with ⟨_, rfl, rfl⟩ | ⟨_, rfl, rfl⟩ | ⟨_, rfl, rfl⟩ <;> simp [Cross, lo, hi]
    · intro d p c h
      rw [arcs] at h
      simp at h
      rcases h with ⟨_, rfl, rfl⟩ | ⟨_, rfl, rfl⟩ | ⟨_, rfl, rfl⟩ <;> simp [Covers, lo, hi]
  · intro gs trs h1 h2
    have e : ((GoldSentence.read (names twoSubjects)).bind fun g => g.transitions) =
        .ok [(0, 1, .SHIFT), (1, 2, .LEFT), (0, 2, .LEFT), (2, 3, .RIGHT)] := by decide +kernel
    rw [h1] at e
    simp only [Except.bind] at e
    rw [h2] at e
    cases e
    decide +kernel

/-- **C94.** What goes wrong while a sample is processed is lost in the thread: whatever it is, `test_sample` raises an
`IndexError` instead, on all schedules that complete. -/
theorem C94_error_hidden (tuples : List RawTuple) (g : GoldSentence) (hg : GoldSentence.read tuples = .ok g) (e : PyErr)
    (he : c.process (g.tokens, g.sent.tags, g.sent.tree, true) = .error e) (R : Rounding) (k : Int) (hk : 0 < k) :
    (∀ sched, testSample c R k sched tuples = .ok none ∨ testSample c R k sched tuples = .error .index) ∧
    ∀ sched, ∃ sched', testSample c R k (sched ++ sched') tuples = .error .index := by
  obtain ⟨parts, hp, hflat⟩ :=
    C01_divide_list_partition R (sentPacks [g.tokens] [g.sent.tags] [g.sent.tree] true) k hk
  have inv := PoolInv.init c.process parts
  have hout : parts.flatMap (sliceResults c.process) = [] := by
    rw [List.flatMap_eq_nil_iff]
    intro p hpm
    unfold sliceResults
    cases p with
    | nil => rfl
    | cons x xs =>
      have : x ∈ parts.flatten := List.mem_flatten.mpr ⟨_, hpm, by simp⟩
      rw [hflat] at this
      simp only [sentPacks, List.length_singleton, List.replicate_one, List.zip_cons_cons, List.zip_nil_left,
        List.mem_singleton] at this
      subst this
      simp [he, bind, Except.bind]
  have hidx : index ([] : List (List STuple)) 0 = .error .index := rfl
  constructor
  · intro sched
    unfold testSample Logic.processAll runMultithreads
    simp only [hg, hp, bind, Except.bind, pure, Except.pure]
    by_cases hr : ((PoolSt.init parts).run c.process sched).returned
    · right
      simp only [hr, if_true, (inv.run sched).returned_output hr, hout, List.unzip_nil, hidx]
    · left
      simp only [hr, if_false]
  · intro sched
    obtain ⟨sched', hr⟩ := (inv.run sched).progress
    refine ⟨sched', ?_⟩
    have hrun : (PoolSt.init parts).run c.process (sched ++ sched') =
        ((PoolSt.init parts).run c.process sched).run c.process sched' := by
      simp [PoolSt.run, List.foldl_append]
    rw [← hrun] at hr
    unfold testSample Logic.processAll runMultithreads
    simp only [hg, hp, bind, Except.bind, pure, Except.pure, hr, if_true, (inv.run (sched ++ sched')).returned_output hr,
      hout, List.unzip_nil, hidx]

/-- The root of this sample is in no arc, though others are: there is no node for it. -/
def lonelyRoot : List WordTuple :=
  [(c!"Foxes", .NOUN, .SUBJ, 1), (c!"bake", .VERB, .CPL, 2), (c!"formats", .NOUN, .CPL, 1), (c!"!", .PUNCT, .ROOT, -1)]

example : ((GoldSentence.read (names lonelyRoot)).bind fun g =>
      (demoLogic.process (g.tokens, g.sent.tags, g.sent.tree, true)).map fun r => r.2.length) = .error .key ∧
    tested (testSample demoLogic Rounding.exact 1 (oneThread 1) (names lonelyRoot)) = .error .index := by
  decide +kernel

end Props
