import Verif.Lemmas.Provenance
import Verif.Props.Chunking
import Verif.Props.Networks

/-! C99: where the words of tuples come from. -/

namespace Props
open Py Model Spec

variable {W : Type} {nets : Networks W} {c : Logic}

theorem upChain_mem {tokens : List Str} {is : List Nat} {texts : List Str}
    (h : List.Forall₂ (fun (i : Nat) tok => tokens[i]? = some tok) is texts) : ∀ t ∈ texts, t ∈ tokens := by
  induction h with
  | nil => simp
  | cons h1 _ ih =>
    intro t ht
    rcases List.mem_cons.mp ht with rfl | ht
    · exact List.mem_of_getElem? h1
    · exact ih t ht

/-- The nodes of a sentence before normalization. -/
theorem raw_nodes {tokens : List Str} {t : Tree Dep Nat} {h₀ : Heap} {pos : Dict Nat Ref}
    (p5 : ∀ key r, (key, r) ∈ pos → (SimpleNode c.lower tokens t key (h₀.node r) ∨ FlatNode tokens t key (h₀.node r)) ∧
      (h₀.node r).standard = c.lower (h₀.node r).original ∧ Blank (h₀.node r))
    (keep : ∀ r, (h₀.node r).lem = (h₀.node r).standard ∧ (h₀.node r).canon = (h₀.node r).standard ∧
      (h₀.node r).activeVerb = none) : ∀ r, r ∈ pos.values → Raw c tokens (h₀.node r) := by
  intro r hr
  obtain ⟨⟨k, r⟩, hkr, rfl⟩ := List.mem_map.mp hr
  obtain ⟨q1, q2, q3⟩ := p5 k r hkr
  obtain ⟨k1, k2, k3⟩ := keep r
  have q1 : SentText tokens (h₀.node r).original ∧ Particles c tokens (h₀.node r).particles := by
    rcases q1 with q1 | q1
    · obtain ⟨is, toks, -, -, w1, w2⟩ := q1.particles
      refine ⟨⟨[(h₀.node r).original], by simp, ?_, by simp [List.intercalate]⟩, ?_⟩
      · simpa using List.mem_of_getElem? q1.text
      · rw [w2]
        intro p hp
        obtain ⟨x, hx, rfl⟩ := List.mem_map.mp hp
        exact ⟨x, upChain_mem w1 x hx, rfl⟩
    · obtain ⟨up, texts, -, w1, w2⟩ := q1.text
      refine ⟨⟨texts, ?_, upChain_mem w1, by rw [w2, join_eq_intercalate]⟩, ?_⟩
      · rintro rfl
        cases w1
      · rw [q1.plain.1]
        simp [Particles]
  exact ⟨q1.1, q2, k1, k2, q1.2, q3.chunk, k3⟩

/-- **C99.** For every parse of the parser, with and without chunking: every word of every tuple of the sentence is made of
words of this sentence, possibly after "be" in a linking verb. -/
theorem C99_sentence {S : Type} {vectorize : S → Except PyErr (Nat × W)} {sentences : List S}
    {tags : List (List Tag)} {trees : List (Option (Tree Dep Nat))}
    (h : Returned nets vectorize sentences tags trees) (hc : LogicOk c) (i : Nat) (o : Option (Tree Dep Nat))
    (ht : trees[i]? = some o) (tg : List Tag) (hg : tags[i]? = some tg) (tokens : List Str)
    (hl : tokens.length = tg.length) (chunk : Bool) (st : Heap × Dict Nat Ref) (ts : List STuple)
    (hp : c.process (tokens, tg, o, chunk) = .ok (st, ts)) : ∀ t ∈ ts, ∀ a ∈ t.args, DerivedArg c tokens a := by
  cases o with
  | none =>
    rw [Logic.process_none] at hp
    cases hp
    simp
  | some t =>
    obtain ⟨h₀, dict, nt, h₁, h₂, h₃, h₄, h₅, ts', e1, e2, s1, s2, s3, s3', s4, s5, s6, -⟩ :=
      C80_sentence_tuples h hc i t ht tg hg tokens hl chunk
    rw [hp] at e2
    obtain ⟨rfl, rfl⟩ := Prod.mk.inj (Except.ok.inj e2)
    obtain ⟨pos, -, -, p3, -, p5, p6⟩ := C77_node_contents h i t ht tg hg c.lower tokens hl h₀ dict nt e1
    have keep := nodify_keeps (fun n => n.lem = n.standard ∧ n.canon = n.standard ∧ n.activeVerb = none) ⟨rfl, rfl, rfl⟩
      (fun _ _ _ => ⟨rfl, rfl, rfl⟩) (fun _ _ h => h) (fun _ h => h) e1
    have raw := raw_nodes p5 keep
    have src := steps_sourced (chunk := chunk) p3 raw s1 s2 s3 s3' s4 s5
    intro x hx
    obtain ⟨root, hist, hb⟩ : ∃ root hist, buildTree root hist = .ok nt := by
      obtain ⟨arcs, H, h1, h2⟩ := h.idxTree ht hg
      rw [← hl] at H
      obtain ⟨s, nt', dict', e, -, -, -, -, hb, -, -⟩ := nodify_spec (lower := c.lower) H hl.symm h1 h2
      rw [e1] at e
      obtain ⟨rfl, rfl, e⟩ : h₀ = _ ∧ dict = _ ∧ some nt = some nt' := by
        have := Except.ok.inj e
        simp only [Prod.mk.injEq] at this
        exact this
      cases e
      exact ⟨_, _, hb⟩
    refine said_derived (fun r hr => src r (p3 r hr)) ?_ ((s6 x).mp hx)
    intro r y hy
    obtain ⟨d, z, hz | hz⟩ := C56_arguments_in_tree root hist nt hb dict.values h₄ h₅ s5 r y hy
    · obtain ⟨k, k', h1, -, -⟩ := (p6 _ _ _).mp hz
      exact src y (mem_values h1)
    · obtain ⟨k, k', -, h1, -⟩ := (p6 _ _ _).mp hz
      exact src y (mem_values h1)

theorem forall₂_groups {α β : Type} {R : α → β → Prop} : ∀ (gs : List (List α)) (tls : List (List β)),
    List.Forall₂ R gs.flatten tls.flatten → tls.map List.length = gs.map List.length → List.Forall₂ (List.Forall₂ R) gs tls
  | [], [], _, _ => .nil
  | [], _ :: _, _, h => by simp at h
  | _ :: _, [], _, h => by simp at h
  | g :: gs, l :: tls, h1, h2 => by
    simp only [List.map_cons, List.cons.injEq] at h2
    rw [List.flatten_cons, List.flatten_cons] at h1
    have a := List.forall₂_take g.length h1
    have b := List.forall₂_drop g.length h1
    rw [List.take_left' rfl, List.take_left' h2.1] at a
    rw [List.drop_left' rfl, List.drop_left' h2.1] at b
    exact .cons a (forall₂_groups gs tls b h2.2)

/-- What holds of the tuples of every processed sentence holds of the sentences of the documents. -/
theorem documents_hold {vectorize : List Str → Except PyErr (Nat × W)} (ok : PipeOk nets vectorize c)
    (Q : List Str → List STuple → Prop) (chunk : Bool)
    (hQ : ∀ sentences tags trees, Returned nets vectorize sentences tags trees → ∀ (i : Nat) tokens tg o st ts,
      sentences[i]? = some tokens → tags[i]? = some tg → trees[i]? = some o → tokens.length = tg.length →
      c.process (tokens, tg, o, chunk) = .ok (st, ts) → Q tokens ts)
    (sentencizer : Str → Except PyErr (List (List Str))) (texts : List Str) (sents : List (List (List Str)))
    (hs : List.Forall₂ (fun text ss => sentencizer text = .ok ss) texts sents) (cfg : PipelineCfg)
    (hk : 0 < cfg.nbCores) (hb : 0 < cfg.batchSize) (docs : List Document)
    (hd : pipelineCall cfg sentencizer vectorize nets c texts chunk = .ok (some docs)) :
    List.Forall₂ (fun ss d => List.Forall₂ (fun s sent => Q s sent.stuples) (splitTokens ss) d.sentences) sents docs := by
  have hm : texts.mapM sentencizer = .ok sents := mapM_ok_iff_forall₂.mpr hs
  obtain ⟨a1, -⟩ := runMultithreads_of_ok cfg.rounding texts sentencizer sents hm cfg.nbCores hk
  obtain ⟨⟨r, hr, hsp⟩, -⟩ := pipelineRest_spec ok sents chunk cfg hk hb
  rw [pipelineCall_eq] at hd
  rcases a1 cfg.schedSentencize with e | e
  · simp [e, bind, Except.bind, pure, Except.pure] at hd
  simp only [e, bind, Except.bind, hr] at hd
  obtain ⟨tags, trees, results, tls, h1, h2, h3, h4, rfl⟩ := hsp docs (by simpa using hd)
  obtain ⟨al1, al2⟩ := C41_parser_aligned nets vectorize _ tags trees h1
  have al2 := al2.length_eq
  have hle : ∀ s ∈ (sents.map splitTokens).flatten, s.length ≤ 50 := by
    intro s hs
    obtain ⟨ss, k1, k2⟩ := List.mem_flatten.mp hs
    obtain ⟨x, -, rfl⟩ := List.mem_map.mp k1
    exact splitTokens_length k2
  have hlen : (sentPacks (sents.map splitTokens).flatten tags trees chunk).length = (sents.map splitTokens).flatten.length := by
    unfold sentPacks
    simp only [List.length_zip, List.length_replicate]
    omega
  have hres := mapM_forall₂ h2
  have key : List.Forall₂ Q (sents.map splitTokens).flatten tls.flatten := by
    rw [h3, List.forall₂_map_right_iff, List.forall₂_iff_get]
    have hr2 := hres.length_eq
    refine ⟨by omega, fun i hi hi' => ?_⟩
    have hx := (List.forall₂_iff_get.mp hres).2 i (by omega) hi'
    rw [List.get_eq_getElem, List.get_eq_getElem] at *
    have hg : (sentPacks (sents.map splitTokens).flatten tags trees chunk)[i]? =
        some ((sentPacks (sents.map splitTokens).flatten tags trees chunk)[i]'(by omega)) := List.getElem?_eq_getElem _
    generalize (sentPacks (sents.map splitTokens).flatten tags trees chunk)[i]'(by omega) = x at hx hg
    obtain ⟨tokens, tg, o, b⟩ := x
    have hg2 := hg
    unfold sentPacks at hg2
    rw [List.getElem?_zip_eq_some, List.getElem?_zip_eq_some, List.getElem?_zip_eq_some] at hg2
    obtain ⟨k1, k2, k3, k4⟩ := hg2
    simp only at k1 k2 k3 k4
    have kb : b = chunk := (List.mem_replicate.mp (List.mem_of_getElem? k4)).2
    subst kb
    rw [List.getElem?_eq_getElem hi] at k1
    rw [Option.some.inj k1]
    refine hQ _ _ _ h1 i tokens tg o _ _ ?_ k2 k3 ?_ hx
    · rw [List.getElem?_eq_getElem hi, k1]
    · exact Model.Returned.lengths ok hle h1 (by rw [List.getElem?_eq_getElem hi, k1]) k2
  have := forall₂_groups _ _ key (by rw [h4, List.map_map]; rfl)
  rw [List.forall₂_map_left_iff] at this
  rw [List.forall₂_map_right_iff]
  refine this.imp fun ss l hl => ?_
  rw [List.forall₂_map_right_iff]
  exact hl

/-- **C99.** For whole texts, whatever the networks, the configuration and the schedule: the words of the tuples of a
sentence of a document are made of the words of this sentence of this text. -/
theorem C99_documents {vectorize : List Str → Except PyErr (Nat × W)} (ok : PipeOk nets vectorize c)
    (sentencizer : Str → Except PyErr (List (List Str))) (texts : List Str) (sents : List (List (List Str)))
    (hs : List.Forall₂ (fun text ss => sentencizer text = .ok ss) texts sents) (chunk : Bool) (cfg : PipelineCfg)
    (hk : 0 < cfg.nbCores) (hb : 0 < cfg.batchSize) (docs : List Document)
    (hd : pipelineCall cfg sentencizer vectorize nets c texts chunk = .ok (some docs)) :
    List.Forall₂ (fun ss d => List.Forall₂ (fun s sent => ∀ t ∈ sent.stuples, ∀ a ∈ t.args, DerivedArg c s a)
      (splitTokens ss) d.sentences) sents docs :=
  documents_hold ok (fun s ts => ∀ t ∈ ts, ∀ a ∈ t.args, DerivedArg c s a) chunk
    (fun _ _ _ h i tokens tg o st ts _ h2 h3 h4 h5 => C99_sentence h ok.logic i o h3 tg h2 tokens h4 chunk st ts h5)
    sentencizer texts sents hs cfg hk hb docs hd

/-- "Foxes baked formats.": the words of its tuples and where they come from. -/
example : shown (demoPipe (demoCfg 1 (oneThread 9) 9) [c!"Foxes baked formats."]) =
      .ok (some [[[c!"NTN(fox, bake, format)", c!"NCL(format, be, baked)"]]]) ∧
    Derived demoLogic [c!"Foxes", c!"baked", c!"formats", c!"."] c!"fox" ∧
    Derived demoLogic [c!"Foxes", c!"baked", c!"formats", c!"."] c!"baked" := by
  refine ⟨by decide +kernel, ?_, ?_⟩
  · exact .words (ls := [c!"fox"]) (ps := []) (by simp) (by
      simp only [List.mem_singleton, forall_eq]
      exact ⟨c!"Foxes", ⟨[c!"Foxes"], by simp, by simp, by decide⟩, .inr ⟨c!"foxes", .NOUN, some .PLURAL, by decide +kernel, by decide +kernel⟩⟩)
      (by simp [Particles])
  · exact .participle (l := c!"bake") (w := c!"baked") (ps := []) 
      ⟨c!"baked", ⟨[c!"baked"], by simp, by simp, by decide⟩, .inr ⟨c!"baked", .VERB, some .PAST, by decide +kernel, by decide +kernel⟩⟩
      (by decide +kernel) (by simp [Particles])

end Props
