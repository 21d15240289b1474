import Verif.Lemmas.Chunking
import Verif.Props.SameTuples

/-! C98: what chunking compound nouns changes in the tuples. -/

namespace Props
open Py Model Spec

variable {W : Type} {nets : Networks W} {c : Logic}

/-- No common noun with compounds has one of the words looked at by argument finding as its lemma. -/
def PlainHeads (c : Logic) (tokens : List Str) (tags : List Tag) (tree : Option (Tree Dep Nat)) : Prop :=
  ∀ h dict ts, c.process (tokens, tags, tree, true) = .ok ((h, dict), ts) → ∀ r ∈ dict.values,
    (h.node r).tag = .NOUN → (h.node r).chunk ≠ none → (h.node r).lem ∉ referringWords

/-- **C98** (partial: full statement, without `PlainHeads`, refuted by `C98_reflexive_false`). *Chunking compound nouns only
replaces nouns by their compounds.* For every parse of the parser, processing with and without chunking raises nothing and
makes the same nodes. If the heads of compounds are plain words, it gives the same tuples in the same order, argument by
argument the same codes and polarities, and the same words, except that the lemma of a common noun may be replaced by its
chunk, which ends with this lemma; all fields of nodes but the chunk and the canonical form are the same. -/
theorem C98_sentence_partial {S : Type} {vectorize : S → Except PyErr (Nat × W)} {sentences : List S}
    {tags : List (List Tag)} {trees : List (Option (Tree Dep Nat))}
    (h : Returned nets vectorize sentences tags trees) (hc : LogicOk c) (i : Nat) (o : Option (Tree Dep Nat))
    (ht : trees[i]? = some o) (tg : List Tag) (hg : tags[i]? = some tg) (tokens : List Str)
    (hl : tokens.length = tg.length) :
    ∃ h h' dict ts ts', c.process (tokens, tg, o, false) = .ok ((h, dict), ts) ∧
      c.process (tokens, tg, o, true) = .ok ((h', dict), ts') ∧
      (PlainHeads c tokens tg o → SameTuples (CompoundOf h' dict.values) ts ts' ∧
        ∀ r, ∃ ch cn, h'.node r = { h.node r with chunk := ch, canon := cn }) := by
  cases o with
  | none => exact ⟨_, _, _, _, _, rfl, rfl, fun _ => ⟨.nil, fun r => ⟨_, _, rfl⟩⟩⟩
  | some t =>
    obtain ⟨arcs, H, h1, h2⟩ := h.idxTree ht hg
    rw [← hl] at H
    obtain ⟨s, nt, dict, e, -, -, -, -, hb, -, -⟩ := nodify_spec (lower := c.lower) H hl.symm h1 h2
    obtain ⟨-, hnd, -⟩ := C53_node_indexes h i t ht tg hg c.lower tokens hl _ _ _ e
    obtain ⟨h, h', ts, ts', g1, g2, g3⟩ := Logic.process_two hc e hb hnd
    exact ⟨h, h', dict, ts, ts', g1, g2, fun hp => g3 (hp _ _ _ g2)⟩

/-- `w'` ends with the word `w`, after other words. -/
def EndsWithWord (w w' : Str) : Prop := ∃ p, w' = p ++ c!" " ++ w

theorem endsWith_of_compound {h : Heap} {nodes : List Ref} {w w' : Str} (H : CompoundOf h nodes w w') : EndsWithWord w w' := by
  obtain ⟨r, -, -, -, -, before, h1, -, -, h4⟩ := H
  obtain ⟨l, x, rfl⟩ : ∃ l x, before = l ++ [x] := ⟨_, _, (List.dropLast_append_getLast h1).symm⟩
  refine ⟨l.flatMap (fun x => (h.node x).lem ++ c!" ") ++ (h.node x).lem, ?_⟩
  rw [h4]
  simp

/-- **C98** (partial, see `C98_sentence_partial`). For whole texts: with networks that predict rows on their own, the
documents made with and without chunking, in whatever configurations, have the same sentences with the same tuples up to
compounds of nouns, provided the heads of compounds are plain words in every sentence of the texts. -/
theorem C98_documents_partial {vectorize : List Str → Except PyErr (Nat × W)} (ok : PipeOk nets vectorize c) (hr : RowWise nets)
    (sentencizer : Str → Except PyErr (List (List Str))) (texts : List Str) (sents : List (List (List Str)))
    (hs : List.Forall₂ (fun text ss => sentencizer text = .ok ss) texts sents)
    (hplain : ∀ ss ∈ sents, ∀ s ∈ splitTokens ss, ∀ tg o, Returned nets vectorize [s] [tg] [o] → PlainHeads c s tg o)
    (cfg cfg' : PipelineCfg) (hk : 0 < cfg.nbCores) (hb : 0 < cfg.batchSize) (hk' : 0 < cfg'.nbCores)
    (hb' : 0 < cfg'.batchSize) (docs docs' : List Document)
    (hd : pipelineCall cfg sentencizer vectorize nets c texts false = .ok (some docs))
    (hd' : pipelineCall cfg' sentencizer vectorize nets c texts true = .ok (some docs')) :
    List.Forall₂ (fun d d' => List.Forall₂ (fun s s' => SameTuples EndsWithWord s.stuples s'.stuples)
      d.sentences d'.sentences) docs docs' := by
  obtain ⟨P, hP⟩ := rowWise_parse (S := List Str) (vectorize := vectorize) ok.nets hr
  have hall : ∀ text ∈ texts, ∃ ss, sentencizer text = .ok ss := by
    intro text ht
    obtain ⟨i, hi⟩ := List.mem_iff_getElem?.mp ht
    obtain ⟨hi', rfl⟩ := List.getElem?_eq_some_iff.mp hi
    have hlen := hs.length_eq
    exact ⟨_, (List.forall₂_iff_get.mp hs).2 i hi' (by omega)⟩
  have key : ∀ chunk (cfg : PipelineCfg), 0 < cfg.nbCores → 0 < cfg.batchSize → ∀ docs,
      pipelineCall cfg sentencizer vectorize nets c texts chunk = .ok (some docs) →
      docs = texts.map fun text => ⟨(splitTokens (sentsOf sentencizer text)).map fun s => ⟨tuplesOf c chunk s (P s)⟩⟩ := by
    intro chunk cfg hk hb docs hd
    obtain ⟨parts, -, h2, -, h4⟩ := documents_of ok hP sentencizer chunk texts cfg hk hb
    rw [h4 docs hd]
    have : (parts.filter fun p => p.all fun t => (sentencizer t).toOption.isSome) = parts := by
      rw [List.filter_eq_self]
      intro p hp
      rw [all_ok]
      intro t ht
      exact hall t (h2 ▸ List.mem_flatten.mpr ⟨p, hp, ht⟩)
    rw [this, h2]
  rw [key false cfg hk hb docs hd, key true cfg' hk' hb' docs' hd', List.forall₂_map_left_iff, List.forall₂_map_right_iff,
    List.forall₂_same]
  intro text ht
  rw [List.forall₂_map_left_iff, List.forall₂_map_right_iff, List.forall₂_same]
  intro s hsm
  have hss : sentsOf sentencizer text ∈ sents := by
    obtain ⟨i, hi⟩ := List.mem_iff_getElem?.mp ht
    obtain ⟨hi', rfl⟩ := List.getElem?_eq_some_iff.mp hi
    have hlen := hs.length_eq
    have := (List.forall₂_iff_get.mp hs).2 i hi' (by omega)
    rw [List.get_eq_getElem] at this
    unfold sentsOf
    rw [this]
    exact List.getElem_mem _
  -- the parse of the sentence alone
  obtain ⟨w, hw⟩ := ok.vec s (splitTokens_length hsm)
  have hv : ∀ s' ∈ [s], ∃ n w, n ≤ maxSentLength ∧ vectorize s' = .ok (n + 2, w) := by
    intro s' h
    rw [List.mem_singleton.mp h]
    exact ⟨_, w, splitTokens_length hsm, hw⟩
  obtain ⟨-, hterm⟩ := C41_parser_terminates nets ok.nets vectorize [s] hv Rounding.exact 1 (by decide) 1 (by decide)
  obtain ⟨s₁, s₂, ⟨tags', trees'⟩, hcall⟩ := hterm [] [] 100 (by decide)
  have hret : Returned nets vectorize [s] tags' trees' := ⟨ok.nets, hv, ⟨_, Int.one_pos, Int.one_pos, hcall⟩⟩
  obtain ⟨k1, k2⟩ := hP _ _ _ hret
  rw [List.map_singleton] at k1 k2
  subst k1 k2
  obtain ⟨h, h', dict, ts, ts', g1, g2, g3⟩ := C98_sentence_partial (i := 0) hret ok.logic _ rfl _ rfl s
    (Returned.lengths ok (ss := [s]) (fun x hx => by rw [List.mem_singleton.mp hx]; exact splitTokens_length hsm) hret (i := 0) rfl rfl)
  have g3 := (g3 (hplain _ hss s hsm _ _ hret)).1
  have e1 : tuplesOf c false s (P s) = ts := by unfold tuplesOf; rw [g1]
  have e2 : tuplesOf c true s (P s) = ts' := by unfold tuplesOf; rw [g2]
  simp only [e1, e2]
  refine g3.imp fun t t' ht => ht.imp ?_
  rintro a a' ⟨q1, q2, q3⟩
  exact ⟨q1, q2, q3.imp_right fun q => ⟨q.1, endsWith_of_compound q.2⟩⟩

/-- The tuples of a sentence with the given arcs, with or without chunking. -/
def chunkTuples (chunk : Bool) (tokens : List Str) (tags : List Tag) (root : Nat) (arcs : List (Dep × Nat × Nat)) :
    Except PyErr (List Str) := do
  let t ← buildTree root arcs
  let r ← demoLogic.process (tokens, tags, some t, chunk)
  return r.2.map fun x => x.flatten true

/-- "Cat foxes baked fox formats": subject and object get their compounds. -/
example : chunkTuples false [c!"Cat", c!"foxes", c!"baked", c!"fox", c!"formats"] [.NOUN, .NOUN, .VERB, .NOUN, .NOUN] 2
      [(.CPL, 1, 0), (.SUBJ, 2, 1), (.CPL, 4, 3), (.OBJ, 2, 4)] =
    .ok [c!"NTN(fox, bake, format)", c!"NCL(format, be, baked)"] ∧
  chunkTuples true [c!"Cat", c!"foxes", c!"baked", c!"fox", c!"formats"] [.NOUN, .NOUN, .VERB, .NOUN, .NOUN] 2
      [(.CPL, 1, 0), (.SUBJ, 2, 1), (.CPL, 4, 3), (.OBJ, 2, 4)] =
    .ok [c!"NTN(cat fox, bake, fox format)", c!"NCL(fox format, be, baked)"] := by
  constructor <;> decide +kernel

/-- **C98** (negation). "Foxes baked cat themselves", "themselves" tagged as a common noun: without chunking the object is
the subject, with chunking it is the compound "cat themselves". -/
theorem C98_reflexive_false : ∃ (tokens : List Str) (tags : List Tag) (root : Nat) (arcs : List (Dep × Nat × Nat)),
    chunkTuples false tokens tags root arcs = .ok [c!"NTN(fox, bake, fox)", c!"NCL(fox, be, baked)"] ∧
    chunkTuples true tokens tags root arcs = 
      .ok [c!"NTN(fox, bake, cat themselves)", c!"NCL(cat themselves, be, baked)"] :=
  ⟨[c!"Foxes", c!"baked", c!"cat", c!"themselves"], [.NOUN, .VERB, .NOUN, .NOUN], 1,
    [(.SUBJ, 1, 0), (.OBJ, 1, 3), (.CPL, 3, 2)], by decide +kernel, by decide +kernel⟩

end Props
