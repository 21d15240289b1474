import Verif.Props.Lines
import Verif.Props.Pipeline
import Verif.Props.Semantics

/-! # Property C110: documents line by line -/

namespace Props
open Py Model

variable {W : Type} {nets : Networks W} {vectorize : List Str → Except PyErr (Nat × W)} {c : Logic}

theorem splitTokens_flatten (rs : List (List (List Str))) : splitTokens rs.flatten = (rs.map splitTokens).flatten := by
  have key : ∀ (l : List (List Str)) (acc : List (List Str)),
      l.foldl (fun acc tokens => acc ++ splitLong tokens) acc = acc ++ l.flatMap splitLong := by
    intro l
    induction l with
    | nil => simp
    | cons a l ih => intro acc; simp [ih]
  have e : ∀ l, splitTokens l = (l.flatMap splitLong).filter fun tokens => decide (tokens.length ≤ maxSentLength) := by
    intro l
    rw [splitTokens, key, List.nil_append]
  induction rs with
  | nil => rfl
  | cons r rs ih => rw [List.flatten_cons, e, List.flatMap_append, List.filter_append, ← e, ← e, ih]; simp

/-- **C110.** With networks that predict rows independently there is for every text a document, which every call of the
pipeline returns for this text, whatever the other texts; the document of a text without quotes and brackets has the
sentences of the documents of its lines, one after the other. -/
theorem C110_documents (ok : PipeOk nets vectorize c) (hr : RowWise nets) (db : CharDB) (chunk : Bool) :
    ∃ docOf : Str → Document,
      (∀ (texts : List Str), (∀ text ∈ texts, ∃ ss, sentencize db (tokenize db) text = .ok ss) → ∀ cfg : PipelineCfg,
        0 < cfg.nbCores → 0 < cfg.batchSize → ∀ docs,
          pipelineCall cfg (sentencize db (tokenize db)) vectorize nets c texts chunk = .ok (some docs) →
          docs = texts.map docOf) ∧
      ∀ text ls, Spec.Lines text ls → (∀ ch ∈ ['"', '(', '༺', '⦅'], ch ∉ text) →
        (docOf text).sentences = ls.flatMap fun l => (docOf l).sentences := by
  obtain ⟨T, hT⟩ := documents ok hr (sentencize db (tokenize db)) chunk
  refine ⟨fun text => ⟨(splitTokens (sentsOf (sentencize db (tokenize db)) text)).map fun s => ⟨T s⟩⟩,
    fun texts hs cfg hk hb docs hd => ?_, fun text ls hl h => ?_⟩
  · obtain ⟨parts, -, h2, -, h4⟩ := hT texts cfg hk hb
    rw [h4 docs hd]
    have : (parts.filter fun p => p.all fun t => (sentencize db (tokenize db) t).toOption.isSome) = parts := by
      rw [List.filter_eq_self]
      intro p hp
      refine all_ok.mpr fun t ht => hs t ?_
      rw [← h2]
      exact List.mem_flatten.mpr ⟨p, hp, ht⟩
    rw [this, h2]
  · obtain ⟨rs, h1, h2⟩ := C84_line_by_line_partial db text ls hl h
    have e : sentsOf (sentencize db (tokenize db)) text = rs.flatten := by simp [sentsOf, h2]
    have e' : rs = ls.map (sentsOf (sentencize db (tokenize db))) := by
      clear hl h2 e
      induction h1 with
      | nil => rfl
      | cons h _ ih => simp [← ih, sentsOf, h]
    simp only [e, splitTokens_flatten, e', List.map_map, List.flatMap_def, List.map_flatten]
    rfl

/-- **C110.** In particular a text without quotes and brackets, processed with others, has the sentences and the tuples that
its lines have when they are the texts of another call. -/
theorem C110_two_calls (ok : PipeOk nets vectorize c) (hr : RowWise nets) (db : CharDB) (chunk : Bool) (texts ls : List Str)
    (text : Str) (i : Nat) (hi : texts[i]? = some text) (hl : Spec.Lines text ls)
    (hs : ∀ t ∈ texts, ∃ ss, sentencize db (tokenize db) t = .ok ss) (h : ∀ ch ∈ ['"', '(', '༺', '⦅'], ch ∉ text)
    (cfg cfg' : PipelineCfg) (hk : 0 < cfg.nbCores) (hb : 0 < cfg.batchSize) (hk' : 0 < cfg'.nbCores)
    (hb' : 0 < cfg'.batchSize) (docs docs' : List Document)
    (hd : pipelineCall cfg (sentencize db (tokenize db)) vectorize nets c texts chunk = .ok (some docs))
    (hd' : pipelineCall cfg' (sentencize db (tokenize db)) vectorize nets c ls chunk = .ok (some docs')) :
    ∃ d, docs[i]? = some d ∧ d.sentences = docs'.flatMap (·.sentences) ∧ d.stuples = docs'.flatMap Document.stuples := by
  obtain ⟨docOf, h1, h2⟩ := C110_documents ok hr db chunk
  have hls : ∀ l ∈ ls, ∃ ss, sentencize db (tokenize db) l = .ok ss := by
    intro l hm
    obtain ⟨rs, h3, -⟩ := C84_line_by_line_partial db text ls hl h
    obtain ⟨j, hj, rfl⟩ := List.getElem_of_mem hm
    exact ⟨_, h3.get hj (h3.length_eq ▸ hj)⟩
  have e := h1 texts hs cfg hk hb docs hd
  have e' := h1 ls hls cfg' hk' hb' docs' hd'
  have hsent : (docOf text).sentences = docs'.flatMap (·.sentences) := by
    rw [h2 text ls hl h, e', List.flatMap_map]
  refine ⟨docOf text, by rw [e, List.getElem?_map, hi]; rfl, hsent, ?_⟩
  rw [C61_document_concat, hsent, ← List.flatMap_def, List.flatMap_assoc]
  exact List.flatMap_congr fun d _ => by rw [C61_document_concat, List.flatMap_def]

/-- A text of two lines, the second of which has two sentences, and its lines as the texts of another call. -/
def twoLines : Str := c!"Foxes baked formats\n  They format foxes! Foxes baked formats."

theorem twoLines_lines : Spec.Lines twoLines [c!"Foxes baked formats", c!"They format foxes! Foxes baked formats."] :=
  .cut c!"Foxes baked formats" c!"\n  " c!"They format foxes! Foxes baked formats." _ (by decide) (by decide) (by decide)
    (by decide) (by decide) (.last _ (by decide))

example : shown (demoPipe (demoCfg 1 (oneThread 9) 9) [c!"Foxes", twoLines]) =
    .ok (some [[[]], [[c!"NTN(fox, bake, format)", c!"NCL(format, be, baked)"],
      [c!"NTN(they, format, fox)", c!"NCL(fox, be, formated)"],
      [c!"NTN(fox, bake, format)", c!"NCL(format, be, baked)"]]]) := by decide +kernel

example (docs docs' : List Document) (hd : demoPipe (demoCfg 1 (oneThread 9) 9) [c!"Foxes", twoLines] = .ok (some docs))
    (hd' : demoPipe (demoCfg 2 (oneThread 3) 3) [c!"Foxes baked formats", c!"They format foxes! Foxes baked formats."] =
      .ok (some docs')) : ∃ d, docs[1]? = some d ∧ d.stuples = docs'.flatMap Document.stuples := by
  obtain ⟨d, h1, -, h2⟩ := C110_two_calls demoPipe_ok clauseNets_rowWise asciiDB true [c!"Foxes", twoLines] _ twoLines 1 rfl
    twoLines_lines (fun t ht => C71_no_blocks_partial asciiDB t fun c hc => by
      rcases List.mem_cons.mp ht with rfl | ht
      · revert c; decide
      · obtain rfl := List.mem_singleton.mp ht
        revert c; decide) (by decide) _ _ (by decide) (by decide) (by decide) (by decide) docs docs' hd hd'
  exact ⟨d, h1, h2⟩

end Props
