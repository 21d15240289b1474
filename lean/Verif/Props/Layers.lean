import Verif.Lemmas.Layers
import Verif.Props.Samples

/-! C102: what the networks are given fits them, and every score belongs to its sentence. -/

namespace Props
open Py Model Spec

variable {F : Type} [LinearOrder F] {W H S : Type}

/-- The shapes of the layers: 52 rows of 17 and 25 scores, 52 states, 4 scores. -/
structure LayerShapes (L : Layers F W H) : Prop where
  tags : ∀ w, (L.tagScores w).length = 52 ∧ ∀ v ∈ L.tagScores w, v.length = 17
  deps : ∀ t w, (L.depScores t w).length = 52 ∧ ∀ v ∈ L.depScores t w, v.length = 25
  states : ∀ t d w, (L.states t d w).length = 52
  scores : ∀ a b, (L.scores a b).length = 4

/-- The first marked state. -/
def firstMarked (seq : List H) (mask : List Bool) : Option H := ((seq.zip mask).find? Prod.snd).map Prod.fst

/-- The transition predicted for a single parse from the two marked states. -/
def rowTrans (L : Layers F W H) (r : (List Nat × List Nat × W) × List Bool × List Bool) : Trans :=
  let seq := L.states r.1.1 r.1.2.1 r.1.2.2
  match firstMarked seq r.2.1, firstMarked seq r.2.2 with
  | some a, some b => transOf (best (L.scores a b))
  | _, _ => .SHIFT

/-- The networks sentence by sentence. -/
def rowNets (L : Layers F W H) : Networks W where
  tags ws := ws.map fun w => (L.tagScores w).map best
  deps ts ws := List.zipWith (fun t w => (L.depScores t w).map best) ts ws
  trans rows := rows.map (rowTrans L)

theorem ne_nil_of_length {v : List F} {n : Nat} (hv : v.length = n + 1) : v ≠ [] := by
  rintro rfl
  simp at hv

theorem rowNets_ok {L : Layers F W H} (hL : LayerShapes L) : NetsOk (rowNets L) := by
  refine ⟨by simp [rowNets], ?_, ?_, ?_, by intro rows; simp [rowNets]⟩
  · intro ws r hr
    obtain ⟨w, -, rfl⟩ := List.mem_map.mp hr
    obtain ⟨h1, h2⟩ := hL.tags w
    refine ⟨by rw [List.length_map]; exact h1, ?_⟩
    intro c hc
    obtain ⟨v, hv, rfl⟩ := List.mem_map.mp hc
    have := best_lt (ne_nil_of_length (h2 v hv))
    rw [h2 v hv] at this
    exact this
  · intro ts ws hl
    simp [rowNets, hl]
  · intro ts ws r hr
    obtain ⟨t, w, -, -, rfl⟩ : ∃ t w, t ∈ ts ∧ w ∈ ws ∧ r = (L.depScores t w).map best := by
      simp only [rowNets] at hr
      rw [← List.map_uncurry_zip_eq_zipWith] at hr
      obtain ⟨⟨t, w⟩, h, rfl⟩ := List.mem_map.mp hr
      exact ⟨t, w, (List.of_mem_zip h).1, (List.of_mem_zip h).2, rfl⟩
    obtain ⟨h1, h2⟩ := hL.deps t w
    refine ⟨by rw [List.length_map]; exact h1, ?_⟩
    intro c hc
    obtain ⟨v, hv, rfl⟩ := List.mem_map.mp hc
    have := best_lt (ne_nil_of_length (h2 v hv))
    rw [h2 v hv] at this
    exact this

theorem rowNets_rowWise (L : Layers F W H) : RowWise (rowNets L) :=
  ⟨⟨_, fun _ => rfl⟩, ⟨_, fun _ _ => rfl⟩, ⟨_, fun _ => rfl⟩⟩

theorem firstMarked_of {seq : List H} {mask : List Bool} {a : H}
    (h : ((seq.zip mask).filter Prod.snd).map Prod.fst = [a]) : firstMarked seq mask = some a := by
  unfold firstMarked
  rw [← List.head?_filter, ← List.head?_map, h]
  rfl

/-- The scores of a single parse. -/
def rowScores (L : Layers F W H) (r : (List Nat × List Nat × W) × List Bool × List Bool) : List F :=
  let seq := L.states r.1.1 r.1.2.1 r.1.2.2
  match firstMarked seq r.2.1, firstMarked seq r.2.2 with
  | some a, some b => L.scores a b
  | _, _ => []

theorem transStep_scores (L : Layers F W H) (hL : LayerShapes L)
    (rows : List ((List Nat × List Nat × W) × List Bool × List Bool))
    (h : ∀ r ∈ rows, L.rowFits r = true ∧ OneMark r.2.1 ∧ OneMark r.2.2) :
    L.transStep rows = .ok (rows.map (rowScores L)) ∧
      ∀ r ∈ rows, ∃ a b, firstMarked (L.states r.1.1 r.1.2.1 r.1.2.2) r.2.1 = some a ∧
        firstMarked (L.states r.1.1 r.1.2.1 r.1.2.2) r.2.2 = some b ∧ rowScores L r = L.scores a b := by
  have one : ∀ r ∈ rows, ∃ a b,
      (((L.states r.1.1 r.1.2.1 r.1.2.2).zip r.2.1).filter Prod.snd).map Prod.fst = [a] ∧
      (((L.states r.1.1 r.1.2.1 r.1.2.2).zip r.2.2).filter Prod.snd).map Prod.fst = [b] := by
    intro r hr
    obtain ⟨-, h1, h2⟩ := h r hr
    obtain ⟨a, ha⟩ := h1.marked (hL.states r.1.1 r.1.2.1 r.1.2.2)
    obtain ⟨b, hb⟩ := h2.marked (hL.states r.1.1 r.1.2.1 r.1.2.2)
    exact ⟨a, b, ha, hb⟩
  constructor
  · have key : ∀ rows : List ((List Nat × List Nat × W) × List Bool × List Bool), (∀ r ∈ rows, ∃ a b,
        (((L.states r.1.1 r.1.2.1 r.1.2.2).zip r.2.1).filter Prod.snd).map Prod.fst = [a] ∧
        (((L.states r.1.1 r.1.2.1 r.1.2.2).zip r.2.2).filter Prod.snd).map Prod.fst = [b]) →
        (booleanMask (rows.map fun r => L.states r.1.1 r.1.2.1 r.1.2.2) (rows.map fun r => r.2.1)).length =
          (booleanMask (rows.map fun r => L.states r.1.1 r.1.2.1 r.1.2.2) (rows.map fun r => r.2.2)).length ∧
        List.zipWith L.scores (booleanMask (rows.map fun r => L.states r.1.1 r.1.2.1 r.1.2.2) (rows.map fun r => r.2.1))
          (booleanMask (rows.map fun r => L.states r.1.1 r.1.2.1 r.1.2.2) (rows.map fun r => r.2.2)) =
          rows.map (rowScores L) := by
      intro rows
      induction rows with
      | nil => intro _; exact ⟨rfl, rfl⟩
      | cons r rows ih =>
        intro h
        obtain ⟨i1, i2⟩ := ih fun r' hr' => h r' (by simp [hr'])
        obtain ⟨a, b, ha, hb⟩ := h r (by simp)
        unfold booleanMask at i1 i2 ⊢
        simp only [List.map_cons, List.zipWith_cons_cons, List.flatten_cons, ha, hb, List.singleton_append,
          List.length_cons, i1, i2, true_and, List.cons.injEq, and_true]
        unfold rowScores
        simp only [firstMarked_of ha, firstMarked_of hb]
    obtain ⟨k1, k2⟩ := key rows one
    unfold Layers.transStep
    rw [if_pos (by rw [List.all_eq_true]; exact fun r hr => (h r hr).1)]
    simp only
    rw [if_pos k1, k2]
  · intro r hr
    obtain ⟨a, b, ha, hb⟩ := one r hr
    refine ⟨a, b, firstMarked_of ha, firstMarked_of hb, ?_⟩
    unfold rowScores
    simp only [firstMarked_of ha, firstMarked_of hb]

/-- **C102.** On parses with one mark in each mask, the scores of the batch are those of its parses, one by one. -/
theorem C102_scores (L : Layers F W H) (hL : LayerShapes L)
    (rows : List ((List Nat × List Nat × W) × List Bool × List Bool)) (hne : rows ≠ [])
    (h : ∀ r ∈ rows, L.rowFits r = true ∧ OneMark r.2.1 ∧ OneMark r.2.2) :
    L.transScores rows = .ok (rows.map (rowScores L)) ∧
      ∀ r ∈ rows, ∃ a b, firstMarked (L.states r.1.1 r.1.2.1 r.1.2.2) r.2.1 = some a ∧
        firstMarked (L.states r.1.1 r.1.2.1 r.1.2.2) r.2.2 = some b ∧ rowScores L r = L.scores a b := by
  refine ⟨?_, (transStep_scores L hL rows h).2⟩
  obtain ⟨bs, h1, h2, -⟩ := C03_make_batches rows 32 (by decide)
  unfold Layers.transScores
  rw [if_neg hne]
  have h1' : makeBatches rows 32 = .ok bs := h1
  have h3 : bs.mapM L.transStep = .ok (bs.map fun b => b.map (rowScores L)) := by
    refine mapM_ok_of fun b hb => (transStep_scores L hL b fun r hr => h r ?_).1
    rw [← h2]
    exact List.mem_flatten.mpr ⟨b, hb, hr⟩
  simp only [h1', bind, Except.bind, h3, pure, Except.pure, Except.ok.injEq]
  rw [← List.map_flatten, h2]

theorem ofCode_transOf {n : Nat} (h : n < 4) : Trans.ofCode n = .ok (transOf n) := by
  match n, h with
  | 0, _ => rfl
  | 1, _ => rfl
  | 2, _ => rfl
  | 3, _ => rfl

theorem agree {L : Layers F W H} (hL : LayerShapes L) : Agree L.fits L.predictors (rowNets L) where
  tags := by
    intro ws hne hw
    show L.predictTags ws = _
    unfold Layers.predictTags
    rw [if_pos ⟨hne, by rw [List.all_eq_true]; exact hw⟩, predictSeqs_eq]
    · simp [rowNets]
    · intro r hr v hv
      obtain ⟨w, -, rfl⟩ := List.mem_map.mp hr
      exact ne_nil_of_length ((hL.tags w).2 v hv)
  deps := by
    intro ts ws hne hl ht hw
    show L.predictDeps ts ws = _
    unfold Layers.predictDeps
    rw [if_pos (by
      simp only [List.all_eq_true]
      exact ⟨hne, hl, ht, hw⟩), predictSeqs_eq]
    · simp [rowNets, List.map_zipWith]
    · intro r hr v hv
      rw [← List.map_uncurry_zip_eq_zipWith] at hr
      obtain ⟨⟨t, w⟩, -, rfl⟩ := List.mem_map.mp hr
      exact ne_nil_of_length ((hL.deps t w).2 v hv)
  trans := by
    intro rows hne hr
    obtain ⟨h1, h2⟩ := C102_scores L hL rows hne fun r h => by
      obtain ⟨⟨a, b, c⟩, d, e⟩ := hr r h
      refine ⟨?_, d, e⟩
      unfold Layers.rowFits
      simp [a, b, c, d.length, e.length]
    show L.predictTrans rows = _
    unfold Layers.predictTrans
    rw [h1]
    have h3 : ∀ r ∈ rows, (rowScores L r).length = 4 := by
      intro r h
      obtain ⟨a, b, -, -, e⟩ := h2 r h
      rw [e]
      exact hL.scores a b
    have h4 : predictCodes (rows.map (rowScores L)) = .ok ((rows.map (rowScores L)).map best) := by
      refine mapM_ok_of fun v hv => argmax_eq_best ?_
      obtain ⟨r, h, rfl⟩ := List.mem_map.mp hv
      exact ne_nil_of_length (h3 r h)
    simp only [bind, Except.bind, h4]
    have h5 : ((rows.map (rowScores L)).map best).mapM Trans.ofCode = .ok (((rows.map (rowScores L)).map best).map transOf) := by
      refine mapM_ok_of fun n hn => ofCode_transOf ?_
      obtain ⟨v, hv, rfl⟩ := List.mem_map.mp hn
      obtain ⟨r, h, rfl⟩ := List.mem_map.mp hv
      have := best_lt (ne_nil_of_length (h3 r h))
      rwa [h3 r h] at this
    rw [h5]
    simp only [rowNets, List.map_map, Except.ok.injEq]
    refine List.map_congr_left fun r h => ?_
    obtain ⟨a, b, ea, eb, e⟩ := h2 r h
    simp only [Function.comp_apply, e, rowTrans, ea, eb]

/-- **C102.** The parser with the real `predict` methods, which refuse empty batches, codes outside their embeddings, rows
of other lengths and unequal numbers of marked states, never meets a refusal: it does, for all sentences, batch sizes, numbers of
threads and schedules, what it does with networks that treat every sentence on its own. So the assumptions on networks
made elsewhere (`NetsOk`, `RowWise`) hold of them. -/
theorem C102_parser (L : Layers F W H) (hL : LayerShapes L) (vectorize : S → Except PyErr (Nat × W))
    (hv : ∀ s n w, vectorize s = .ok (n, w) → L.fits w = true) :
    NetsOk (rowNets L) ∧ RowWise (rowNets L) ∧ ∀ (cfg : ParserCfg) (sentences : List S),
      Raising.parserCall cfg vectorize L.predictors sentences = parserCall cfg vectorize (rowNets L) sentences :=
  ⟨rowNets_ok hL, rowNets_rowWise L, fun cfg sentences => parserCall_raising (agree hL) (rowNets_ok hL) vectorize hv cfg sentences⟩

/-- What the input layers accept of a sentence: 52 words of 22 character codes and 52 vectors of a given size. -/
def sentenceFits {α : Type} (charsetSize vectorSize : Nat) (w : List (List Nat) × List (List α)) : Bool :=
  w.1.length = 52 && w.1.all (fun r => r.length = 22 && r.all (· < charsetSize)) && w.2.length = 52 &&
    w.2.all (fun r => r.length = vectorSize)

/-- **C102.** The vectors of every sentence fit, with the loaded character set and word vectors of one size. -/
theorem C102_vectors {α : Type} [Zero α] (chars : List Char) (hperm : chars.Perm charsetChars) (cs : Charset)
    (hload : Charset.load (Charset.codes chars) = .ok cs) (vec : Str → List α) (D : Nat) (hv : ∀ w, (vec w).length = D)
    (tokens : List Str) (n : Nat) (w : List (List Nat) × List (List α))
    (h : vectorizeSentence cs.get vec tokens = .ok (n, w)) : sentenceFits cs.len D w = true := by
  have hn : tokens.length ≤ 50 := by
    by_contra hc
    rw [((C49_too_long cs.get vec D hv tokens) .sentenceTooLong).mpr ⟨by omega, rfl⟩] at h
    cases h
  obtain ⟨ch, vs, e, h1, h2, h3, h4, h5, h6⟩ := C49_vectors cs.get vec D hv tokens hn
  rw [e] at h
  cases h
  obtain ⟨cs', e', hlt, -⟩ := C50_codes chars hperm
  rw [hload] at e'
  cases e'
  have hpos : 0 < cs.len := Nat.lt_of_le_of_lt (Nat.zero_le _) (hlt 'a')
  have hrow : ∀ r ∈ ch, ∀ x ∈ r, x < cs.len := by
    intro r hr x hx
    obtain ⟨i, hi⟩ := List.mem_iff_getElem?.mp hr
    have hi52 : i < 52 := by rw [← h1]; exact (List.getElem?_eq_some_iff.mp hi).1
    by_cases hin : i < tokens.length + 2
    · obtain ⟨t, ht⟩ : ∃ t, (sentRows tokens)[i]? = some t :=
        ⟨_, List.getElem?_eq_getElem (by simp [sentRows]; omega)⟩
      have := (h5 i t ht).1
      rw [hi] at this
      cases this
      unfold wordRow padTo at hx
      rcases List.mem_append.mp hx with hx | hx
      · obtain ⟨c, -, rfl⟩ := List.mem_map.mp hx
        exact hlt c
      · rw [List.eq_of_mem_replicate hx]
        exact hpos
    · have := (h6 i (by omega) hi52).1
      rw [hi] at this
      cases this
      rw [List.eq_of_mem_replicate hx]
      exact hpos
  unfold sentenceFits
  simp only [Bool.and_eq_true, decide_eq_true_eq, List.all_eq_true]
  exact ⟨⟨⟨h1, fun r hr => ⟨h2 r hr, hrow r hr⟩⟩, h3⟩, h4⟩

/-- **C102.** So for networks with these input layers, the loaded character set and vectors, the parser never fails but
for what it would fail with networks that treat every sentence on its own. -/
theorem C102_loaded {α : Type} [Zero α] (chars : List Char) (hperm : chars.Perm charsetChars) (cs : Charset)
    (hload : Charset.load (Charset.codes chars) = .ok cs) (vec : Str → List α) (D : Nat) (hv : ∀ w, (vec w).length = D)
    (L : Layers F (List (List Nat) × List (List α)) H) (hL : LayerShapes L) (hf : L.fits = sentenceFits cs.len D)
    (cfg : ParserCfg) (sentences : List (List Str)) :
    Raising.parserCall cfg (vectorizeSentence cs.get vec) L.predictors sentences =
      parserCall cfg (vectorizeSentence cs.get vec) (rowNets L) sentences :=
  (C102_parser L hL (vectorizeSentence cs.get vec) fun tokens n w h => by
    rw [hf]
    exact C102_vectors chars hperm cs hload vec D hv tokens n w h).2.2 cfg sentences

/-- Layers that look at the marked rows. -/
def demoLayers : Layers Nat Nat Nat where
  fits w := w < 10
  tagScores _ := List.replicate 52 (List.replicate 17 0)
  depScores _ _ := List.replicate 52 (List.replicate 25 0)
  states t d w := (List.range 52).map fun i => w * 100 + i + 0 * (t.length + d.length)
  scores a b := [a, b, 0, 150]

theorem demoLayers_shapes : LayerShapes demoLayers where
  tags := by simp [demoLayers]
  deps := by simp [demoLayers]
  states := by simp [demoLayers]
  scores := by simp [demoLayers]

/-- A row of the transition network. -/
def demoRow (w : Nat) (marks marks' : List Nat) : (List Nat × List Nat × Nat) × List Bool × List Bool :=
  ((List.replicate 52 3, List.replicate 52 4, w), (List.range 52).map (fun i => decide (i ∈ marks)),
    (List.range 52).map fun i => decide (i ∈ marks'))

/-- Two parses; each gets the scores of its own marked states. -/
example : demoLayers.transScores [demoRow 0 [1] [2], demoRow 3 [4] [5]] = .ok [[1, 2, 0, 150], [304, 305, 0, 150]] ∧
    demoLayers.predictTrans [demoRow 0 [1] [2], demoRow 3 [4] [5]] = .ok [.SHIFT, .RIGHT] := by decide +kernel

/-- Why one mark matters: with two marks in a mask of one parse and none in that of the next, states of different sentences
are paired and nothing is raised; with other numbers of marks the network refuses the batch. -/
example : demoLayers.transScores [demoRow 0 [1, 7] [2], demoRow 3 [] [5]] = .ok [[1, 2, 0, 150], [7, 305, 0, 150]] ∧
    demoLayers.transScores [demoRow 0 [1, 7] [2], demoRow 3 [4] [5]] = .error .value ∧
    demoLayers.transScores [demoRow 12 [1] [2]] = .error .value ∧ demoLayers.transScores [] = .error .value := by decide +kernel

end Props
