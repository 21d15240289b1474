import Verif.Lemmas.Samples

/-! Properties C49, C50, C51 and C76: vectors of sentences, character codes, tagger output, training samples. -/

namespace Props
open Py Model Spec

variable {α : Type} [Zero α]

/-- C49: too long is the only failure, and it happens exactly above 50 tokens. -/
theorem C49_too_long (code : Char → Nat) (vec : Str → List α) (D : Nat) (hv : ∀ w, (vec w).length = D)
    (tokens : List Str) :
    (∀ e, vectorizeSentence code vec tokens = .error e ↔ (50 < tokens.length ∧ e = .sentenceTooLong)) := by
  intro e
  by_cases h : tokens.length ≤ 50
  · rw [vectorizeSentence_ok code vec D hv tokens h]
    constructor
    · intro h'; cases h'
    · rintro ⟨h', -⟩; omega
  · have hm : tokens.length > maxSentLength := by unfold maxSentLength; omega
    have : vectorizeSentence code vec tokens = .error .sentenceTooLong := by
      unfold vectorizeSentence
      rw [if_pos hm]
      rfl
    rw [this]
    constructor
    · intro h'; cases h'; exact ⟨by omega, rfl⟩
    · rintro ⟨-, rfl⟩; rfl

/-- C49: up to 50 tokens the result is `n + 2`, a 52x22 character matrix and 52 vectors; the first `n + 2` rows are those
of start mark, tokens and end mark, the others are zero. -/
theorem C49_vectors (code : Char → Nat) (vec : Str → List α) (D : Nat) (hv : ∀ w, (vec w).length = D)
    (tokens : List Str) (hn : tokens.length ≤ 50) :
    ∃ chars vecs, vectorizeSentence code vec tokens = .ok (tokens.length + 2, chars, vecs) ∧
      chars.length = 52 ∧ (∀ r ∈ chars, r.length = 22) ∧ vecs.length = 52 ∧ (∀ r ∈ vecs, r.length = D) ∧
      (∀ (i : Nat) w, (sentRows tokens)[i]? = some w → chars[i]? = some (wordRow code w) ∧ vecs[i]? = some (vec w)) ∧
      (∀ i : Nat, tokens.length + 2 ≤ i → i < 52 →
        chars[i]? = some (List.replicate 22 0) ∧ vecs[i]? = some (List.replicate D 0)) := by
  have hl : (sentRows tokens).length = tokens.length + 2 := by simp [sentRows]
  have hw : ∀ w, (wordRow code w).length = 22 := by
    intro w
    simp [wordRow, padTo, lastN]
    omega
  refine ⟨_, _, vectorizeSentence_ok code vec D hv tokens hn, ?_, ?_, ?_, ?_, ?_, ?_⟩
  · simp [hl]; omega
  · intro r hr
    rcases List.mem_append.mp hr with hr | hr
    · obtain ⟨w, -, rfl⟩ := List.mem_map.mp hr
      exact hw w
    · rw [(List.mem_replicate.mp hr).2]; simp
  · simp [hl]; omega
  · intro r hr
    rcases List.mem_append.mp hr with hr | hr
    · obtain ⟨w, -, rfl⟩ := List.mem_map.mp hr
      exact hv w
    · rw [(List.mem_replicate.mp hr).2]; simp
  · intro i w hi
    have hlt : i < (sentRows tokens).length := (List.getElem?_eq_some_iff.mp hi).1
    rw [List.getElem?_append_left (by simpa using hlt), List.getElem?_append_left (by simpa using hlt)]
    simp [hi]
  · intro i h1 h2
    rw [List.getElem?_append_right (by simp [hl]; omega), List.getElem?_append_right (by simp [hl]; omega)]
    simp only [List.getElem?_replicate, List.length_map, hl]
    rw [if_pos (by omega), if_pos (by omega)]
    exact ⟨rfl, rfl⟩

/-- C49: a word of at most 20 characters is kept whole, of a longer one the last 20 characters are kept. -/
theorem C49_word_kept (code : Char → Nat) (w : Str) :
    (w.length ≤ 20 → ∃ k, wordRow code w = (['†'] ++ w ++ ['‡']).map code ++ List.replicate k 0) ∧
    (∀ pre suf, w = pre ++ suf → suf.length = 20 → wordRow code w = (['†'] ++ suf ++ ['‡']).map code) := by
  constructor
  · intro h
    have : lastN 20 w = w := by unfold lastN; rw [show w.length - 20 = 0 by omega]; rfl
    unfold wordRow padTo
    rw [this]
    exact ⟨_, rfl⟩
  · rintro pre suf rfl h
    have : lastN 20 (pre ++ suf) = suf := by
      unfold lastN
      rw [show (pre ++ suf).length - 20 = pre.length by simp [h]]
      simp
    unfold wordRow padTo
    rw [this]
    simp [h]

/-- C49: the masks of two rows are one-hot of length 52, and building them fails only beyond the padded length. -/
theorem C49_masks (i j : Nat) :
    (i < 52 → j < 52 → makeMasks i j = .ok (oneHot 52 i, oneHot 52 j)) ∧
    ((52 ≤ i ∨ 52 ≤ j) → makeMasks i j = .error .index) := by
  constructor
  · intro hi hj
    unfold makeMasks
    rw [makeMask_ok i hi, makeMask_ok j hj]
    rfl
  · intro h
    have hp : paddedSentLength = 52 := rfl
    have herr : ∀ k, 52 ≤ k → makeMask k = .error .index := by
      intro k hk
      unfold makeMask
      rw [hp, if_neg (by omega)]
    unfold makeMasks
    by_cases hi : i < 52
    · rw [makeMask_ok i hi, herr j (by omega)]; rfl
    · rw [herr i (by omega)]; rfl

/-- C49: word vectors all have the size of the zero vector and do not depend on the case of the word. -/
theorem C49_wordset (lower : Str → Str) (hlow : ∀ w, lower (lower w) = lower w) (D : Nat) (d : Dict Str (List α))
    (hd : ∀ p ∈ d, p.2.length = D) (w : Str) :
    (wordsetGet lower (List.replicate D 0) d w).length = D ∧
    wordsetGet lower (List.replicate D 0) d (lower w) = wordsetGet lower (List.replicate D 0) d w ∧
    (∀ v, d.Wf → (lower w, v) ∈ d → wordsetGet lower (List.replicate D 0) d w = v) := by
  refine ⟨?_, ?_, ?_⟩
  · unfold wordsetGet
    cases h : d.get? (lower w) with
    | none => simp
    | some v => exact hd _ (Dict.mem_of_get? h)
  · unfold wordsetGet
    rw [hlow]
  · intro v hw hm
    unfold wordsetGet
    rw [Dict.get?_of_mem hw hm]
    rfl

example : ∃ chars vecs, vectorizeSentence (α := Nat) Char.toNat (fun w => [w.length, 1]) [c!"a", c!"bc"] =
    .ok (4, chars, vecs) ∧ vecs.take 5 = [[3, 1], [1, 1], [2, 1], [3, 1], [0, 0]] :=
  ⟨_, _, vectorizeSentence_ok _ _ 2 (fun _ => rfl) _ (by decide), by decide +kernel⟩

example : wordRow Char.toNat (List.replicate 3 'x' ++ List.replicate 20 'y') =
    ['†'.toNat] ++ List.replicate 20 'y'.toNat ++ ['‡'.toNat] := by decide +kernel

/-! ### C50 -/

/-- C50: whatever the order in which the character set was enumerated when saved, every code of the loaded charset is
below its length, known characters get distinct codes, and all others share one code that no known character has. -/
theorem C50_codes (chars : List Char) (hperm : chars.Perm charsetChars) :
    ∃ cs, Charset.load (Charset.codes chars) = .ok cs ∧ (∀ c, cs.get c < cs.len) ∧
      (∀ c ∈ charsetChars, ∀ c' ∈ charsetChars, cs.get c = cs.get c' → c = c') ∧
      (∃ u, (∀ c, c ∉ charsetChars → cs.get c = u) ∧ ∀ c ∈ charsetChars, cs.get c ≠ u) := by
  have hnd : chars.Nodup := hperm.nodup_iff.mpr charsetChars_nodup
  have hne : chars ≠ [] := by
    intro h
    rw [h] at hperm
    exact absurd hperm.length_eq (by decide +kernel)
  have hin : ∀ c ∈ charsetChars, ∃ i, i < chars.length ∧ chars[i]? = some c ∧
      Charset.get { charCode := Charset.codes chars, unkCode := chars.length } c = i := by
    intro c hc
    obtain ⟨i, hi⟩ := List.mem_iff_getElem?.mp (hperm.mem_iff.mpr hc)
    refine ⟨i, (List.getElem?_eq_some_iff.mp hi).1, hi, ?_⟩
    unfold Charset.get
    rw [(codes_get? chars hnd c i).mpr hi]
    rfl
  have hout : ∀ c, c ∉ charsetChars →
      Charset.get { charCode := Charset.codes chars, unkCode := chars.length } c = chars.length := by
    intro c hc
    unfold Charset.get
    cases h : (Charset.codes chars).get? c with
    | none => rfl
    | some i =>
      exact absurd (hperm.mem_iff.mp (List.mem_of_getElem? ((codes_get? chars hnd c i).mp h))) hc
  refine ⟨_, load_codes chars hnd hne, ?_, ?_, ⟨chars.length, hout, ?_⟩⟩
  · intro c
    have hl : Charset.len { charCode := Charset.codes chars, unkCode := chars.length } = chars.length + 1 := by
      unfold Charset.len
      rw [codes_eq chars hnd]
      simp
    rw [hl]
    by_cases hc : c ∈ charsetChars
    · obtain ⟨i, h1, -, h2⟩ := hin c hc
      omega
    · rw [hout c hc]; omega
  · intro c hc c' hc' h
    obtain ⟨i, -, h1, h2⟩ := hin c hc
    obtain ⟨j, -, h3, h4⟩ := hin c' hc'
    rw [h2, h4] at h
    rw [h, h3] at h1
    exact (Option.some.inj h1).symm
  · intro c hc h
    obtain ⟨i, h1, -, h2⟩ := hin c hc
    omega

/-- C50: "no character has the padding code 0" fails for every enumeration order: exactly one known character has it. -/
theorem C50_padding_code_false (chars : List Char) (hperm : chars.Perm charsetChars) :
    ∃ cs, Charset.load (Charset.codes chars) = .ok cs ∧ ∃! c, c ∈ charsetChars ∧ cs.get c = 0 := by
  have hnd : chars.Nodup := hperm.nodup_iff.mpr charsetChars_nodup
  have hne : chars ≠ [] := by
    intro h
    rw [h] at hperm
    exact absurd hperm.length_eq (by decide +kernel)
  obtain ⟨cs, h1, -, hinj, -⟩ := C50_codes chars hperm
  refine ⟨cs, h1, ?_⟩
  rw [load_codes chars hnd hne] at h1
  cases h1
  cases chars with
  | nil => exact absurd rfl hne
  | cons c rest =>
    have hc : c ∈ charsetChars := hperm.mem_iff.mp (by simp)
    have h0 : Charset.get { charCode := Charset.codes (c :: rest), unkCode := (c :: rest).length } c = 0 := by
      unfold Charset.get
      rw [(codes_get? (c :: rest) hnd c 0).mpr rfl]
      rfl
    exact ⟨c, ⟨hc, h0⟩, fun c' h' => hinj c' h'.1 c hc (h'.2.trans h0.symm)⟩

example : charsetChars.reverse.Perm charsetChars := List.reverse_perm _
example : charsetChars.length = 100 ∧ '†' ∈ charsetChars ∧ 'é' ∉ charsetChars := by decide +kernel

/-! ### C51 -/

theorem tagger_row {W S} (vectorize : S → Except PyErr (Nat × W)) (model : List W → List (List Nat))
    (sentences : List S) (data : List (Nat × W)) (hdata : sentences.mapM vectorize = .ok data)
    (hne : sentences ≠ []) (hlen : ∀ ws, (model ws).length = ws.length)
    (hcodes : ∀ ws, ∀ r ∈ model ws, ∀ c ∈ r, c < 17) :
    ∃ out, taggerTag vectorize model sentences = .ok out ∧ out.length = sentences.length ∧
      ∀ (i : Nat) s row, data[i]? = some s → (model (data.map Prod.snd))[i]? = some row →
        ∃ tags, out[i]? = some tags ∧ tags.map Tag.code = (row.drop 1).take s.1 := by
  have hofc : ∀ c, c < 17 → ∃ t, Tag.ofCode c = .ok t ∧ t.code = c := by
    intro c hc
    have : ∀ c < 17, ∃ t ∈ Tag.all, Tag.ofCode c = .ok t ∧ t.code = c := by decide +kernel
    obtain ⟨t, -, h⟩ := this c hc
    exact ⟨t, h⟩
  have hmap : ∀ l : List Nat, (∀ c ∈ l, c < 17) → ∃ ts, l.mapM Tag.ofCode = .ok ts ∧ ts.map Tag.code = l := by
    intro l
    induction l with
    | nil => intro _; exact ⟨[], rfl, rfl⟩
    | cons c l ih =>
      intro h
      obtain ⟨t, h1, h2⟩ := hofc c (h c (by simp))
      obtain ⟨ts, h3, h4⟩ := ih fun c' hc' => h c' (by simp [hc'])
      exact ⟨t :: ts, by rw [List.mapM_cons, h1, h3]; rfl, by simp [h2, h4]⟩
  have hslice : ∀ (row : List Nat) (sl : Nat), slice row 1 ((sl : Int) + 1) = (row.drop 1).take sl := by
    intro row sl
    unfold slice clampIdx
    rw [if_neg (by omega), if_neg (by omega)]
    cases row with
    | nil => simp
    | cons a r =>
      have e1 : min (1 : Int).toNat (a :: r).length = 1 := by simp
      have e2 : min ((sl : Int) + 1).toNat (a :: r).length = min sl r.length + 1 := by
        simp only [List.length_cons]; omega
      rw [e1, e2]
      simp only [List.take_succ_cons, List.drop_succ_cons, List.drop_zero]
      rw [← List.take_eq_take_min]
  have hdl : data.length = sentences.length := by
    have : ∀ (l : List S) (d : List (Nat × W)), l.mapM vectorize = .ok d → d.length = l.length := by
      intro l
      induction l with
      | nil => intro d h; cases h; rfl
      | cons a l ih =>
        intro d h
        rw [List.mapM_cons] at h
        cases ha : vectorize a with
        | error e => rw [ha] at h; cases h
        | ok v =>
          rw [ha] at h
          cases hl : l.mapM vectorize with
          | error e => rw [hl] at h; cases h
          | ok vs =>
            rw [hl] at h
            cases h
            simp [ih vs hl]
    exact this _ _ hdata
  have hdne : data ≠ [] := by
    intro h
    rw [h] at hdl
    exact hne (List.length_eq_zero_iff.mp hdl.symm)
  have hml : (model (data.map Prod.snd)).length = data.length := by rw [hlen]; simp
  -- the loop over the sentences
  have hloop : ∀ (pre l : List (Nat × W)), data = pre ++ l →
      ∃ out, ((l.map Prod.fst).zipIdx pre.length).mapM (fun (s : Nat × Nat) => do
          let row ← index (model (data.map Prod.snd)) (s.2 : Int)
          (slice row 1 ((s.1 : Int) + 1)).mapM Tag.ofCode) = .ok out ∧ out.length = l.length ∧
        ∀ (i : Nat) s row, l[i]? = some s → (model (data.map Prod.snd))[pre.length + i]? = some row →
          ∃ tags, out[i]? = some tags ∧ tags.map Tag.code = (row.drop 1).take s.1 := by
    intro pre l
    induction l generalizing pre with
    | nil => intro _; exact ⟨[], rfl, rfl, by simp⟩
    | cons s l ih =>
      intro hd
      obtain ⟨out, h1, h2, h3⟩ := ih (pre ++ [s]) (by simp [hd])
      have hlt : pre.length < (model (data.map Prod.snd)).length := by rw [hml, hd]; simp
      obtain ⟨row, hrow⟩ : ∃ row, (model (data.map Prod.snd))[pre.length]? = some row :=
        ⟨_, List.getElem?_eq_getElem hlt⟩
      have hidx : index (model (data.map Prod.snd)) (pre.length : Int) = .ok row := by
        unfold index
        rw [if_neg (by omega), if_neg (by omega), Int.toNat_natCast, hrow]
      obtain ⟨ts, h4, h5⟩ := hmap ((row.drop 1).take s.1)
        (fun c hc => hcodes _ row (List.mem_of_getElem? hrow) c (List.mem_of_mem_drop (List.mem_of_mem_take hc)))
      refine ⟨ts :: out, ?_, by simp [h2], ?_⟩
      · rw [List.map_cons, List.zipIdx_cons, List.mapM_cons]
        simp only [hidx, bind, Except.bind, hslice, h4]
        rw [show (pre ++ [s]).length = pre.length + 1 by simp] at h1
        simp only [bind, Except.bind, hslice] at h1
        rw [h1]
        rfl
      · intro i s' row' hs hr
        cases i with
        | zero =>
          simp only [Nat.add_zero] at hr
          rw [hrow] at hr
          cases hr
          simp only [List.getElem?_cons_zero, Option.some.injEq] at hs
          subst hs
          exact ⟨ts, rfl, h5⟩
        | succ i =>
          have := h3 i s' row' (by simpa using hs) (by
            rw [← hr]; congr 1; simp; omega)
          simpa using this
  obtain ⟨out, h1, h2, h3⟩ := hloop [] data rfl
  refine ⟨out, ?_, by omega, ?_⟩
  · unfold taggerTag
    simp only [hdata, bind, Except.bind, if_neg hdne]
    exact h1
  · intro i s row hs hr
    exact h3 i s row hs (by simpa using hr)

/-- A tagger network that answers `NOUN` (code 8) for every row of every sentence. -/
def nounNet (ws : List (List (List Nat) × List (List Nat))) : List (List Nat) := ws.map fun _ => List.replicate 52 8

/-- C51: "one tag per token" is false: a one-token sentence gets three tags. -/
theorem C51_one_tag_per_token_false :
    ∃ (sentences : List (List Str)) (out : List (List Tag)), (∀ s ∈ sentences, s.length ≤ 50) ∧
      taggerTag (vectorizeSentence (α := Nat) Char.toNat (fun w => [w.length])) nounNet sentences = .ok out ∧
      ∃ (i : Nat) (s : List Str) (tags : List Tag), sentences[i]? = some s ∧ out[i]? = some tags ∧ tags.length ≠ s.length :=
  ⟨[[c!"dog"]], [[.NOUN, .NOUN, .NOUN]], by decide, by decide +kernel, 0, [c!"dog"], [.NOUN, .NOUN, .NOUN], rfl, rfl,
    by decide⟩

/-- C51, exact behaviour: a sentence of `n` tokens gets `min (n + 2) 51` tags, whose first `n` are those the network
gives the rows of its tokens. -/
theorem C51_tags_partial (code : Char → Nat) (vec : Str → List α) (D : Nat) (hv : ∀ w, (vec w).length = D)
    (model : List (List (List Nat) × List (List α)) → List (List Nat)) (hlen : ∀ ws, (model ws).length = ws.length)
    (hrow : ∀ ws, ∀ r ∈ model ws, r.length = 52) (hcodes : ∀ ws, ∀ r ∈ model ws, ∀ c ∈ r, c < 17)
    (sentences : List (List Str)) (hne : sentences ≠ []) (hs : ∀ s ∈ sentences, s.length ≤ 50) :
    ∃ out inputs, taggerTag (vectorizeSentence code vec) model sentences = .ok out ∧ out.length = sentences.length ∧
      sentences.mapM (fun s => (vectorizeSentence code vec s).map Prod.snd) = .ok inputs ∧
      ∀ (i : Nat) s row, sentences[i]? = some s → (model inputs)[i]? = some row →
        ∃ tags, out[i]? = some tags ∧ tags.length = min (s.length + 2) 51 ∧
          (tags.take s.length).map Tag.code = (row.drop 1).take s.length := by
  set data : List (Nat × List (List Nat) × List (List α)) := sentences.map fun s => (s.length + 2,
      (sentRows s).map (wordRow code) ++ List.replicate (50 - s.length) (List.replicate 22 0),
      (sentRows s).map vec ++ List.replicate (50 - s.length) (List.replicate D 0)) with hdata
  have hm : ∀ l : List (List Str), (∀ s ∈ l, s.length ≤ 50) → l.mapM (vectorizeSentence code vec) =
      .ok (l.map fun s => (s.length + 2,
      (sentRows s).map (wordRow code) ++ List.replicate (50 - s.length) (List.replicate 22 0),
      (sentRows s).map vec ++ List.replicate (50 - s.length) (List.replicate D 0))) ∧
      l.mapM (fun s => (vectorizeSentence code vec s).map Prod.snd) =
      .ok (l.map fun s => (
      (sentRows s).map (wordRow code) ++ List.replicate (50 - s.length) (List.replicate 22 0),
      (sentRows s).map vec ++ List.replicate (50 - s.length) (List.replicate D 0))) := by
    intro l
    induction l with
    | nil => intro _; exact ⟨rfl, rfl⟩
    | cons a l ih =>
      intro h
      obtain ⟨h1, h2⟩ := ih fun s hs => h s (by simp [hs])
      have := vectorizeSentence_ok code vec D hv a (h a (by simp))
      constructor
      · rw [List.mapM_cons, this, h1]; rfl
      · rw [List.mapM_cons, this, h2]; rfl
  obtain ⟨h1, h2⟩ := hm sentences hs
  obtain ⟨out, h3, h4, h5⟩ := tagger_row (vectorizeSentence code vec) model sentences data h1 hne hlen hcodes
  refine ⟨out, _, h3, h4, h2, ?_⟩
  intro i s row hi hr
  have hdi : data[i]? = some (s.length + 2,
      (sentRows s).map (wordRow code) ++ List.replicate (50 - s.length) (List.replicate 22 0),
      (sentRows s).map vec ++ List.replicate (50 - s.length) (List.replicate D 0)) := by
    rw [hdata, List.getElem?_map, hi]; rfl
  obtain ⟨tags, h6, h7⟩ := h5 i _ row hdi (by rw [hdata, List.map_map]; exact hr)
  have hr52 := hrow _ row (List.mem_of_getElem? hr)
  refine ⟨tags, h6, ?_, ?_⟩
  · have := congrArg List.length h7
    simp [hr52] at this
    omega
  · rw [List.map_take, h7, List.take_take]
    congr 1
    simp

/-- C51: tagging an empty list of sentences raises `ValueError`. -/
theorem C51_empty_partial {W S} (vectorize : S → Except PyErr (Nat × W)) (model : List W → List (List Nat)) :
    taggerTag vectorize model [] = .error .value := rfl

example : (∀ ws, (nounNet ws).length = ws.length) ∧ (∀ ws, ∀ r ∈ nounNet ws, r.length = 52) ∧
    (∀ ws, ∀ r ∈ nounNet ws, ∀ c ∈ r, c < 17) := by
  refine ⟨by simp [nounNet], ?_, ?_⟩
  · intro ws r hr
    simp only [nounNet, List.mem_map] at hr
    obtain ⟨_, _, rfl⟩ := hr
    simp
  · intro ws r hr c hc
    simp only [nounNet, List.mem_map] at hr
    obtain ⟨_, _, rfl⟩ := hr
    rw [(List.mem_replicate.mp hc).2]
    omega

/-! ### C76 -/

/-- C76: rows of a transition sample: label ids, characters and vector of token `i` are all in row `i + 1`; the other
rows have the padding id; the masks mark the rows of the two tokens. -/
theorem C76_samples_aligned (code : Char → Nat) (vec : Str → List α) (D : Nat) (hv : ∀ w, (vec w).length = D)
    (tokens : List Str) (tags : List Tag) (deps : List Dep) (i₁ i₂ : Nat) (tr : Trans)
    (hn : tokens.length ≤ 50) (ht : tags.length = tokens.length) (hd : deps.length = tokens.length)
    (h₁ : i₁ < tokens.length) (h₂ : i₂ < tokens.length) :
    ∃ tagIds depIds chars vecs,
      transSample code vec tokens tags deps i₁ i₂ tr =
        .ok (tagIds, depIds, chars, vecs, oneHot 52 (i₁ + 1), oneHot 52 (i₂ + 1), tr) ∧
      tagIds.length = 52 ∧ depIds.length = 52 ∧
      (∀ (i : Nat) w t d, tokens[i]? = some w → tags[i]? = some t → deps[i]? = some d →
        tagIds[i + 1]? = some t.code ∧ depIds[i + 1]? = some d.code ∧
        chars[i + 1]? = some (wordRow code w) ∧ vecs[i + 1]? = some (vec w)) ∧
      (∀ k : Nat, k < 52 → (k = 0 ∨ tokens.length < k) → tagIds[k]? = some 0 ∧ depIds[k]? = some 0) := by
  obtain ⟨chars, vecs, hvec, -, -, -, -, hrow, -⟩ := C49_vectors code vec D hv tokens hn
  have hp : paddedSentLength = 52 := rfl
  have hpad : ∀ ids : List Nat, ids.length = tokens.length →
      ∃ out, padArray ([0] ++ ids ++ [0]) paddedSentLength = .ok out ∧ out.length = 52 ∧
        (∀ (i : Nat) c, ids[i]? = some c → out[i + 1]? = some c) ∧
        (∀ k : Nat, k < 52 → (k = 0 ∨ tokens.length < k) → out[k]? = some 0) := by
    intro ids hl
    refine ⟨_, padArray_ok _ _ (by rw [hp]; simp; omega), ?_, ?_, ?_⟩
    · simp [padTo, hp, hl]; omega
    · intro i c hi
      have hlt := (List.getElem?_eq_some_iff.mp hi).1
      unfold padTo
      rw [List.append_assoc, List.append_assoc, List.getElem?_append_right (by simp)]
      simp only [List.length_cons, List.length_nil, Nat.add_sub_cancel]
      rw [List.getElem?_append_left hlt, hi]
    · intro k hk h
      unfold padTo
      rcases h with rfl | h
      · rfl
      · rw [List.append_assoc, List.getElem?_append_right (by simp; omega)]
        have e : ∀ m, ([0] ++ List.replicate m 0 : List Nat) = List.replicate (m + 1) 0 := by
          intro m; rfl
        rw [e, List.getElem?_replicate, if_pos (by simp [hp]; omega)]
  obtain ⟨tI, ht1, ht2, ht3, ht4⟩ := hpad (tags.map Tag.code) (by simpa using ht)
  obtain ⟨dI, hd1, hd2, hd3, hd4⟩ := hpad (deps.map Dep.code) (by simpa using hd)
  refine ⟨tI, dI, chars, vecs, ?_, ht2, hd2, ?_, fun k hk h => ⟨ht4 k hk h, hd4 k hk h⟩⟩
  · have e1 : Model.tagIds tags = .ok tI := ht1
    have e2 : Model.depIds deps = .ok dI := hd1
    unfold transSample
    rw [hvec, e1, e2, (C49_masks (i₁ + 1) (i₂ + 1)).1 (by omega) (by omega)]
    rfl
  · intro i w t d hw htt hdd
    have hlt := (List.getElem?_eq_some_iff.mp hw).1
    obtain ⟨h1, h2⟩ := hrow (i + 1) w (by
      unfold sentRows
      rw [List.append_assoc, List.getElem?_append_right (by simp)]
      simp only [List.length_cons, List.length_nil, Nat.add_sub_cancel]
      rw [List.getElem?_append_left hlt, hw])
    exact ⟨ht3 i _ (by simp [htt]), hd3 i _ (by simp [hdd]), h1, h2⟩

example : (transSample (α := Nat) Char.toNat (fun w => [w.length]) [c!"a", c!"dog"] [.DET, .NOUN] [.ART, .ROOT] 0 1
    .LEFT).map (fun r => (r.1.take 4, r.2.1.take 4)) = .ok ([0, 6, 8, 0], [0, 4, 2, 0]) := by decide +kernel

end Props
