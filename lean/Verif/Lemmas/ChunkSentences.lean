import Verif.Lemmas.ChunkTokens

/-! Sentences of lines with quotations and parentheses. -/

namespace Model
open Py

variable {db : CharDB}

/-- What becomes of a chunk: `toks` are its tokens in the line, `body` those that stay in the sentence. -/
structure ChunkToks (db : CharDB) (q br : List Str) (x : Spec.Chunk) (ws toks body : List Str) : Prop where
  cut : CutWords db ws toks
  edge : WordEdge db x.text ws
  ne : body ≠ []
  step : ∀ rest cur, splitSentencesAux db (toks ++ rest) cur =
    if x.ends then (cur ++ body) :: splitSentencesAux db rest [] else splitSentencesAux db rest (cur ++ body)
  expand : Expands (sentToken db (tokenize db) q br) body x.tokens

theorem phrases_cut {q : List Str} {xs : List Spec.Phrase} {wss : List (List Str)}
    (h : ∀ x ∈ xs, x.Ordinary db ∧ ∀ ps m, x = .quote ps m → Spec.stops ps = false) (hw : List.Forall₂ (PhraseWords q) xs wss) :
    ∃ toks, CutWords db wss.flatten toks ∧ List.Forall₂ (WordEdge db) (xs.map Spec.Phrase.text) wss ∧
      Expands (nestedToken db (tokenize db) q) toks (xs.flatMap Spec.Phrase.tokens) := by
  induction hw with
  | nil => exact ⟨[], .nil, .nil, .nil⟩
  | @cons x ws xs wss h1 _ ih =>
    obtain ⟨k1, k2⟩ := h x (by simp)
    obtain ⟨toks, i1, i2, i3⟩ := ih fun x hx => h x (by simp [hx])
    exact ⟨_, .append (phrase_cut k1 h1) i1, .cons (phrase_edge k1 h1) i2, .append (phrase_nested k1 h1 k2) i3⟩

theorem chunk_toks {q br : List Str} {x : Spec.Chunk} {ws : List Str} (h : x.Ordinary db) (hw : ChunkWords q br x ws) :
    ∃ toks body, ChunkToks db q br x ws toks body := by
  cases x with
  | phrase x =>
    exact ⟨_, _, phrase_cut h.1 hw, phrase_edge h.1 hw, phraseBody_ne h.1 hw, phrase_step h.1 hw h.2, phrase_expand h.1 hw br⟩
  | paren xs m =>
    obtain ⟨n, y, wss, h1, h2, h3, rfl⟩ := hw
    obtain ⟨k1, k2, k3, k4⟩ := h
    have hl : (mk '⦅' '⦆' n).getLast? ≠ some '.' := by
      unfold mk
      rw [← List.cons_append, List.getLast?_concat]
      decide
    have hm : Spec.Printed.singles m = [] ∨ ∃ c, m = [c] ∧ Spec.Printed.singles m = [[c]] := by
      simp only [List.mem_cons, List.not_mem_nil, or_false] at k4
      rcases k4 with rfl | rfl | rfl | rfl | rfl | rfl
      · exact .inl rfl
      all_goals exact .inr ⟨_, rfl, rfl⟩
    refine ⟨mk '⦅' '⦆' n :: Spec.Printed.singles m, mk '⦅' '⦆' n :: Spec.Printed.singles m, ?_, ?_, by simp, ?_, ?_⟩
    · exact CutWords.append (a := [_]) (x := [_]) (.marker (.inr ⟨rfl, rfl⟩) n) (.mark k4)
    · refine ⟨by simp, ?_, ?_, ?_⟩
      · rcases hm with e | ⟨c, -, e⟩ <;> rw [e]
        · exact .singleton _
        · exact .cons_cons (fun e => absurd e hl) (.singleton _)
      · intro w hw hd
        rcases hm with e | ⟨c, e', e⟩ <;> rw [e] at hw
        · cases hw
          exact absurd hd hl
        · obtain rfl : [c] = w := by simpa using hw
          obtain rfl : c = '.' := by simpa using hd
          rw [Spec.Chunk.text, e', show ∀ a : Str, '(' :: (a ++ [')', '.']) = ('(' :: (a ++ [')'])) ++ ['.'] by simp,
            List.getLast?_concat]
      · rintro w ⟨⟩
        exact .inr (.inr rfl)
    · intro rest cur
      have hmk : isEnder db (mk '⦅' '⦆' n) = false := marker_not_ender (by decide) n
      rw [List.cons_append, ← List.singleton_append, splitAux_skip (by simpa using hmk), mark_step k4]
      simp [Spec.Chunk.ends]
    · obtain ⟨toks, i1, i2, i3⟩ := phrases_cut k2 h2
      have hne : wss.flatten ≠ [] := by
        cases i2' : wss with
        | nil =>
          rw [i2'] at h2
          cases h2
          exact absurd rfl k1
        | cons ws wss =>
          rw [i2'] at i2
          cases xs with
          | nil => cases i2
          | cons x xs =>
            cases i2 with
            | cons a _ => simp [a.ne]
      have ht : tokenize db y = toks := i1.tokenize (edges_chain i2 k3) hne h3
      obtain ⟨parts, e1, e2⟩ := i3
      have e : Spec.Chunk.tokens (.paren xs m) = ([c!"("] ++ parts.flatten ++ [c!")"]) ++ Spec.Printed.singles m := by
        simp [Spec.Chunk.tokens, e2]
      rw [e]
      refine .append (a := [_]) (.one ?_) (.same fun t ht => sentToken_same (singles_head k4 t ht))
      obtain ⟨hn, rfl⟩ := List.getElem?_eq_some_iff.mp h1
      unfold sentToken
      rw [if_neg (by simp [mk]), if_pos (by simp [mk])]
      unfold mk
      simp only [slice_inner, intOf_natRepr, block_index hn, bind, Except.bind, pure, Except.pure, ht, e1]

/-! ### Grouping -/

theorem sentencesOf_map {α β : Type} (f : α → β) (ends : β → Bool) (xs : List α) :
    Spec.sentencesOf ends (xs.map f) = (Spec.sentencesOf (fun x => ends (f x)) xs).map (List.map f) := by
  induction xs with
  | nil => rfl
  | cons x xs ih =>
    rw [List.map_cons, Spec.sentencesOf, Spec.sentencesOf, ih]
    split
    · simp
    · cases Spec.sentencesOf (fun x => ends (f x)) xs <;> simp

theorem sentencesOf_mem {α : Type} (ends : α → Bool) {xs : List α} {s : List α} (hs : s ∈ Spec.sentencesOf ends xs) : ∀ x ∈ s, x ∈ xs := by
  induction xs generalizing s with
  | nil => cases hs
  | cons x xs ih =>
    intro y hy
    rw [Spec.sentencesOf] at hs
    split at hs
    · rcases List.mem_cons.mp hs with rfl | hs
      · simpa using .inl (List.mem_singleton.mp hy)
      · exact List.mem_cons_of_mem _ (ih hs y hy)
    · rcases hss : Spec.sentencesOf ends xs with _ | ⟨t, ts⟩
      · rw [hss] at hs
        simp only [List.mem_singleton] at hs
        subst hs
        simpa using .inl (List.mem_singleton.mp hy)
      · rw [hss] at hs ih
        rcases List.mem_cons.mp hs with rfl | hs
        · rcases List.mem_cons.mp hy with rfl | hy
          · simp
          · exact List.mem_cons_of_mem _ (ih (by simp) y hy)
        · exact List.mem_cons_of_mem _ (ih (by simp [hs]) y hy)

theorem splitAux_units {α : Type} {ends : α → Bool} {toks body : α → List Str} {xs : List α} (hne : ∀ x ∈ xs, body x ≠ [])
    (hstep : ∀ x ∈ xs, ∀ rest cur, splitSentencesAux db (toks x ++ rest) cur =
      if ends x then (cur ++ body x) :: splitSentencesAux db rest [] else splitSentencesAux db rest (cur ++ body x))
    (cur : List Str) : splitSentencesAux db (xs.flatMap toks) cur =
      match Spec.sentencesOf ends xs with
      | [] => if cur.isEmpty then [] else [cur]
      | s :: ss => (cur ++ s.flatMap body) :: ss.map (fun s => s.flatMap body) := by
  induction xs generalizing cur with
  | nil => rfl
  | cons p ps ih =>
    have ih := ih (fun q hq => hne q (by simp [hq])) (fun q hq => hstep q (by simp [hq]))
    rw [List.flatMap_cons, hstep p (by simp), Spec.sentencesOf]
    split
    · rw [ih]
      rcases Spec.sentencesOf ends ps with _ | ⟨s, ss⟩
      · simp
      · simp
    · rw [ih]
      rcases Spec.sentencesOf ends ps with _ | ⟨s, ss⟩
      · simp [hne p (by simp)]
      · simp

/-! ### Lines -/

theorem line_toks {q br : List Str} {xs : List Spec.Chunk} {wss : List (List Str)} (h : ∀ x ∈ xs, x.Ordinary db)
    (hw : List.Forall₂ (ChunkWords q br) xs wss) : ∃ its : List (Spec.Chunk × List Str × List Str), its.map Prod.fst = xs ∧
      CutWords db wss.flatten (its.flatMap fun i => i.2.1) ∧ List.Forall₂ (WordEdge db) (xs.map Spec.Chunk.text) wss ∧
      ∀ i ∈ its, ∃ ws, ChunkToks db q br i.1 ws i.2.1 i.2.2 := by
  induction hw with
  | nil => exact ⟨[], rfl, .nil, .nil, by simp⟩
  | @cons x ws xs wss h1 _ ih =>
    obtain ⟨its, i1, i2, i3, i4⟩ := ih fun x hx => h x (by simp [hx])
    obtain ⟨toks, body, hc⟩ := chunk_toks (h _ (by simp)) h1
    refine ⟨(x, toks, body) :: its, by rw [List.map_cons, i1], ?_, .cons hc.edge i3, ?_⟩
    · rw [List.flatten_cons, List.flatMap_cons]
      exact .append hc.cut i2
    · intro i hi
      rcases List.mem_cons.mp hi with rfl | hi
      · exact ⟨ws, hc⟩
      · exact i4 i hi

theorem line_sentences {q br : List Str} {line b : Str} {xs : List Spec.Chunk} {wss : List (List Str)} (h : Spec.Paragraph db line xs)
    (hw : List.Forall₂ (ChunkWords q br) xs wss) (hb : splitWs b = wss.flatten) :
    (splitSentences db (tokenize db b)).mapM (fun sent => do
      let parts ← sent.mapM (sentToken db (tokenize db) q br)
      return parts.flatten) = .ok ((Spec.sentencesOf Spec.Chunk.ends xs).map fun s => s.flatMap Spec.Chunk.tokens) := by
  obtain ⟨its, i1, i2, i3, i4⟩ := line_toks h.ordinary hw
  have hne : wss.flatten ≠ [] := by
    have h0 := h.not_empty
    cases hxs : xs with
    | nil => exact absurd hxs h0
    | cons x xs =>
      rw [hxs] at i3
      cases i3 with
      | cons a _ => simp [a.ne]
  rw [i2.tokenize (edges_chain i3 h.chain) hne hb]
  have hs : splitSentences db (its.flatMap fun i => i.2.1) =
      (Spec.sentencesOf (fun i : Spec.Chunk × List Str × List Str => i.1.ends) its).map fun s => s.flatMap fun i => i.2.2 := by
    unfold splitSentences
    rw [splitAux_units (ends := fun i : Spec.Chunk × List Str × List Str => i.1.ends) (body := fun i => i.2.2)]
    · rcases Spec.sentencesOf _ its with _ | ⟨s, ss⟩ <;> simp
    · intro i hi
      obtain ⟨ws, hc⟩ := i4 i hi
      exact hc.ne
    · intro i hi
      obtain ⟨ws, hc⟩ := i4 i hi
      exact hc.step
  rw [hs, ← i1, sentencesOf_map]
  have hmem := fun s => @sentencesOf_mem _ (fun i : Spec.Chunk × List Str × List Str => i.1.ends) its s
  generalize Spec.sentencesOf (fun i : Spec.Chunk × List Str × List Str => i.1.ends) its = ss at hmem ⊢
  induction ss with
  | nil => rfl
  | cons s ss ih =>
    have he : Expands (sentToken db (tokenize db) q br) (s.flatMap fun i => i.2.2) (s.flatMap fun i => i.1.tokens) :=
      .flatMap fun i hi => by
        obtain ⟨ws, hc⟩ := i4 i (hmem s (by simp) i hi)
        exact hc.expand
    obtain ⟨parts, e1, e2⟩ := he
    have ih := ih fun t ht => hmem t (by simp [ht])
    simp only [List.map_cons, List.mapM_cons]
    rw [e1, ih]
    simp [bind, Except.bind, pure, Except.pure, e2, List.flatMap_map]

end Model
