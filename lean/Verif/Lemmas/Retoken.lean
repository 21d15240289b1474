import Verif.Lemmas.PrintedText

/-! Tokens, joined by blanks and tokenized again. -/

namespace Model
open Py

variable {db : CharDB}

theorem singles_flatten (s : Str) : (Spec.Printed.singles s).flatten = s := by
  induction s with
  | nil => rfl
  | cons c s ih =>
    show [c] ++ (Spec.Printed.singles s).flatten = _
    rw [ih]
    rfl

theorem Printed.tokens_flatten (p : Spec.Printed) : p.tokens.flatten = p.text := by
  have hc : ∀ s : Str, (Spec.splitCannot s).flatten = s := by
    intro s
    unfold Spec.splitCannot
    split <;> simp
  unfold Spec.Printed.tokens Spec.Printed.text
  simp only [List.flatten_append, singles_flatten, hc]
  congr 2
  split
  · rename_i e
    simp [e]
  · simp

theorem Piece.tokens_flatten (p : Spec.Piece) : p.tokens.flatten = p.text := by
  cases p with
  | word p => exact Printed.tokens_flatten p
  | mark c => rfl

theorem getLast?_flatten {L : List Str} (h : ∀ w ∈ L, w ≠ []) {x : Str} (hx : L.getLast? = some x) :
    L.flatten.getLast? = x.getLast? := by
  obtain ⟨L, rfl⟩ := List.getLast?_eq_some_iff.mp hx
  rw [List.flatten_concat, List.getLast?_append_of_ne_nil _ (h x (by simp))]

theorem head?_flatten {L : List Str} (h : ∀ w ∈ L, w ≠ []) {x : Str} (hx : L.head? = some x) :
    L.flatten.head? = x.head? := by
  cases L with
  | nil => cases hx
  | cons y L =>
    cases hx
    rw [List.flatten_cons, List.head?_append_of_ne_nil _ (h x (by simp))]

theorem chain_calm {A B : List Str} (hA : ∀ w ∈ A, w.getLast? ≠ some '.') (hB : B.IsChain (Spec.DotBefore db)) :
    (A ++ B).IsChain (Spec.DotBefore db) := by
  induction A with
  | nil => exact hB
  | cons w A ih =>
    have := ih fun v hv => hA v (by simp [hv])
    rw [List.cons_append]
    rcases hv : A ++ B with _ | ⟨v, vs⟩
    · exact .singleton _
    · rw [hv] at this
      exact .cons_cons (fun h => absurd h (hA w (by simp))) this

theorem mem_singles {w s : Str} (h : w ∈ Spec.Printed.singles s) : ∃ c ∈ s, w = [c] := by
  obtain ⟨c, hc, rfl⟩ := List.mem_map.mp h
  exact ⟨c, hc, rfl⟩

/-- Within a word. -/
theorem Ordinary.tokens_chain {p : Spec.Printed} (h : p.Ordinary db) (ht : p.tail = []) :
    p.tokens.IsChain (Spec.DotBefore db) := by
  have hclose : ∀ c ∈ [')', ']', '}', '"'], c ≠ '.' ∧ ¬ ('a' ≤ c ∧ c ≤ 'z') ∧ isSpace c = false ∧ c ∉ [',', ';', '?', '!'] := by decide
  have hopen : ∀ c ∈ ['(', '[', '{', '"'], c ≠ '.' := by decide
  have hstem : ∀ w ∈ Spec.splitCannot p.stem, w.getLast? ≠ some '.' := by
    intro w hw e
    have hm := List.mem_of_getLast? e
    have : '.' ∈ p.stem := by
      have : '.' ∈ (Spec.splitCannot p.stem).flatten := List.mem_flatten.mpr ⟨w, hw, hm⟩
      unfold Spec.splitCannot at this
      split at this <;> simpa using this
    exact Ordinary.stem_not h (by decide) this
  have hout : ∀ w ∈ Spec.Printed.singles p.outer, w.getLast? ≠ some '.' := by
    intro w hw
    obtain ⟨c, hc, rfl⟩ := mem_singles hw
    simpa using (hclose c (h.outer c hc)).1
  have houtc : (Spec.Printed.singles p.outer).IsChain (Spec.DotBefore db) := by
    simpa using chain_calm (B := []) hout .nil
  have hdig : ∀ c ∈ [')', ']', '}', '"'], db.digit c = false := fun c hc => by
    rw [db.digit_ascii c (by revert c; decide)]
    revert c; decide
  have hmark : (Spec.Printed.singles p.mark ++ Spec.Printed.singles p.outer).IsChain (Spec.DotBefore db) := by
    have hm := h.mark
    simp only [List.mem_cons, List.not_mem_nil, or_false] at hm
    by_cases hd : p.mark = ['.']
    · rw [hd]
      show ([['.']] ++ _ : List Str).IsChain _
      rw [List.isChain_append]
      refine ⟨.singleton _, houtc, ?_⟩
      intro x _ y hy _ c hc
      obtain ⟨d, hd, rfl⟩ := mem_singles (List.mem_of_head? hy)
      obtain rfl : d = c := by simpa using hc
      have := hclose d (h.outer d hd)
      exact ⟨this.2.1, hdig d (h.outer d hd), this.2.2.2⟩
    · refine chain_calm (fun w hw => ?_) houtc
      obtain ⟨c, hc, rfl⟩ := mem_singles hw
      rcases hm with e | e | e | e | e | e <;> rw [e] at hc hd <;> simp at hc hd <;> simp [hc]
  unfold Spec.Printed.tokens
  refine chain_calm (fun w hw => ?_) (chain_calm hstem ?_)
  · obtain ⟨c, hc, rfl⟩ := mem_singles hw
    simpa using hopen c (h.opening c hc)
  · rw [if_pos ht, List.nil_append]
    refine chain_calm (fun w hw => ?_) hmark
    obtain ⟨c, hc, rfl⟩ := mem_singles hw
    simpa using (hclose c (h.inner c hc)).1

theorem Piece.token_noBlank {p : Spec.Piece} (h : p.Ordinary db) {w : Str} (hw : w ∈ p.tokens) : NoBlank w := by
  cases p with
  | word p => exact Ordinary.token_noBlank h hw
  | mark c =>
    obtain rfl := List.mem_singleton.mp hw
    have hm : ∀ c ∈ [',', ';', '!', '?', '.', '(', ')', '[', ']', '{', '}', '"'], isSpace c = false := by decide
    exact ⟨by simp, by simpa using hm c h⟩

theorem Piece.text_ne {p : Spec.Piece} (h : p.Ordinary db) : p.text ≠ [] := by
  cases p with
  | word p => exact Ordinary.text_ne h
  | mark c => exact List.cons_ne_nil _ _

/-- Within a text. -/
theorem pieces_chain {ps : List Spec.Piece} (h : ∀ p ∈ ps, p.Ordinary db) (ht : ∀ p, .word p ∈ ps → p.tail = [])
    (hb : (ps.map Spec.Piece.text).IsChain (Spec.DotBefore db)) : (ps.flatMap Spec.Piece.tokens).IsChain (Spec.DotBefore db) := by
  induction ps with
  | nil => exact .nil
  | cons p ps ih =>
    have hp := h p (by simp)
    have hne : ∀ {q}, q ∈ p :: ps → ∀ w ∈ q.tokens, w ≠ [] := fun hq w hw => (Piece.token_noBlank (h _ hq) hw).1
    rw [List.flatMap_cons, List.isChain_append]
    refine ⟨?_, ih (fun q hq => h q (by simp [hq])) (fun q hq => ht q (by simp [hq])) (List.isChain_cons.mp hb).2, ?_⟩
    · cases p with
      | word p => exact Ordinary.tokens_chain hp (ht p (by simp))
      | mark c => exact .singleton _
    · intro x hx y hy
      cases ps with
      | nil => cases hy
      | cons q ps =>
        have hq := h q (by simp)
        have hqt : q.tokens ≠ [] := fun e => Piece.text_ne hq (by rw [← Piece.tokens_flatten, e]; rfl)
        rw [List.flatMap_cons, List.head?_append_of_ne_nil _ hqt] at hy
        have h1 := getLast?_flatten (hne (q := p) (by simp)) hx
        have h2 := head?_flatten (hne (q := q) (by simp)) hy
        rw [Piece.tokens_flatten] at h1 h2
        have := (List.isChain_cons_cons.mp hb).1
        unfold Spec.DotBefore at this ⊢
        rwa [h1, h2] at this

theorem splitCannot_again {s w : Str} (h : w ∈ Spec.splitCannot s) : Spec.splitCannot w = [w] := by
  have hl : ∀ {w : Str}, w.length ≠ 6 → Spec.splitCannot w = [w] := by
    intro w hw
    refine if_neg fun e => hw ?_
    simpa using congrArg List.length e
  unfold Spec.splitCannot at h
  split at h
  · rename_i e
    have h6 : s.length = 6 := by simpa using congrArg List.length e
    simp only [List.mem_cons, List.not_mem_nil, or_false] at h
    rcases h with rfl | rfl <;> refine hl ?_ <;> simp [h6]
  · rename_i e
    obtain rfl := List.mem_singleton.mp h
    exact if_neg e

/-- A token is a piece. -/
theorem Piece.token_piece {p : Spec.Piece} (h : p.Ordinary db) (ht : ∀ q, p = .word q → q.tail = []) {w : Str}
    (hw : w ∈ p.tokens) : ∃ q : Spec.Piece, q.Ordinary db ∧ q.text = w ∧ q.tokens = [w] := by
  have hall : ∀ c ∈ ['(', '[', '{', '"'] ++ [')', ']', '}', '"'], c ∈ [',', ';', '!', '?', '.', '(', ')', '[', ']', '{', '}', '"'] := by
    decide
  cases p with
  | mark c =>
    obtain rfl := List.mem_singleton.mp hw
    exact ⟨.mark c, h, rfl, rfl⟩
  | word p =>
    have ht := ht p rfl
    have h : p.Ordinary db := h
    have hw : w ∈ p.tokens := hw
    unfold Spec.Printed.tokens at hw
    rw [if_pos ht] at hw
    simp only [List.mem_append, List.not_mem_nil, false_or] at hw
    rcases hw with hw | hw | hw | hw | hw
    · obtain ⟨c, hc, rfl⟩ := mem_singles hw
      exact ⟨.mark c, hall c (List.mem_append_left _ (h.opening c hc)), rfl, rfl⟩
    · have hin : ∀ c ∈ w, c ∈ p.stem := by
        intro c hc
        have : c ∈ (Spec.splitCannot p.stem).flatten := List.mem_flatten.mpr ⟨w, hw, hc⟩
        unfold Spec.splitCannot at this
        split at this <;> simpa using this
      have hne : w ≠ [] := by
        have : w ∈ p.tokens := by
          unfold Spec.Printed.tokens
          simp only [List.mem_append]
          exact .inr (.inl hw)
        exact (Ordinary.token_noBlank h this).1
      refine ⟨.word ⟨[], w, [], [], [], []⟩, ⟨by simp, .nil, hne, fun c hc => h.stem c (hin c hc), .inl rfl, by simp, .nil, by simp,
        by simp, .nil, by simp, by simp, by simp, by simp, by simp⟩, ?_, ?_⟩
      · simp [Spec.Piece.text, Spec.Printed.text]
      · simp [Spec.Piece.tokens, Spec.Printed.tokens, Spec.Printed.singles, splitCannot_again hw]
    · obtain ⟨c, hc, rfl⟩ := mem_singles hw
      exact ⟨.mark c, hall c (List.mem_append_right _ (h.inner c hc)), rfl, rfl⟩
    · obtain ⟨c, hc, rfl⟩ := mem_singles hw
      refine ⟨.mark c, ?_, rfl, rfl⟩
      have hm := h.mark
      simp only [List.mem_cons, List.not_mem_nil, or_false] at hm
      show c ∈ _
      rcases hm with e | e | e | e | e | e <;> rw [e] at hc <;> simp at hc <;> subst hc <;> decide
    · obtain ⟨c, hc, rfl⟩ := mem_singles hw
      exact ⟨.mark c, hall c (List.mem_append_right _ (h.outer c hc)), rfl, rfl⟩

theorem pieces_of_tokens {ws : List Str} (h : ∀ w ∈ ws, ∃ q : Spec.Piece, q.Ordinary db ∧ q.text = w ∧ q.tokens = [w]) :
    ∃ qs : List Spec.Piece, (∀ q ∈ qs, q.Ordinary db) ∧ qs.map Spec.Piece.text = ws ∧ qs.flatMap Spec.Piece.tokens = ws := by
  induction ws with
  | nil => exact ⟨[], by simp, rfl, rfl⟩
  | cons w ws ih =>
    obtain ⟨qs, h1, h2, h3⟩ := ih fun v hv => h v (by simp [hv])
    obtain ⟨q, k1, k2, k3⟩ := h w (by simp)
    refine ⟨q :: qs, ?_, by simp [k2, h2], by simp [k3, h3]⟩
    intro r hr
    rcases List.mem_cons.mp hr with rfl | hr
    · exact k1
    · exact h1 r hr

theorem retokenize {ps : List Spec.Piece} (h : ∀ p ∈ ps, p.Ordinary db) (ht : ∀ p, .word p ∈ ps → p.tail = [])
    (hb : (ps.map Spec.Piece.text).IsChain (Spec.DotBefore db)) (hne : ps ≠ []) {text : Str}
    (hs : splitWs text = ps.map Spec.Piece.text) : tokenize db (join c!" " (tokenize db text)) = tokenize db text := by
  have ht0 : text ≠ [] := by
    rintro rfl
    exact hne (List.map_eq_nil_iff.mp hs.symm)
  rw [tokenize_pieces h hb ht0 hs]
  obtain ⟨qs, h1, h2, h3⟩ := pieces_of_tokens (db := db) (ws := ps.flatMap Spec.Piece.tokens) fun w hw => by
    obtain ⟨p, hp, hw⟩ := List.mem_flatMap.mp hw
    exact Piece.token_piece (h p hp) (fun q e => ht q (e ▸ hp)) hw
  have hsj : splitWs (join c!" " (ps.flatMap Spec.Piece.tokens)) = ps.flatMap Spec.Piece.tokens := by
    refine splitWs_join _ fun w hw => ?_
    obtain ⟨p, hp, hw⟩ := List.mem_flatMap.mp hw
    exact Piece.token_noBlank (h p hp) hw
  have hj : join c!" " (ps.flatMap Spec.Piece.tokens) ≠ [] := by
    intro hj
    rw [hj] at hsj
    obtain ⟨p, hp⟩ := List.exists_mem_of_ne_nil ps hne
    have : p.tokens = [] := List.flatMap_eq_nil_iff.mp hsj.symm p hp
    exact Piece.text_ne (h p hp) (by rw [← Piece.tokens_flatten, this]; rfl)
  rw [tokenize_pieces h1 (by rw [h2]; exact pieces_chain h ht hb) hj (by rw [hsj, h2]), h3]

end Model
