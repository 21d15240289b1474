import Verif.Lemmas.Paragraphs
import Verif.Lemmas.ModelLines

/-! Tokens and sentences of lines with quotations and parentheses. -/

namespace Model
open Py

variable {db : CharDB}

/-! ### Expanding tokens -/

/-- The tokens become `out`. -/
def Expands (f : Str → Except PyErr (List Str)) (ts out : List Str) : Prop := ∃ parts, ts.mapM f = .ok parts ∧ parts.flatten = out

theorem Expands.append {f : Str → Except PyErr (List Str)} {a b x y : List Str} (h : Expands f a x) (h' : Expands f b y) :
    Expands f (a ++ b) (x ++ y) := by
  obtain ⟨p, h1, rfl⟩ := h
  obtain ⟨q, h2, rfl⟩ := h'
  exact ⟨p ++ q, by rw [List.mapM_append, h1, h2]; rfl, by simp⟩

theorem Expands.nil {f : Str → Except PyErr (List Str)} : Expands f [] [] := ⟨[], rfl, rfl⟩

theorem Expands.one {f : Str → Except PyErr (List Str)} {t : Str} {x : List Str} (h : f t = .ok x) : Expands f [t] x :=
  ⟨[x], by simp [h], by simp⟩

theorem Expands.same {f : Str → Except PyErr (List Str)} {ts : List Str} (h : ∀ t ∈ ts, f t = .ok [t]) : Expands f ts ts := by
  induction ts with
  | nil => exact .nil
  | cons t ts ih => exact .append (.one (h t (by simp))) (ih fun u hu => h u (by simp [hu]))

theorem Expands.flatMap {ι : Type} {f : Str → Except PyErr (List Str)} {xs : List ι} {a b : ι → List Str}
    (h : ∀ x ∈ xs, Expands f (a x) (b x)) : Expands f (xs.flatMap a) (xs.flatMap b) := by
  induction xs with
  | nil => exact .nil
  | cons x xs ih =>
    rw [List.flatMap_cons, List.flatMap_cons]
    exact .append (h x (by simp)) (ih fun y hy => h y (by simp [hy]))

/-! ### Words next to each other -/

/-- The first and the last word of a text. -/
structure WordEdge (db : CharDB) (t : Str) (ws : List Str) : Prop where
  ne : ws ≠ []
  chain : ws.IsChain (Spec.DotBefore db)
  last : ∀ w, ws.getLast? = some w → w.getLast? = some '.' → t.getLast? = some '.'
  head : ∀ w, ws.head? = some w → w.head? = t.head? ∨ w.head? = some '༺' ∨ w.head? = some '⦅'

theorem edges_chain {ts : List Str} {wss : List (List Str)} (h : List.Forall₂ (WordEdge db) ts wss)
    (hc : ts.IsChain (Spec.DotBefore db)) : wss.flatten.IsChain (Spec.DotBefore db) := by
  induction h with
  | nil => exact .nil
  | cons h1 h2 ih =>
    rw [List.flatten_cons, List.isChain_append]
    refine ⟨h1.chain, ih (List.isChain_cons.mp hc).2, ?_⟩
    intro x hx y hy hdot
    cases h2 with
    | nil => cases hy
    | cons k1 k2 =>
      rw [List.flatten_cons, List.head?_append_of_ne_nil _ k1.ne] at hy
      have h3 := (List.isChain_cons_cons.mp hc).1 (h1.last x hx hdot)
      rcases k1.head y hy with e | e | e
      · rw [e]
        exact h3
      all_goals
        rw [e]
        rintro c ⟨⟩
        refine ⟨by decide, ?_, by decide⟩
        by_contra hd
        have := db.digit_word _ (by simpa using hd)
        rw [db.word_marks _ (by decide)] at this
        cases this

/-! ### Cutting words -/

/-- Words and their tokens. -/
structure CutWords (db : CharDB) (ws toks : List Str) : Prop where
  ex : ∃ its : List (Str × List Str), its.map Prod.fst = ws ∧ its.flatMap Prod.snd = toks ∧ ∀ i ∈ its, WordCut db i.1 i.2
  sober : ∀ w ∈ ws, Sober db [w]

theorem CutWords.nil : CutWords db [] [] := ⟨⟨[], rfl, rfl, by simp⟩, by simp⟩

theorem CutWords.append {a b x y : List Str} (h : CutWords db a x) (h' : CutWords db b y) : CutWords db (a ++ b) (x ++ y) := by
  obtain ⟨⟨i, h1, h2, h3⟩, h4⟩ := h
  obtain ⟨⟨j, k1, k2, k3⟩, k4⟩ := h'
  refine ⟨⟨i ++ j, by simp [h1, k1], by simp [h2, k2], ?_⟩, ?_⟩
  · intro k hk
    rcases List.mem_append.mp hk with hk | hk
    · exact h3 k hk
    · exact k3 k hk
  · intro w hw
    rcases List.mem_append.mp hw with hw | hw
    · exact h4 w hw
    · exact k4 w hw

theorem CutWords.one {w : Str} {ts : List Str} (h : WordCut db w ts) (hs : Sober db [w]) : CutWords db [w] ts :=
  ⟨⟨[(w, ts)], rfl, by simp, by simpa using h⟩, by simpa using hs⟩

theorem CutWords.flatten {ι : Type} {a b : ι → List Str} {xs : List ι} (h : ∀ x ∈ xs, CutWords db (a x) (b x)) :
    CutWords db (xs.flatMap a) (xs.flatMap b) := by
  induction xs with
  | nil => exact .nil
  | cons x xs ih =>
    rw [List.flatMap_cons, List.flatMap_cons]
    exact .append (h x (by simp)) (ih fun y hy => h y (by simp [hy]))

theorem CutWords.tokenize {ws toks : List Str} (h : CutWords db ws toks) (hb : ws.IsChain (Spec.DotBefore db)) (hne : ws ≠ [])
    {text : Str} (ht : splitWs text = ws) : tokenize db text = toks := by
  obtain ⟨⟨its, h1, rfl, h3⟩, h4⟩ := h
  have h0 : text ≠ [] := by
    rintro rfl
    exact hne ht.symm
  exact tokenize_cut (txt := Prod.fst) (tks := Prod.snd) h3 (by rw [h1]; exact sober_of h4 hb) h0 (by rw [ht, h1])

theorem CutWords.marker {st en : Char} (hs : (st = '༺' ∧ en = '༻') ∨ (st = '⦅' ∧ en = '⦆')) (n : Nat) :
    CutWords db [Model.mk st en n] [Model.mk st en n] := by
  have hall : ∀ c ∈ Model.mk st en n, isSpace c = false ∧ (c ∉ alwaysChars ∧ c ≠ '.') ∧ foldCase c ≠ 'c' ∧ odd c = false ∧
      c ∉ ['.', ';', '\'', '"', ','] := by
    intro c hc
    rcases mk_chars hc with h | h | h
    · rcases hs with ⟨rfl, -⟩ | ⟨rfl, -⟩ <;> subst h <;> decide +kernel
    · rcases hs with ⟨-, rfl⟩ | ⟨-, rfl⟩ <;> subst h <;> decide +kernel
    · have hd : ∀ c ∈ ['0', '1', '2', '3', '4', '5', '6', '7', '8', '9'], isSpace c = false ∧ (c ∉ alwaysChars ∧ c ≠ '.') ∧
          foldCase c ≠ 'c' ∧ odd c = false ∧ c ∉ ['.', ';', '\'', '"', ','] := by decide +kernel
      exact hd c (List.mem_of_getElem? (digit_iff.mpr ⟨h, rfl⟩))
  have hnot : ∀ c ∈ ['.', ';', '\'', '"', ','], c ∉ Model.mk st en n := fun c hc hm => (hall c hm).2.2.2.2 hc
  have hn : NoBlank (Model.mk st en n) := ⟨by simp [Model.mk], fun c hc => (hall c hc).1⟩
  have h1 := hnot '.' (by decide)
  have h2 := hnot ';' (by decide)
  have h3 := hnot '\'' (by decide)
  have h4 := hnot '"' (by decide)
  have h5 := hnot ',' (by decide)
  exact .one (cut_self hn (fun c hc => (hall c hc).2.1) (fun c hc => (hall c hc).2.2.1) ‹_› ‹_› fun c hc => (hall c hc).2.2.2.1)
    (sober_self hn (fun c hc => (hall c hc).2.2.2.1) ‹_› ‹_› ‹_› ‹_›)

theorem CutWords.mark {m : Str} (hm : m ∈ [[], [','], [';'], ['!'], ['?'], ['.']]) :
    CutWords db (Spec.Printed.singles m) (Spec.Printed.singles m) := by
  have h : ∀ c ∈ [',', ';', '!', '?', '.'], CutWords db [[c]] [[c]] := by
    intro c hc
    have hu : ∀ c ∈ [',', ';', '!', '?', '.'], c ∈ usedMarks ∧ c ≠ '\'' := by decide
    exact .one (cut_mark (hu c hc).1 (hu c hc).2) (sober_mark (hu c hc).1 (hu c hc).2)
  simp only [List.mem_cons, List.not_mem_nil, or_false] at hm
  rcases hm with rfl | rfl | rfl | rfl | rfl | rfl
  · exact .nil
  all_goals exact h _ (by decide)

theorem CutWords.pilcrow : CutWords db [c!"¶"] [c!"¶"] := by
  have hn : NoBlank c!"¶" := ⟨by decide, by decide⟩
  have ho : ∀ c ∈ c!"¶", odd c = false := by decide
  exact .one (cut_self hn (by decide) (by decide) (by decide) (by decide) ho)
    (sober_self hn ho (by decide) (by decide) (by decide) (by decide))

/-! ### Phrases -/

theorem token_head {p : Spec.Printed} (h : p.Ordinary db) {w : Str} (hw : w ∈ p.tokens) : w.head? ≠ some '༺' ∧ w.head? ≠ some '⦅' := by
  have hin : ∀ c ∈ w, c ∈ p.text := by
    intro c hc
    have : c ∈ p.tokens.flatten := List.mem_flatten.mpr ⟨w, hw, hc⟩
    rwa [Printed.tokens_flatten] at this
  exact ⟨fun e => Ordinary.no_marker h _ (by decide) (hin _ (List.mem_of_mem_head? e)),
    fun e => Ordinary.no_marker h _ (by decide) (hin _ (List.mem_of_mem_head? e))⟩

theorem sentToken_same {q br : List Str} {w : Str} (h : w.head? ≠ some '༺' ∧ w.head? ≠ some '⦅') :
    sentToken db (tokenize db) q br w = .ok [w] := by
  unfold sentToken
  rw [if_neg h.1, if_neg h.2]

theorem nestedToken_same {q : List Str} {w : Str} (h : w.head? ≠ some '༺') : nestedToken db (tokenize db) q w = .ok [w] := by
  unfold nestedToken
  rw [if_neg h]

theorem singles_head {m : Str} (hm : m ∈ [[], [','], [';'], ['!'], ['?'], ['.']]) : ∀ w ∈ Spec.Printed.singles m,
    w.head? ≠ some '༺' ∧ w.head? ≠ some '⦅' := by
  revert m
  decide

theorem quote_expand {q : List Str} {n : Nat} {x : Str} (hx : q[n]? = some x) :
    quoteBlock db (tokenize db) q (mk '༺' '༻' n) = .ok ([c!"\""] ++ tokenize db x ++ [c!"\""]) := by
  obtain ⟨hn, rfl⟩ := List.getElem?_eq_some_iff.mp hx
  unfold quoteBlock mk
  simp only [slice_inner, intOf_natRepr, block_index hn, bind, Except.bind, pure, Except.pure]

/-- The tokens of a phrase before the quotations are put back. -/
def phraseToks (ws : List Str) : Spec.Phrase → List Str
  | .word p => p.tokens
  | .quote _ _ => ws

section
variable {q : List Str} {x : Spec.Phrase} {ws : List Str} (h : x.Ordinary db) (hw : PhraseWords q x ws)
include h hw

theorem phrase_cut : CutWords db ws (phraseToks ws x) := by
  cases x with
  | word p =>
    obtain rfl : ws = [p.text] := hw
    exact .one (Ordinary.cut h.1) (Ordinary.sober h.1)
  | quote ps m =>
    obtain ⟨n, x, -, -, rfl⟩ := hw
    obtain ⟨-, -, -, h4, h5⟩ := h
    refine CutWords.append (a := [_]) (x := [_]) (.marker (.inl ⟨rfl, rfl⟩) n) ?_
    unfold Model.pilcrow
    split
    · rename_i hs
      rw [h5 hs]
      exact .pilcrow
    · exact .mark h4

theorem phrase_edge : WordEdge db x.text ws := by
  cases x with
  | word p =>
    obtain rfl : ws = [p.text] := hw
    exact ⟨by simp, .singleton _, by rintro w ⟨⟩ e; exact e, by rintro w ⟨⟩; exact .inl rfl⟩
  | quote ps m =>
    obtain ⟨n, x, -, -, rfl⟩ := hw
    obtain ⟨-, -, -, h4, h5⟩ := h
    have hl : (mk '༺' '༻' n).getLast? ≠ some '.' := by
      unfold mk
      rw [← List.cons_append, List.getLast?_concat]
      decide
    have hm : Spec.Printed.singles (pilcrow ps ++ m) = [] ∨ Spec.Printed.singles (pilcrow ps ++ m) = [c!"¶"] ∨
        ∃ c, m = [c] ∧ Spec.Printed.singles (pilcrow ps ++ m) = [[c]] := by
      unfold pilcrow
      split
      · rename_i hs
        rw [h5 hs]
        exact .inr (.inl rfl)
      · simp only [List.mem_cons, List.not_mem_nil, or_false] at h4
        rcases h4 with rfl | rfl | rfl | rfl | rfl | rfl
        · exact .inl rfl
        all_goals exact .inr (.inr ⟨_, rfl, rfl⟩)
    refine ⟨by simp, ?_, ?_, ?_⟩
    · rcases hm with e | e | ⟨c, -, e⟩ <;> rw [e]
      · exact .singleton _
      all_goals exact .cons_cons (fun e => absurd e hl) (.singleton _)
    · intro w hw hd
      rcases hm with e | e | ⟨c, e', e⟩ <;> rw [e] at hw
      · cases hw
        exact absurd hd hl
      · obtain rfl : c!"¶" = w := by simpa using hw
        exact absurd hd (by decide)
      · obtain rfl : [c] = w := by simpa using hw
        obtain rfl : c = '.' := by simpa using hd
        rw [Spec.Phrase.text, e', show ∀ a : Str, '"' :: (a ++ ['"', '.']) = ('"' :: (a ++ ['"'])) ++ ['.'] by simp,
          List.getLast?_concat]
    · rintro w ⟨⟩
      exact .inr (.inl rfl)

theorem phrase_nested (hs : ∀ ps m, x = .quote ps m → Spec.stops ps = false) :
    Expands (nestedToken db (tokenize db) q) (phraseToks ws x) x.tokens := by
  cases x with
  | word p => exact .same fun t ht => nestedToken_same (token_head h.1 ht).1
  | quote ps m =>
    obtain ⟨n, y, h1, h2, rfl⟩ := hw
    obtain ⟨k1, k2, k3, k4, k5⟩ := h
    have hy : y ≠ [] := by
      rintro rfl
      exact k1 (List.map_eq_nil_iff.mp h2.symm)
    have e : Spec.Phrase.tokens (.quote ps m) = ([c!"\""] ++ tokenize db y ++ [c!"\""]) ++ Spec.Printed.singles m := by
      rw [tokenize_printed (fun p hp => (k2 p hp).1) k3 hy h2]
      simp [Spec.Phrase.tokens]
    rw [e, phraseToks, pilcrow, if_neg (by simp [hs ps m rfl]), List.nil_append]
    refine .append (a := [_]) (.one ?_) (.same fun t ht => nestedToken_same (singles_head k4 t ht).1)
    unfold nestedToken
    rw [if_pos (by simp [mk]), quote_expand h1]

end

/-- The tokens that stay in the sentence. -/
def phraseBody (ws : List Str) : Spec.Phrase → List Str
  | .word p => p.tokens
  | .quote _ m => ws.take 1 ++ Spec.Printed.singles m

theorem marker_not_ender {st en : Char} (hst : st ∉ ['.', '?', '!', ':', '¶']) (n : Nat) : isEnder db (mk st en n) = false := by
  by_contra he
  have he : Spec.Ender (mk st en n) := (isEnder_iff db _).mp (by simpa using he)
  have hm : st ∈ mk st en n := by simp [mk]
  rcases he with ⟨-, h⟩ | h
  · exact hst (by have := h st hm; simp at this ⊢; tauto)
  · rw [h] at hm
    exact hst (by simp at hm ⊢; tauto)

/-- A punctuation mark after a quotation or a parenthesis. -/
theorem mark_step {m : Str} (hm : m ∈ [[], [','], [';'], ['!'], ['?'], ['.']]) (rest cur : List Str) :
    splitSentencesAux db (Spec.Printed.singles m ++ rest) cur =
      if m ∈ Spec.finalMarks then (cur ++ Spec.Printed.singles m) :: splitSentencesAux db rest []
      else splitSentencesAux db rest (cur ++ Spec.Printed.singles m) := by
  have hno : ∀ m ∈ ([[','], [';']] : List Str), isEnder db m = false := by
    intro m hm
    by_contra he
    have he : Spec.Ender m := (isEnder_iff db _).mp (by simpa using he)
    simp only [List.mem_cons, List.not_mem_nil, or_false] at hm
    rcases hm with rfl | rfl <;> rcases he with ⟨-, h⟩ | h <;> revert h <;> decide
  have hyes : ∀ m ∈ Spec.finalMarks, isEnder db m = true := by
    intro m hm
    rw [isEnder_iff]
    refine .inl ?_
    revert m
    decide
  simp only [List.mem_cons, List.not_mem_nil, or_false] at hm
  rcases hm with rfl | rfl | rfl | rfl | rfl | rfl
  · rw [if_neg (by decide)]
    simp [Spec.Printed.singles]
  · rw [if_neg (by decide)]
    exact splitAux_skip (by simpa [Spec.Printed.singles] using hno _ (by decide)) rest cur
  · rw [if_neg (by decide)]
    exact splitAux_skip (by simpa [Spec.Printed.singles] using hno _ (by decide)) rest cur
  all_goals
    rw [if_pos (by decide)]
    show splitSentencesAux db (_ :: rest) cur = _
    rw [splitSentencesAux, if_pos (hyes _ (by decide)), if_pos (by decide)]
    rfl

section
variable {q : List Str} {x : Spec.Phrase} {ws : List Str} (h : x.Ordinary db) (hw : PhraseWords q x ws)
include h hw

theorem phrase_step (ho : ∀ p, x = .word p → p.mark ∈ Spec.finalMarks → p.outer = []) (rest cur : List Str) :
    splitSentencesAux db (phraseToks ws x ++ rest) cur = if x.ends then (cur ++ phraseBody ws x) :: splitSentencesAux db rest []
      else splitSentencesAux db rest (cur ++ phraseBody ws x) := by
  cases x with
  | word p =>
    have := Ordinary.ends_step h.1 (Ordinary.no_marker h.1 _ (by decide)) (ho p rfl) rest cur
    simpa [phraseToks, phraseBody, Spec.Phrase.ends] using this
  | quote ps m =>
    obtain ⟨n, y, h1, h2, rfl⟩ := hw
    obtain ⟨k1, k2, k3, k4, k5⟩ := h
    have hmk : isEnder db (mk '༺' '༻' n) = false := marker_not_ender (by decide) n
    simp only [phraseToks, phraseBody, Spec.Phrase.ends, List.take_succ_cons, List.take_zero]
    rw [List.cons_append, ← List.singleton_append, splitAux_skip (by simpa using hmk)]
    unfold pilcrow
    by_cases hs : Spec.stops ps = true
    · have hp : isEnder db c!"¶" = true := by
        rw [isEnder_iff]
        exact .inr rfl
      simp only [hs, k5 hs, or_true, decide_true, if_true]
      show splitSentencesAux db (c!"¶" :: rest) _ = _
      rw [splitSentencesAux, if_pos hp, if_neg (by simp)]
      simp [Spec.Printed.singles]
    · rw [if_neg hs, List.nil_append, mark_step k4]
      simp [hs]

theorem phrase_expand (br : List Str) : Expands (sentToken db (tokenize db) q br) (phraseBody ws x) x.tokens := by
  cases x with
  | word p => exact .same fun t ht => sentToken_same (token_head h.1 ht)
  | quote ps m =>
    obtain ⟨n, y, h1, h2, rfl⟩ := hw
    obtain ⟨k1, k2, k3, k4, k5⟩ := h
    have hy : y ≠ [] := by
      rintro rfl
      exact k1 (List.map_eq_nil_iff.mp h2.symm)
    have e : Spec.Phrase.tokens (.quote ps m) = ([c!"\""] ++ tokenize db y ++ [c!"\""]) ++ Spec.Printed.singles m := by
      rw [tokenize_printed (fun p hp => (k2 p hp).1) k3 hy h2]
      simp [Spec.Phrase.tokens]
    rw [e]
    refine .append (.one ?_) (.same fun t ht => sentToken_same (singles_head k4 t ht))
    unfold sentToken
    rw [if_pos (by simp [mk]), quote_expand h1]

theorem phraseBody_ne : phraseBody ws x ≠ [] := by
  cases x with
  | word p =>
    have := Ordinary.text_ne h.1
    rw [← Printed.tokens_flatten] at this
    intro e
    exact this (by rw [show p.tokens = [] from e]; rfl)
  | quote ps m =>
    obtain ⟨n, y, h1, h2, rfl⟩ := hw
    simp [phraseBody]

end

end Model
