import Verif.Lemmas.SentLines

/-! Results of the sentencizer for all texts: tokens and sentences are not empty; texts without quotes and brackets are
cut line by line. -/

namespace Model
open Py

theorem markWords_ne {st en : Char} {ms : List (Str × Str)} {k : Nat} {last : Str} (h : ms ≠ [] ∨ splitWs last ≠ []) :
    markWords st en k ms last ≠ [] := by
  cases ms with
  | nil => exact h.resolve_left (by simp)
  | cons m ms =>
    obtain ⟨b, x⟩ := m
    simp [markWords]

/-- What a text with markers has to do with the text it was made from, for all texts. -/
structure Cut (st en : Char) (b b' : Str) : Prop where
  chars : ∀ c ∈ b', c ∈ b ∨ c = st ∨ c = en ∨ c = ' ' ∨ c.isDigit = true
  refl : Refl b' b
  words : splitWs b ≠ [] → splitWs b' ≠ []

section
variable {op cl st en : Char} {r : Re}
variable (hr : r = .seq (.cls ⟨false, false, [.ch op]⟩)
      (.seq (.rep 0 false (.cls ⟨false, false, [.dot]⟩)) (.cls ⟨false, false, [.ch cl]⟩))) (hnl : cl ≠ '\n')
variable (hst : isDelim st = true ∧ isSpace st = false) (hen : isDelim en = true ∧ isSpace en = false)
include hr hnl hst hen

theorem findBlocks_cut (db : CharDB) {b : Str} (ctr : List Str) (hb : '\n' ∉ b) :
    ∃ xs, (findBlocks db r st en b ctr).2 = ctr ++ xs ∧ (∀ x ∈ xs, op :: (x ++ [cl]) <:+: b) ∧
    Cut st en b (findBlocks db r st en b ctr).1 := by
  obtain ⟨ms, last, h1, -, -, h4, h5⟩ := findBlocks_exact db hr hnl (st := st) (en := en) b ctr hb
  obtain ⟨i1, i2⟩ := assembled_infix (op := op) (cl := cl) ms last
  have hws : splitWs (findBlocks db r st en b ctr).1 = markWords st en ctr.length ms last := by
    rw [h5, multiSpaces_words, marked_words hst.2 hen.2]
  refine ⟨ms.map Prod.snd, h4, ?_, ?_, ?_, ?_⟩
  · intro x hx
    obtain ⟨m, hm, rfl⟩ := List.mem_map.mp hx
    rw [h1]
    clear h1 h4 h5 i1 i2 hws hx
    induction ms with
    | nil => cases hm
    | cons m' ms ih =>
      rcases List.mem_cons.mp hm with rfl | hm
      · exact ⟨m.1, Spec.assembled op cl ms last, by simp [Spec.assembled]⟩
      · refine (ih hm).trans ⟨m'.1 ++ [op] ++ m'.2 ++ [cl], [], by simp [Spec.assembled]⟩
  · intro c hn
    rw [h5] at hn
    rcases Re.sub_mem hn with hn | hn
    · have key : ∀ (ms : List (Str × Str)) (k : Nat), c ∈ Spec.marked st en natRepr k ms last →
          (∃ m ∈ ms, c ∈ m.1) ∨ c ∈ last ∨ c = st ∨ c = en ∨ c = ' ' ∨ c.isDigit = true := by
        intro ms
        induction ms with
        | nil => intro k h; exact .inr (.inl h)
        | cons m ms ih =>
          intro k h
          simp only [Spec.marked, List.mem_append, List.mem_cons, List.not_mem_nil, or_false] at h
          rcases h with (((h | h | h) | h) | h | h) | h
          · exact .inl ⟨m, by simp, h⟩
          · simp [h]
          · simp [h]
          · simp [natRepr_isDigit k _ h]
          · simp [h]
          · simp [h]
          · rcases ih (k + 1) h with ⟨m', hm', h⟩ | h
            · exact .inl ⟨m', by simp [hm'], h⟩
            · exact .inr h
      rcases key ms _ hn with ⟨m, hm, h⟩ | h | h
      · exact .inl (h1 ▸ (i1 m hm).1.subset h)
      · exact .inl (h1 ▸ i2.subset h)
      · exact .inr h
    · simp only [List.mem_singleton, Tp.lit.injEq] at hn
      simp [hn]
  · refine Refl.of_words fun v hv => ?_
    rw [hws] at hv
    rcases mem_markWords ms _ last v hv with ⟨m, hm, h⟩ | h | ⟨i, -, rfl⟩
    · exact Refl.of_infix ((splitWs_infix h).trans (h1 ▸ (i1 m hm).1))
    · exact Refl.of_infix ((splitWs_infix h).trans (h1 ▸ i2))
    · intro w hw hi
      exact absurd hi (mk_no_shape hst.1 hen.1 hw)
  · intro hne
    rw [hws]
    apply markWords_ne
    by_cases hms : ms = []
    · right
      subst hms
      rw [h1] at hne
      exact hne
    · exact .inl hms

theorem findBlocksAll_cut (db : CharDB) (hs : st ≠ '\n' ∧ en ≠ '\n') : ∀ (bs ctr : List Str), (∀ b ∈ bs, '\n' ∉ b) →
    ∃ xs, (findBlocksAll db r st en bs ctr).2 = ctr ++ xs ∧ (∀ x ∈ xs, ∃ b ∈ bs, op :: (x ++ [cl]) <:+: b) ∧
    List.Forall₂ (Cut st en) bs (findBlocksAll db r st en bs ctr).1
  | [], ctr, _ => ⟨[], by simp [findBlocksAll], by simp, .nil⟩
  | b :: bs, ctr, h => by
    obtain ⟨xs, h1, h2, h3⟩ := findBlocks_cut hr hnl hst hen db ctr (h b (by simp))
    obtain ⟨ys, h4, h5, h6⟩ := findBlocksAll_cut db hs bs (ctr ++ xs) fun b hb => h b (by simp [hb])
    have e : findBlocksAll db r st en (b :: bs) ctr = ((findBlocks db r st en b ctr).1 :: (findBlocksAll db r st en bs (ctr ++ xs)).1,
        (findBlocksAll db r st en bs (ctr ++ xs)).2) := by
      rw [findBlocksAll, ← h1]
    rw [e]
    refine ⟨xs ++ ys, by rw [h4, List.append_assoc], ?_, .cons h3 h6⟩
    intro x hx
    rcases List.mem_append.mp hx with hx | hx
    · exact ⟨b, by simp, h2 x hx⟩
    · obtain ⟨b', hb', h⟩ := h5 x hx
      exact ⟨b', by simp [hb'], h⟩

end

theorem Cut.nl {st en : Char} {b b' : Str} (h : Cut st en b b') (hs : st ≠ '\n' ∧ en ≠ '\n') (hb : '\n' ∉ b) : '\n' ∉ b' := by
  intro hc
  rcases h.chars _ hc with h | h | h | h | h
  · exact hb h
  · exact hs.1 h.symm
  · exact hs.2 h.symm
  · exact absurd h (by decide)
  · exact absurd h (by decide)

theorem index_mem {α : Type} {l : List α} {i : Int} {x : α} (h : index l i = .ok x) : x ∈ l := by
  unfold index at h
  simp only at h
  generalize (if i < 0 then i + (l.length : Int) else i) = j at h
  split at h
  · cases h
  · rcases hg : l[j.toNat]? with _ | y
    · rw [hg] at h; cases h
    · rw [hg] at h
      cases h
      exact List.mem_of_getElem? hg

theorem mapM_forall₂ {α β : Type} {f : α → Except PyErr β} : ∀ {l : List α} {r : List β}, l.mapM f = .ok r →
    List.Forall₂ (fun x y => f x = .ok y) l r
  | [], r, h => by cases h; exact .nil
  | a :: l, r, h => by
    rw [List.mapM_cons] at h
    rcases ha : f a with e | b
    · rw [ha] at h; cases h
    · rw [ha] at h
      rcases hl : l.mapM f with e | bs
      · rw [hl] at h; cases h
      · rw [hl] at h
        cases h
        exact .cons ha (mapM_forall₂ hl)

/-- Tokens of a text that is not empty. -/
theorem tokenize_tokens (db : CharDB) {text : Str} (h : text ≠ []) : ∀ w ∈ tokenize db text, Spec.IsToken w := by
  obtain ⟨p, -, -, e⟩ := tokenize_eq db h
  rw [e]
  exact splitWs_noBlank _

theorem mem_forall₂ {α β : Type} {R : α → β → Prop} {l : List α} {r : List β} (h : List.Forall₂ R l r) {y : β} (hy : y ∈ r) :
    ∃ x ∈ l, R x y := by
  induction h with
  | nil => cases hy
  | cons hab _ ih =>
    rcases List.mem_cons.mp hy with rfl | hy
    · exact ⟨_, by simp, hab⟩
    · obtain ⟨x, hx, h⟩ := ih hy
      exact ⟨x, by simp [hx], h⟩

section
variable {db : CharDB} {quotes brackets : List Str}

theorem quoteBlock_tokens (hq : ∀ q ∈ quotes, q ≠ []) {t : Str} {p : List Str}
    (h : quoteBlock db (tokenize db) quotes t = .ok p) : p ≠ [] ∧ ∀ w ∈ p, Spec.IsToken w := by
  unfold quoteBlock at h
  rcases hi : intOf db (slice t 1 (-1)) with e | i
  · rw [hi] at h; cases h
  · rw [hi] at h
    rcases hx : index quotes i with e | q
    · simp only [bind, Except.bind, hx] at h; cases h
    · simp only [bind, Except.bind, hx, pure, Except.pure, Except.ok.injEq] at h
      subst h
      refine ⟨by simp, ?_⟩
      intro w hw
      have hd : Spec.IsToken c!"\"" := ⟨by decide, by decide⟩
      simp only [List.mem_append, List.mem_singleton] at hw
      rcases hw with (rfl | hw) | rfl
      · exact hd
      · exact tokenize_tokens db (hq q (index_mem hx)) w hw
      · exact hd

theorem sentToken_tokens (hq : ∀ q ∈ quotes, q ≠ []) (hb : ∀ q ∈ brackets, q ≠ []) {t : Str} (ht : Spec.IsToken t) {p : List Str}
    (h : sentToken db (tokenize db) quotes brackets t = .ok p) : p ≠ [] ∧ ∀ w ∈ p, Spec.IsToken w := by
  unfold sentToken at h
  split at h
  · exact quoteBlock_tokens hq h
  split at h
  · rcases hi : intOf db (slice t 1 (-1)) with e | i
    · rw [hi] at h; cases h
    · rw [hi] at h
      rcases hx : index brackets i with e | q
      · simp only [bind, Except.bind, hx] at h; cases h
      · rcases hm : (tokenize db q).mapM (nestedToken db (tokenize db) quotes) with e | inner
        · simp only [bind, Except.bind, hx, hm] at h; cases h
        · simp only [bind, Except.bind, hx, hm, pure, Except.pure, Except.ok.injEq] at h
          subst h
          refine ⟨by simp, ?_⟩
          intro w hw
          simp only [List.mem_append, List.mem_singleton, List.mem_flatten] at hw
          rcases hw with (rfl | ⟨p, hp, hw⟩) | rfl
          · exact ⟨by decide, by decide⟩
          · obtain ⟨u, hu, hp⟩ := mem_forall₂ (mapM_forall₂ hm) hp
            unfold nestedToken at hp
            split at hp
            · exact (quoteBlock_tokens hq hp).2 w hw
            · cases hp
              rw [List.mem_singleton] at hw
              subst hw
              exact tokenize_tokens db (hb q (index_mem hx)) _ hu
          · exact ⟨by decide, by decide⟩
  · cases h
    exact ⟨by simp, by simpa using ht⟩

end

theorem Pil.super {a b : Str} (h : Pil a b) : ∀ c ∈ a, c ∈ b := by
  induction h with
  | nil => simp
  | keep d _ ih =>
    intro c hc
    rcases List.mem_cons.mp hc with rfl | hc
    · simp
    · simp [ih c hc]
  | add _ ih =>
    intro c hc
    simp only [List.mem_cons] at hc ⊢
    rcases hc with rfl | rfl | hc
    · simp
    · simp
    · simp [ih c hc]

theorem splitWs_ne {t : Str} : splitWs t ≠ [] ↔ ∃ c ∈ t, isSpace c = false := by
  constructor
  · intro h
    by_contra hn
    refine h (splitWs_spaces fun c hc => ?_)
    rcases hs : isSpace c with _ | _
    · exact absurd ⟨c, hc, hs⟩ hn
    · rfl
  · rintro ⟨c, hc, hs⟩ he
    have : c ∈ Spec.ink t := List.mem_filter.mpr ⟨hc, by simp [hs]⟩
    rw [← ink_flatten, he] at this
    cases this

/-- Sanitization keeps a text that is not blank so. -/
theorem sent_sanitize_ne (db : CharDB) {t : Str} (h : splitWs t ≠ []) : splitWs (sanitize db sentSanitization t) ≠ [] := by
  rw [splitWs_sanitize]
  rw [← splitWs_strip, splitWs_ne] at h
  obtain ⟨c, hc, hs⟩ := h
  exact splitWs_ne.mpr ⟨c, (sent_pil db _).super c hc, hs⟩

/-- A text that neither begins nor ends with white space has no blank line. -/
theorem lines_ne {text : Str} {ls : List Str} (h : Spec.Lines text ls) (h1 : text.head?.any fun c => !isSpace c)
    (h2 : text.getLast?.any fun c => !isSpace c) : ∀ l ∈ ls, splitWs l ≠ [] := by
  induction h with
  | last l _ =>
    intro l' hl'
    rw [List.mem_singleton] at hl'
    rw [hl']
    clear hl'
    cases l with
    | nil => cases h1
    | cons c l => exact splitWs_ne.mpr ⟨c, by simp, by simpa using h1⟩
  | cut l gap rest ls _ _ hg hb hr _ ih =>
    obtain ⟨d, hd, -⟩ := hb
    have hgne : gap ≠ [] := List.ne_nil_of_mem hd
    have hl : splitWs l ≠ [] := by
      cases l with
      | nil =>
        exfalso
        cases gap with
        | nil => exact hgne rfl
        | cons g gap => simp [hg g (by simp)] at h1
      | cons c l => exact splitWs_ne.mpr ⟨c, by simp, by simpa using h1⟩
    have hrne : rest ≠ [] := by
      rintro rfl
      rw [List.append_nil, List.getLast?_append_of_ne_nil _ hgne, List.getLast?_eq_some_getLast hgne] at h2
      simp [hg _ (List.getLast_mem hgne)] at h2
    rw [List.getLast?_append_of_ne_nil _ hrne] at h2
    intro l' hl'
    rcases List.mem_cons.mp hl' with rfl | hl'
    · exact hl
    · refine ih ?_ h2 l' hl'
      cases rest with
      | nil => exact absurd rfl hrne
      | cons c rest => simpa using hr

/-- Whatever the text: what the sentencizer returns consists of tokens. -/
theorem sentencize_tokens (db : CharDB) {text : Str} {r : List (List Str)} (h : sentencize db (tokenize db) text = .ok r)
    (h1 : text.head?.any fun c => !isSpace c) (h2 : text.getLast?.any fun c => !isSpace c)
    (hqq : ¬ c!"\"\"" <:+: text) (hbb : ¬ c!"()" <:+: text) :
    (∀ s ∈ r, ∀ t ∈ s, Spec.IsToken t) ∧ (¬ c!".\"" <:+: text → '¶' ∉ text → ∀ s ∈ r, s ≠ []) := by
  have n1 := (newline_split db text).1
  have n2 := lines_ne (newline_lines db text) h1 h2
  unfold sentencize at h
  generalize hbs : (reNewline.split db text).map (sanitize db sentSanitization) = bs0 at h
  replace h : List.mapM (fun sent => (sent.mapM (sentToken db (tokenize db) (findBlocksAll db reQuote '༺' '༻' bs0 []).2
          (findBlocksAll db reBracket '⦅' '⦆' (findBlocksAll db reQuote '༺' '༻' bs0 []).1 []).2)) >>= fun parts =>
        pure parts.flatten) ((findBlocksAll db reBracket '⦅' '⦆' (findBlocksAll db reQuote '༺' '༻' bs0 []).1 []).1.flatMap
      fun block => splitSentences db (tokenize db block)) = Except.ok (ε := PyErr) r := h
  have hbs0 : ∀ b ∈ bs0, '\n' ∉ b ∧ Refl b text ∧ splitWs b ≠ [] ∧ (¬ c!".\"" <:+: text → '¶' ∉ text → '¶' ∉ b) := by
    intro b hb
    rw [← hbs, List.mem_map] at hb
    obtain ⟨x, hx, rfl⟩ := hb
    obtain ⟨s1, s2, -, -, s5⟩ := sent_block db x
    refine ⟨s1, s2.trans (Refl.of_infix (n1 x hx)), sent_sanitize_ne db (n2 x hx), fun hd hp hc => ?_⟩
    obtain ⟨w, hw, hcw⟩ : ∃ w ∈ splitWs (sanitize db sentSanitization x), '¶' ∈ w := by
      have : '¶' ∈ Spec.ink (sanitize db sentSanitization x) := List.mem_filter.mpr ⟨hc, by decide⟩
      rw [← ink_flatten] at this
      exact List.mem_flatten.mp this
    rw [splitWs_sanitize, (sent_pil db _).none] at hw
    · exact hp ((n1 x hx).subset (strip_chars (splitWs_chars hw hcw)))
    · intro hi
      obtain ⟨u, hu, h2⟩ := infix_word (by decide) (by decide) _ _ (Nat.le_refl _) hi
      rw [splitWs_strip] at hu
      exact hd ((h2.trans (splitWs_infix hu)).trans (n1 x hx))
  obtain ⟨quotes, q1, q2, q3⟩ := findBlocksAll_cut (r := reQuote) (op := '"') (cl := '"') (st := '༺') (en := '༻') rfl
    (by decide) (by decide) (by decide) db (by decide) bs0 [] fun b hb => (hbs0 b hb).1
  rw [List.nil_append] at q1
  generalize hf1 : findBlocksAll db reQuote '༺' '༻' bs0 [] = f1 at q1 q3 h
  obtain ⟨bs1, ctr1⟩ := f1
  simp only at q1 q3 h
  subst q1
  have hbs1 : ∀ b ∈ bs1, '\n' ∉ b ∧ Refl b text ∧ splitWs b ≠ [] ∧ (¬ c!".\"" <:+: text → '¶' ∉ text → '¶' ∉ b) := by
    intro b hb
    obtain ⟨b0, hb0, hm⟩ := mem_forall₂ q3 hb
    obtain ⟨a1, a2, a3, a4⟩ := hbs0 b0 hb0
    refine ⟨hm.nl (by decide) a1, hm.refl.trans a2, hm.words a3, fun x y hc => ?_⟩
    rcases hm.chars _ hc with h | h | h | h | h
    · exact a4 x y h
    · exact absurd h (by decide)
    · exact absurd h (by decide)
    · exact absurd h (by decide)
    · exact absurd h (by decide)
  obtain ⟨brackets, b1, b2, b3⟩ := findBlocksAll_cut (r := reBracket) (op := '(') (cl := ')') (st := '⦅') (en := '⦆') rfl
    (by decide) (by decide) (by decide) db (by decide) bs1 [] fun b hb => (hbs1 b hb).1
  rw [List.nil_append] at b1
  generalize hf2 : findBlocksAll db reBracket '⦅' '⦆' bs1 [] = f2 at b1 b3 h
  obtain ⟨bs2, ctr2⟩ := f2
  simp only at b1 b3 h
  subst b1
  have hbs2 : ∀ b ∈ bs2, b ≠ [] ∧ (¬ c!".\"" <:+: text → '¶' ∉ text → '¶' ∉ b) := by
    intro b hb
    obtain ⟨b0, hb0, hm⟩ := mem_forall₂ b3 hb
    obtain ⟨-, -, a3, a4⟩ := hbs1 b0 hb0
    refine ⟨?_, fun x y hc => ?_⟩
    · rintro rfl
      exact hm.words a3 rfl
    · rcases hm.chars _ hc with h | h | h | h | h
      · exact a4 x y h
      · exact absurd h (by decide)
      · exact absurd h (by decide)
      · exact absurd h (by decide)
      · exact absurd h (by decide)
  have hq : ∀ q ∈ ctr1, q ≠ [] := by
    rintro q hq rfl
    obtain ⟨b, hb, hi⟩ := q2 _ hq
    exact hqq ((hbs0 b hb).2.1 c!"\"\"" ⟨by decide, by decide, by decide⟩ hi)
  have hbr : ∀ q ∈ ctr2, q ≠ [] := by
    rintro q hq rfl
    obtain ⟨b, hb, hi⟩ := b2 _ hq
    exact hbb ((hbs1 b hb).2.1 c!"()" ⟨by decide, by decide, by decide⟩ hi)
  have hr := mapM_forall₂ h
  have hsent : ∀ s ∈ r, ∃ b ∈ bs2, ∃ sent ∈ splitSentences db (tokenize db b), ∃ ps,
      sent.mapM (sentToken db (tokenize db) ctr1 ctr2) = .ok ps ∧ s = ps.flatten := by
    intro s hs
    obtain ⟨sent, hsent, e⟩ := mem_forall₂ hr hs
    obtain ⟨b, hb, hsb⟩ := List.mem_flatMap.mp hsent
    rcases hm : sent.mapM (sentToken db (tokenize db) ctr1 ctr2) with e' | ps
    · simp only [bind, Except.bind, hm] at e; cases e
    · simp only [bind, Except.bind, hm, pure, Except.pure, Except.ok.injEq] at e
      exact ⟨b, hb, sent, hsb, ps, hm, e.symm⟩
  have htok : ∀ b ∈ bs2, ∀ sent ∈ splitSentences db (tokenize db b), ∀ t ∈ sent, t ∈ tokenize db b := by
    intro b hb sent hs t ht
    have hmem : t ∈ (splitSentences db (tokenize db b)).flatten := List.mem_flatten.mpr ⟨sent, hs, ht⟩
    rw [splitSentences_flatten, List.mem_filter] at hmem
    exact hmem.1
  constructor
  · intro s hs t ht
    obtain ⟨b, hb, sent, hsb, ps, hps, rfl⟩ := hsent s hs
    obtain ⟨p, hp, ht⟩ := List.mem_flatten.mp ht
    obtain ⟨u, hu, hp⟩ := mem_forall₂ (mapM_forall₂ hps) hp
    exact (sentToken_tokens hq hbr (tokenize_tokens db (hbs2 b hb).1 u (htok b hb sent hsb u hu)) hp).2 t ht
  · intro hd hp s hs
    obtain ⟨b, hb, sent, hsb, ps, hps, rfl⟩ := hsent s hs
    have hne : sent ≠ [] := by
      obtain ⟨parts, last, e1, -, -, e2⟩ := splitSentencesAux_spec db (tokenize db b) [] (by simp)
      have hpil : ∀ p ∈ parts, p.2 ≠ c!"¶" := by
        intro p hpp e
        have hmem : c!"¶" ∈ tokenize db b := by
          rw [List.nil_append] at e1
          rw [e1]
          refine List.mem_append_left _ (List.mem_flatMap.mpr ⟨p, hpp, ?_⟩)
          rw [e]
          simp
        rcases tokenize_chars db b _ hmem '¶' (by simp) with h | h
        · exact (hbs2 b hb).2 hd hp h
        · revert h; decide
      have hsb' : sent ∈ splitSentencesAux db (tokenize db b) [] := hsb
      rw [e2, List.mem_append] at hsb'
      rcases hsb' with h | h
      · obtain ⟨p, hpp, rfl⟩ := List.mem_map.mp h
        rw [if_neg (hpil p hpp)]
        simp
      · split at h
        · cases h
        · rw [List.mem_singleton] at h
          subst h
          assumption
    obtain ⟨t, sent', rfl⟩ := List.exists_cons_of_ne_nil hne
    have hf := mapM_forall₂ hps
    cases hf with
    | cons ha hrest =>
      have := (sentToken_tokens hq hbr (tokenize_tokens db (hbs2 b hb).1 t (htok b hb _ hsb t (by simp))) ha).1
      intro e
      rw [List.flatten_cons, List.append_eq_nil_iff] at e
      exact this e.1

/-! ### Texts without quotes and brackets -/

theorem multiSpaces_id (db : CharDB) (t : Str) (h : Spec.SingleSpaced t) : reMultiSpaces.sub db [.lit ' '] t = t := by
  have hr : reMultiSpaces = .rep 1 true (.cls ⟨false, false, [.space]⟩) := rfl
  have key := Re.sub_induct (db := db) (r := reMultiSpaces) (tpl := [.lit ' '])
    (P := fun pre rest out => Spec.SingleSpaced (pre.reverse ++ rest) → out = rest) (by intros; rfl)
    (by
      intro pre c cs out _ ih hs
      rw [ih (by simpa using hs)])
    (by
      intro pre w u out _ hu hw he ih hs
      have hsp : ∀ c ∈ w, isSpace c = true := by
        intro c hc
        rw [hr] at hu
        rw [← spaceCls_test db]
        exact rep_cls_chars (by omega) hu he c hc
      have hpre := he.pre
      have hw1 : w = [' '] := by
        obtain ⟨c, w', rfl⟩ := List.exists_cons_of_ne_nil hw
        obtain ⟨rfl, -, d, b', e, hd⟩ := hs pre.reverse c (w' ++ u.rest) (by simp) (hsp c (by simp))
        cases w' with
        | nil => rfl
        | cons x w' =>
          simp only [List.cons_append, List.cons.injEq] at e
          rw [← e.1, hsp x (by simp)] at hd
          cases hd
      subst hw1
      rw [ih (by rw [hpre]; simpa using hs)]
      rfl) t
  exact key h

theorem sanitize_single (db : CharDB) (rules : List SubRule) (t : Str) : Spec.SingleSpaced (sanitize db rules t) :=
  singleSpaced_join _ (splitWs_noBlank _)

/-- Nothing is cut out of a text without opening characters. -/
theorem findBlocks_none {op cl st en : Char} {r : Re} (hr : r = .seq (.cls ⟨false, false, [.ch op]⟩)
      (.seq (.rep 0 false (.cls ⟨false, false, [.dot]⟩)) (.cls ⟨false, false, [.ch cl]⟩))) (hnl : cl ≠ '\n') (db : CharDB)
    {b : Str} (ctr : List Str) (hb : '\n' ∉ b) (hop : op ∉ b) (hs : Spec.SingleSpaced b) : findBlocks db r st en b ctr = (b, ctr) := by
  obtain ⟨ms, last, h1, -, -, h4, h5⟩ := findBlocks_exact db hr hnl (st := st) (en := en) b ctr hb
  cases ms with
  | cons m ms => exact absurd (by rw [h1]; simp [Spec.assembled]) hop
  | nil =>
    have e : last = b := h1.symm
    subst e
    refine Prod.ext ?_ ?_
    · rw [h5]
      exact multiSpaces_id db _ hs
    · simpa using h4

theorem findBlocksAll_none {op cl st en : Char} {r : Re} (hr : r = .seq (.cls ⟨false, false, [.ch op]⟩)
      (.seq (.rep 0 false (.cls ⟨false, false, [.dot]⟩)) (.cls ⟨false, false, [.ch cl]⟩))) (hnl : cl ≠ '\n') (db : CharDB)
    (ctr : List Str) : ∀ (bs : List Str), (∀ b ∈ bs, '\n' ∉ b ∧ op ∉ b ∧ Spec.SingleSpaced b) →
      findBlocksAll db r st en bs ctr = (bs, ctr)
  | [], _ => rfl
  | b :: bs, h => by
    obtain ⟨h1, h2, h3⟩ := h b (by simp)
    rw [findBlocksAll, findBlocks_none hr hnl db ctr h1 h2 h3]
    simp only
    rw [findBlocksAll_none hr hnl db ctr bs fun b hb => h b (by simp [hb])]

/-- Without quotes, brackets and marker characters: line by line, and no exception. -/
theorem sentencize_plain (db : CharDB) {text : Str} (h : ∀ c ∈ ['"', '(', '༺', '⦅'], c ∉ text) :
    sentencize db (tokenize db) text = .ok ((reNewline.split db text).flatMap fun l =>
      splitSentences db (tokenize db (sanitize db sentSanitization l))) := by
  have n1 := (newline_split db text).1
  have hch : ∀ l ∈ reNewline.split db text, ∀ c ∈ ['"', '(', '༺', '⦅'], c ∉ sanitize db sentSanitization l := by
    intro l hl c hc hcl
    rcases (sent_block db l).2.2.1 c hcl with h' | rfl | rfl
    · exact h c hc ((n1 l hl).subset h')
    · revert hc; decide
    · revert hc; decide
  have hall : ∀ b ∈ (reNewline.split db text).map (sanitize db sentSanitization), '\n' ∉ b ∧ Spec.SingleSpaced b ∧
      ∀ c ∈ ['"', '(', '༺', '⦅'], c ∉ b := by
    intro b hb
    obtain ⟨l, hl, rfl⟩ := List.mem_map.mp hb
    exact ⟨(sent_block db l).1, sanitize_single db _ l, hch l hl⟩
  unfold sentencize
  simp only
  rw [findBlocksAll_none (r := reQuote) (op := '"') (cl := '"') rfl (by decide) db [] _ fun b hb =>
    ⟨(hall b hb).1, (hall b hb).2.2 _ (by decide), (hall b hb).2.1⟩]
  simp only
  rw [findBlocksAll_none (r := reBracket) (op := '(') (cl := ')') rfl (by decide) db [] _ fun b hb =>
    ⟨(hall b hb).1, (hall b hb).2.2 _ (by decide), (hall b hb).2.1⟩]
  simp only
  rw [List.flatMap_map]
  have key : ∀ (sents : List (List Str)), (∀ s ∈ sents, ∀ t ∈ s, t.head? ≠ some '༺' ∧ t.head? ≠ some '⦅') →
      sents.mapM (fun sent => do
        let parts ← sent.mapM (sentToken db (tokenize db) [] [])
        return parts.flatten) = Except.ok (ε := PyErr) sents := by
    intro sents hs
    rw [mapM_ok _ id]
    · simp
    · intro s hss
      rw [mapM_ok _ (fun t => [t])]
      · simp only [bind, Except.bind, pure, Except.pure, id]
        congr 1
        clear hss
        induction s with
        | nil => rfl
        | cons t s ih => simp [ih]
      · intro t ht
        obtain ⟨a, b⟩ := hs s hss t ht
        unfold sentToken
        rw [if_neg a, if_neg b]
  refine key _ ?_
  intro s hs t ht
  obtain ⟨l, hl, hs⟩ := List.mem_flatMap.mp hs
  have hmem : t ∈ (splitSentences db (tokenize db (sanitize db sentSanitization l))).flatten := List.mem_flatten.mpr ⟨s, hs, ht⟩
  rw [splitSentences_flatten, List.mem_filter] at hmem
  have hno : ∀ c ∈ ['༺', '⦅'], t.head? ≠ some c := by
    intro c hc e
    have hct : c ∈ t := List.mem_of_mem_head? e
    rcases tokenize_chars db _ t hmem.1 c hct with h' | h'
    · exact hch l hl c (by simp at hc ⊢; tauto) h'
    · clear hct e
      revert c
      decide
  exact ⟨hno _ (by simp), hno _ (by simp)⟩

/-- A line is its only line. -/
theorem split_line (db : CharDB) {text : Str} {ls : List Str} (h : Spec.Lines text ls) :
    ∀ l ∈ ls, reNewline.split db l = [l] := by
  intro l hl
  refine lines_unique (newline_lines db l) (.last l ?_)
  induction h with
  | last l' h =>
    rw [List.mem_singleton] at hl
    subst hl
    exact h
  | cut l' gap rest ls h _ _ _ _ _ ih =>
    rcases List.mem_cons.mp hl with rfl | hl
    · exact h
    · exact ih hl

end Model
