import Verif.Lemmas.Quotations

/-! Parentheses of a line are replaced by numbered markers. -/

namespace Model
open Py

variable {db : CharDB}

/-- The words of a chunk, with markers for the quotations and parentheses. -/
def ChunkWords (q br : List Str) : Spec.Chunk → List Str → Prop
  | .phrase x, ws => PhraseWords q x ws
  | .paren xs m, ws => ∃ n y wss, br[n]? = some y ∧ List.Forall₂ (PhraseWords q) xs wss ∧ splitWs y = wss.flatten ∧
      ws = mk '⦅' '⦆' n :: Spec.Printed.singles m

def NoParen (w : Str) : Prop := '(' ∉ w ∧ ')' ∉ w

theorem mk_chars {st en : Char} {n : Nat} {c : Char} (h : c ∈ mk st en n) : c = st ∨ c = en ∨ c.isDigit = true := by
  simp only [mk, List.mem_cons, List.mem_append, List.not_mem_nil, or_false] at h
  rcases h with h | h | h
  · exact .inl h
  · exact .inr (.inr (natRepr_isDigit _ _ h))
  · exact .inr (.inl h)

theorem mk_noParen (n : Nat) : NoParen (mk '༺' '༻' n) := by
  constructor <;> intro h <;> rcases mk_chars h with h | h | h <;> revert h <;> decide

theorem marks_noParen {m : Str} (hm : m ∈ [[], [','], [';'], ['!'], ['?'], ['.']]) : ∀ w ∈ Spec.Printed.singles m, NoParen w := by
  have h : ∀ m ∈ [[], [','], [';'], ['!'], ['?'], ['.']], ∀ w ∈ Spec.Printed.singles m, '(' ∉ w ∧ ')' ∉ w := by decide
  exact h m hm

theorem PhraseWords.noParen {q : List Str} {x : Spec.Phrase} {ws : List Str} (h : x.Ordinary db) (hw : PhraseWords q x ws) :
    ∀ w ∈ ws, NoParen w := by
  cases x with
  | word p =>
    obtain rfl : ws = [p.text] := hw
    intro w hw
    obtain rfl := List.mem_singleton.mp hw
    exact ⟨h.2 _ (by decide), h.2 _ (by decide)⟩
  | quote ps m =>
    obtain ⟨n, x, -, -, rfl⟩ := hw
    obtain ⟨-, -, -, h4, -⟩ := h
    intro w hw
    rcases List.mem_cons.mp hw with rfl | hw
    · exact mk_noParen n
    · unfold pilcrow Spec.Printed.singles at hw
      rw [List.map_append, List.mem_append] at hw
      rcases hw with hw | hw
      · split at hw
        · obtain rfl := List.mem_singleton.mp hw
          exact ⟨by decide, by decide⟩
        · cases hw
      · exact marks_noParen h4 w hw

theorem phrases_noParen {q : List Str} {xs : List Spec.Phrase} {wss : List (List Str)} (h : ∀ x ∈ xs, x.Ordinary db)
    (hw : List.Forall₂ (PhraseWords q) xs wss) : ∀ w ∈ wss.flatten, NoParen w := by
  induction hw with
  | nil => simp
  | cons h1 _ ih =>
    intro w hw
    rw [List.flatten_cons, List.mem_append] at hw
    rcases hw with hw | hw
    · exact PhraseWords.noParen (h _ (by simp)) h1 w hw
    · exact ih (fun x hx => h x (by simp [hx])) w hw

def bmk (k : Nat) : List Str := [mk '⦅' '⦆' k]

theorem chunk_segs {q : List Str} {x : Spec.Chunk} {ws : List Str} (h : x.Ordinary db) (hw : QuoteWords q x ws) :
    ∃ sg : List (Bool × List Str), segFlat c!"(" c!")" sg = ws ∧ (∀ s ∈ sg, ∀ w ∈ s.2, NoParen w) ∧
      ∀ pre ys post, ys.map splitWs = segParts sg → ChunkWords q (pre ++ (ys ++ post)) x (segMark bmk pre.length sg) := by
  cases x with
  | phrase x =>
    refine ⟨[(false, ws)], by simp [segFlat], ?_, ?_⟩
    · intro s hs
      obtain rfl := List.mem_singleton.mp hs
      exact PhraseWords.noParen h.1 hw
    · intro pre ys post _
      rw [segMark, segMark, List.append_nil]
      exact hw
  | paren xs m =>
    obtain ⟨wss, h1, rfl⟩ := hw
    obtain ⟨-, h2, -, h4⟩ := h
    refine ⟨[(true, wss.flatten), (false, Spec.Printed.singles m)], by simp [segFlat], ?_, ?_⟩
    · intro s hs
      simp only [List.mem_cons, List.not_mem_nil, or_false] at hs
      rcases hs with rfl | rfl
      · exact phrases_noParen (fun x hx => (h2 x hx).1) h1
      · exact marks_noParen h4
    · intro pre ys post hy
      simp only [segParts] at hy
      obtain ⟨y, hy, e⟩ := List.map_eq_singleton_iff.mp hy
      subst hy
      exact ⟨pre.length, y, wss, by simp, h1, e, by simp [segMark, bmk]⟩

theorem line_segs {q : List Str} {xs : List Spec.Chunk} {wss : List (List Str)} (h : ∀ x ∈ xs, x.Ordinary db)
    (hw : List.Forall₂ (QuoteWords q) xs wss) :
    ∃ sg : List (Bool × List Str), segFlat c!"(" c!")" sg = wss.flatten ∧ (∀ s ∈ sg, ∀ w ∈ s.2, NoParen w) ∧
      ∀ pre ys post, ys.map splitWs = segParts sg → ∃ vss, List.Forall₂ (ChunkWords q (pre ++ (ys ++ post))) xs vss ∧
        segMark bmk pre.length sg = vss.flatten := by
  induction hw with
  | nil => exact ⟨[], rfl, by simp, fun _ _ _ _ => ⟨[], .nil, rfl⟩⟩
  | cons h1 _ ih =>
    obtain ⟨sg1, a1, a2, a3⟩ := chunk_segs (h _ (by simp)) h1
    obtain ⟨sg2, b1, b2, b3⟩ := ih fun x hx => h x (by simp [hx])
    refine ⟨sg1 ++ sg2, by rw [segFlat_append, a1, b1, List.flatten_cons], ?_, ?_⟩
    · intro s hs
      rcases List.mem_append.mp hs with hs | hs
      · exact a2 s hs
      · exact b2 s hs
    · intro pre ys post hy
      rw [segParts_append] at hy
      obtain ⟨y1, y2, rfl, e1, e2⟩ := List.map_eq_append_iff.mp hy
      obtain ⟨vss, c1, c2⟩ := b3 (pre ++ y1) y2 post e2
      have hl : y1.length = (segParts sg1).length := by rw [← e1, List.length_map]
      refine ⟨segMark bmk pre.length sg1 :: vss, .cons ?_ ?_, ?_⟩
      · have := a3 pre y1 (y2 ++ post) e1
        rwa [← List.append_assoc y1] at this
      · rwa [List.append_assoc, ← List.append_assoc y1] at c1
      · rw [segMark_append, ← hl, List.flatten_cons, ← c2, List.length_append]

/-! ### Finding the parentheses -/

theorem pad_mem {t : Str} {c : Char} (h : c ∈ pad t) : c ∈ t ∨ c = ' ' := by
  unfold pad at h
  obtain ⟨d, hd, hc⟩ := List.mem_flatMap.mp h
  split at hc
  · simp only [List.mem_cons, List.not_mem_nil, or_false] at hc
    rcases hc with rfl | rfl | rfl
    · exact .inr rfl
    · exact .inl hd
    · exact .inr rfl
  · obtain rfl := List.mem_singleton.mp hc
    exact .inl hd

theorem pw_mem {t w : Str} (hw : w ∈ pw t) {c : Char} (hc : c ∈ w) (hs : c ≠ ' ') : c ∈ t :=
  (pad_mem (splitWs_chars hw hc)).resolve_right hs

theorem pw_has {t : Str} {c : Char} (hc : c = '(' ∨ c = ')') (h : c ∈ t) : [c] ∈ pw t := by
  obtain ⟨a, b, rfl⟩ := List.append_of_mem h
  rw [pw_paren hc]
  simp

theorem pw_asm (ms : List (Str × Str)) (last : Str) :
    pw (asm '(' ')' ms last) = asm c!"(" c!")" (ms.map fun m => (pw m.1, pw m.2)) (pw last) := by
  induction ms with
  | nil => rfl
  | cons m ms ih =>
    obtain ⟨b, x⟩ := m
    rw [asm, pw_paren (.inl rfl), pw_paren (.inr rfl), ih]
    rfl

theorem open_not {t : Str} (h : '(' ∉ t) : c!"(" ∉ pw t := fun hm => h (pw_mem hm (by simp) (by decide))
theorem close_not {t : Str} (h : ')' ∉ t) : c!")" ∉ pw t := fun hm => h (pw_mem hm (by simp) (by decide))

theorem line_brackets {t : Str} (hnl : '\n' ∉ t) (ctr : List Str) {sg : List (Bool × List Str)}
    (ht : pw t = segFlat c!"(" c!")" sg) (hsg : ∀ s ∈ sg, ∀ w ∈ s.2, NoParen w) :
    ∃ ys, (findBlocks db reBracket '⦅' '⦆' t ctr).2 = ctr ++ ys ∧ ys.map splitWs = segParts sg ∧
      splitWs (findBlocks db reBracket '⦅' '⦆' t ctr).1 = segMark bmk ctr.length sg := by
  obtain ⟨ms, last, h1, h2, h3, h4, h5⟩ := findBlocks_spec (r := reBracket) (op := '(') (cl := ')') (st := '⦅') (en := '⦆') db rfl
    (by decide) t ctr hnl
  obtain ⟨ms', last', k1, k2, k3, k4, k5, k6⟩ := seg_asm c!"(" c!")" sg fun s hs =>
    ⟨fun hm => (hsg s hs _ hm).1 (by simp), fun hm => (hsg s hs _ hm).2 (by simp)⟩
  rw [assembled_asm] at h1
  have e : asm c!"(" c!")" (ms.map fun m => (pw m.1, pw m.2)) (pw last) = asm c!"(" c!")" ms' last' := by
    rw [← pw_asm, ← h1, ht, k1]
  obtain ⟨e1, e2⟩ := asm_unique e
    (by
      intro m hm
      obtain ⟨n, hn, rfl⟩ := List.mem_map.mp hm
      exact ⟨open_not (h2 n hn).1, close_not (h2 n hn).2⟩)
    (fun m hm => ⟨(k4 m hm).1.1, (k4 m hm).2.2⟩)
    (by
      intro A B hAB hB
      by_cases ho : '(' ∈ last
      · obtain ⟨a, b, rfl, hna⟩ := first_occurrence ho
        rw [pw_paren (.inl rfl)] at hAB
        refine close_not (h3 a b rfl) ?_
        by_cases hA : c!"(" ∈ A
        · obtain ⟨A1, A2, rfl, hA1⟩ := first_occurrence hA
          rw [List.append_assoc, List.cons_append] at hAB
          obtain ⟨-, e3⟩ := first_unique hAB (open_not hna) hA1
          rw [e3]
          simp [hB]
        · obtain ⟨-, e3⟩ := first_unique hAB (open_not hna) hA
          rw [e3]
          exact hB
      · exact open_not ho (by rw [hAB]; simp))
    k5
  have hfree : ∀ m ∈ ms, splitWs m.1 = pw m.1 ∧ splitWs m.2 = pw m.2 := by
    intro m hm
    obtain ⟨k7, k8⟩ := k4 (pw m.1, pw m.2) (by rw [← e1]; exact List.mem_map.mpr ⟨m, hm, rfl⟩)
    exact ⟨(pw_self ⟨fun hc => k7.1 (pw_has (.inl rfl) hc), fun hc => k7.2 (pw_has (.inr rfl) hc)⟩).symm,
      (pw_self ⟨fun hc => k8.1 (pw_has (.inl rfl) hc), fun hc => k8.2 (pw_has (.inr rfl) hc)⟩).symm⟩
  have hlast : splitWs last = pw last := by
    rw [← e2] at k5 k6
    exact (pw_self ⟨fun hc => k5 (pw_has (.inl rfl) hc), fun hc => k6 (pw_has (.inr rfl) hc)⟩).symm
  refine ⟨ms.map Prod.snd, h4, ?_, ?_⟩
  · rw [k3, ← e1, List.map_map, List.map_map]
    exact List.map_congr_left fun m hm => (hfree m hm).2
  · rw [h5, marked_words (by decide) (by decide), k2, ← e1, ← e2]
    generalize ctr.length = k
    clear h1 h2 h4 h5 e e1 k2 k3 k4
    induction ms generalizing k with
    | nil => exact hlast
    | cons m ms ih =>
      obtain ⟨b, x⟩ := m
      rw [markWords, List.map_cons, asmMark, (hfree (b, x) (by simp)).1, ih (fun m hm => hfree m (by simp [hm]))]
      rfl

/-! ### All lines -/

theorem quotes_all {ls : List Str} {xss : List (List Spec.Chunk)} (h : List.Forall₂ (Spec.Paragraph db) ls xss) (ctr : List Str) :
    ∃ new, (findBlocksAll db reQuote '༺' '༻' (ls.map (sanitize db sentSanitization)) ctr).2 = ctr ++ new ∧
      ∀ post, List.Forall₂ (fun b xs => '\n' ∉ b ∧ ∃ wss, List.Forall₂ (QuoteWords (ctr ++ (new ++ post))) xs wss ∧ pw b = wss.flatten)
        (findBlocksAll db reQuote '༺' '༻' (ls.map (sanitize db sentSanitization)) ctr).1 xss := by
  induction h generalizing ctr with
  | nil => exact ⟨[], by simp [findBlocksAll], fun _ => .nil⟩
  | @cons l xs ls xss hp _ ih =>
    obtain ⟨h1, h2⟩ := line_quotes hp ctr
    obtain ⟨new, h3, h4⟩ := ih (ctr ++ segParts (lineSegs xs))
    have e : findBlocksAll db reQuote '༺' '༻' ((l :: ls).map (sanitize db sentSanitization)) ctr =
        ((findBlocks db reQuote '༺' '༻' (sanitize db sentSanitization l) ctr).1 ::
          (findBlocksAll db reQuote '༺' '༻' (ls.map (sanitize db sentSanitization)) (ctr ++ segParts (lineSegs xs))).1,
          (findBlocksAll db reQuote '༺' '༻' (ls.map (sanitize db sentSanitization)) (ctr ++ segParts (lineSegs xs))).2) := by
      rw [List.map_cons, findBlocksAll, ← h1]
    rw [e]
    refine ⟨segParts (lineSegs xs) ++ new, by rw [h3, List.append_assoc], fun post => .cons ⟨?_, ?_⟩ ?_⟩
    · obtain ⟨-, -, -, hc⟩ := findBlocks_cut (r := reQuote) (op := '"') (cl := '"') (st := '༺') (en := '༻') rfl (by decide)
        ⟨by decide, by decide⟩ ⟨by decide, by decide⟩ db ctr (sent_block db l).1
      exact hc.nl (by decide) (sent_block db l).1
    · obtain ⟨wss, k1, k2⟩ := sep_words (sg := chunkSegs) (R := QuoteWords) (xs := xs) (fun x hx => chunk_words (hp.ordinary x hx)) ctr
        (new ++ post)
      refine ⟨wss, ?_, ?_⟩
      · rwa [List.append_assoc]
      · rw [pw_words, h2, ← pw_words]
        exact k2
    · have := h4 post
      rwa [List.append_assoc, ← List.append_assoc (segParts _)] at this

theorem brackets_all {q : List Str} {bs : List Str} {xss : List (List Spec.Chunk)} (hx : ∀ xs ∈ xss, ∀ x ∈ xs, x.Ordinary db)
    (h : List.Forall₂ (fun b xs => '\n' ∉ b ∧ ∃ wss, List.Forall₂ (QuoteWords q) xs wss ∧ pw b = wss.flatten) bs xss)
    (ctr : List Str) : ∃ new, (findBlocksAll db reBracket '⦅' '⦆' bs ctr).2 = ctr ++ new ∧
      ∀ post, List.Forall₂ (fun b xs => ∃ wss, List.Forall₂ (ChunkWords q (ctr ++ (new ++ post))) xs wss ∧ splitWs b = wss.flatten)
        (findBlocksAll db reBracket '⦅' '⦆' bs ctr).1 xss := by
  induction h generalizing ctr with
  | nil => exact ⟨[], by simp [findBlocksAll], fun _ => .nil⟩
  | @cons b xs bs xss hp _ ih =>
    obtain ⟨hnl, wss, h1, h2⟩ := hp
    obtain ⟨sg, h3, h4, h5⟩ := line_segs (hx xs (by simp)) h1
    obtain ⟨ys, h6, h7, h8⟩ := line_brackets (db := db) hnl ctr (h2.trans h3.symm) h4
    obtain ⟨new, h9, h10⟩ := ih (fun x hm => hx x (by simp [hm])) (ctr ++ ys)
    have e : findBlocksAll db reBracket '⦅' '⦆' (b :: bs) ctr = ((findBlocks db reBracket '⦅' '⦆' b ctr).1 ::
        (findBlocksAll db reBracket '⦅' '⦆' bs (ctr ++ ys)).1, (findBlocksAll db reBracket '⦅' '⦆' bs (ctr ++ ys)).2) := by
      rw [findBlocksAll, ← h6]
    rw [e]
    refine ⟨ys ++ new, by rw [h9, List.append_assoc], fun post => .cons ?_ ?_⟩
    · obtain ⟨vss, k1, k2⟩ := h5 ctr ys (new ++ post) h7
      refine ⟨vss, by rwa [List.append_assoc], by rw [h8, k2]⟩
    · have := h10 post
      rwa [List.append_assoc, ← List.append_assoc ys] at this

end Model
