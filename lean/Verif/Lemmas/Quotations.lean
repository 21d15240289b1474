import Verif.Lemmas.Pilcrow
import Verif.Lemmas.PrintedText
import Verif.Spec.Paragraphs

/-! Quotations and parentheses of a line are replaced by numbered markers. -/

namespace Model
open Py

variable {db : CharDB}

/-! ### Quotations -/

def qmk (k : Nat) : Str := [' ', '༺'] ++ natRepr k ++ ['༻', ' ']

def pilcrow (ps : List Spec.Printed) : Str := if Spec.stops ps then ['¶'] else []

def phraseSegs : Spec.Phrase → List (Bool × Str)
  | .word p => [(false, p.text)]
  | .quote ps m => [(true, List.intercalate c!" " (ps.map Spec.Printed.text)), (false, pilcrow ps ++ m)]

def sepSegs : List (List (Bool × Str)) → List (Bool × Str)
  | [] => []
  | [s] => s
  | s :: t :: ss => s ++ (false, c!" ") :: sepSegs (t :: ss)

def chunkSegs : Spec.Chunk → List (Bool × Str)
  | .phrase x => phraseSegs x
  | .paren xs m => (false, c!"(") :: (sepSegs (xs.map phraseSegs) ++ [(false, ')' :: m)])

theorem sepSegs_flat (L : List (List (Bool × Str))) :
    segFlat '"' '"' (sepSegs L) = List.intercalate c!" " (L.map (segFlat '"' '"')) := by
  induction L with
  | nil => rfl
  | cons s L ih =>
    cases L with
    | nil => simp [sepSegs, List.intercalate]
    | cons t L =>
      show _ = List.intercalate c!" " (segFlat '"' '"' s :: (t :: L).map (segFlat '"' '"'))
      rw [sepSegs, segFlat_append, segFlat, ih, intercalate_cons (by simp)]
      rfl

theorem getLast?_intercalate {ts : List Str} {t : Str} (h : ts.getLast? = some t) (hne : t ≠ []) :
    (List.intercalate c!" " ts).getLast? = t.getLast? := by
  obtain ⟨ts, rfl⟩ := List.getLast?_eq_some_iff.mp h
  by_cases hts : ts = []
  · subst hts
    simp [List.intercalate]
  · rw [intercalate_append hts (by simp), List.getLast?_append, List.getLast?_cons]
    rcases hl : t.getLast? with _ | c
    · exact absurd (List.getLast?_eq_none_iff.mp hl) hne
    · simp [List.intercalate, hl]

theorem intercalate_mem {ts : List Str} {c : Char} (h : c ∈ List.intercalate c!" " ts) : c = ' ' ∨ ∃ t ∈ ts, c ∈ t := by
  rw [← join_eq_intercalate] at h
  exact join_chars h

section
variable {x : Spec.Phrase} (h : x.Ordinary db)
include h

theorem quote_stops {ps : List Spec.Printed} {m : Str} (e : x = .quote ps m) :
    (List.intercalate c!" " (ps.map Spec.Printed.text)).getLast? = some '.' ↔ Spec.stops ps = true := by
  subst e
  obtain ⟨h1, h2, -⟩ := h
  obtain ⟨qs, p, rfl⟩ := List.eq_nil_or_concat ps |>.resolve_left h1
  rw [List.concat_eq_append] at h2 ⊢
  rw [getLast?_intercalate (t := p.text) (by simp) (Ordinary.text_ne (h2 p (by simp)).1)]
  simp [Spec.stops]

theorem quote_inner {ps : List Spec.Printed} {m : Str} (e : x = .quote ps m) :
    '"' ∉ List.intercalate c!" " (ps.map Spec.Printed.text) ∧ '"' ∉ m := by
  subst e
  obtain ⟨-, h2, -, h4, -⟩ := h
  constructor
  · intro hm
    rcases intercalate_mem hm with e | ⟨t, ht, hc⟩
    · exact absurd e (by decide)
    · obtain ⟨p, hp, rfl⟩ := List.mem_map.mp ht
      exact (h2 p hp).2 hc
  · revert m
    decide

theorem phrase_pil : pil x.text = segFlat '"' '"' (phraseSegs x) := by
  cases x with
  | word p =>
    rw [Spec.Phrase.text, pil_self (h.2 _ (by decide))]
    simp [phraseSegs, segFlat]
  | quote ps m =>
    obtain ⟨i1, i2⟩ := quote_inner h rfl
    have hs := quote_stops h rfl
    rw [Spec.Phrase.text, pil_skip fun e => absurd e (by decide)]
    simp only [phraseSegs, segFlat, List.append_nil]
    congr 1
    unfold pilcrow
    by_cases hst : Spec.stops ps = true
    · obtain ⟨X, hX⟩ := List.getLast?_eq_some_iff.mp (hs.mpr hst)
      rw [hX, if_pos hst, List.append_assoc, pil_append (by simp), List.singleton_append, pil_hit,
        pil_self (a := X) fun hm => i1 (by rw [hX]; simp [hm]), pil_self i2]
      simp
    · rw [if_neg hst, pil_append fun e => absurd (hs.mp e) hst, pil_skip fun e => absurd e (by decide), pil_self i1, pil_self i2]
      simp

theorem phrase_clean : ∀ s ∈ phraseSegs x, '"' ∉ s.2 := by
  cases x with
  | word p =>
    intro s hs
    rw [phraseSegs, List.mem_singleton] at hs
    subst hs
    exact h.2 _ (by decide)
  | quote ps m =>
    obtain ⟨i1, i2⟩ := quote_inner h rfl
    intro s hs
    simp only [phraseSegs, List.mem_cons, List.not_mem_nil, or_false] at hs
    rcases hs with rfl | rfl
    · exact i1
    · unfold pilcrow
      split <;> simp [i2]

theorem phrase_tidy : Tidy (pil x.text) := by
  rw [phrase_pil h]
  cases x with
  | word p =>
    have : segFlat '"' '"' (phraseSegs (.word p)) = p.text := by simp [phraseSegs, segFlat]
    rw [this]
    exact .word (Ordinary.text_noBlank h.1)
  | quote ps m =>
    obtain ⟨h1, h2, -, h4, -⟩ := h
    have hm : ∀ c ∈ m, isSpace c = false := by revert m; decide
    simp only [phraseSegs, segFlat, List.append_nil]
    refine Tidy.cons (Tidy.append (Tidy.intercalate (by simpa using h1) ?_) ?_) (by decide)
    · intro t ht
      obtain ⟨p, hp, rfl⟩ := List.mem_map.mp ht
      exact .word (Ordinary.text_noBlank (h2 p hp).1)
    · intro c hc
      rcases List.mem_cons.mp hc with rfl | hc
      · decide
      · rcases List.mem_append.mp hc with hc | hc
        · unfold pilcrow at hc
          split at hc
          · rw [List.mem_singleton] at hc
            subst hc
            decide
          · cases hc
        · exact hm c hc

end

theorem sepSegs_mem {L : List (List (Bool × Str))} {s : Bool × Str} (h : s ∈ sepSegs L) : s = (false, c!" ") ∨ ∃ l ∈ L, s ∈ l := by
  induction L with
  | nil => cases h
  | cons t L ih =>
    cases L with
    | nil => exact .inr ⟨t, by simp, h⟩
    | cons u L =>
      rw [sepSegs, List.mem_append, List.mem_cons] at h
      rcases h with h | h | h
      · exact .inr ⟨t, by simp, h⟩
      · exact .inl h
      · rcases ih h with h | ⟨l, hl, h⟩
        · exact .inl h
        · exact .inr ⟨l, by simp [List.mem_cons.mp hl], h⟩

section
variable {x : Spec.Chunk} (h : x.Ordinary db)
include h

theorem chunk_pil : pil x.text = segFlat '"' '"' (chunkSegs x) := by
  cases x with
  | phrase x => exact phrase_pil h.1
  | paren xs m =>
    obtain ⟨-, h2, -, h4⟩ := h
    have hm : '"' ∉ ')' :: m := by revert m; decide
    rw [Spec.Chunk.text, pil_skip fun e => absurd e (by decide), pil_append (fun _ => by simp), pil_self hm, pil_intercalate]
    simp only [chunkSegs, segFlat, segFlat_append, sepSegs_flat, List.append_nil, List.map_map]
    rw [List.singleton_append]
    congr 3
    exact List.map_congr_left fun y hy => phrase_pil (h2 y hy).1

theorem chunk_clean : ∀ s ∈ chunkSegs x, '"' ∉ s.2 := by
  cases x with
  | phrase x => exact phrase_clean h.1
  | paren xs m =>
    obtain ⟨-, h2, -, h4⟩ := h
    have hm : '"' ∉ ')' :: m := by revert m; decide
    intro s hs
    simp only [chunkSegs, List.mem_cons, List.mem_append, List.not_mem_nil, or_false] at hs
    rcases hs with rfl | hs | rfl
    · decide
    · rcases sepSegs_mem hs with rfl | ⟨l, hl, hs⟩
      · decide
      · obtain ⟨y, hy, rfl⟩ := List.mem_map.mp hl
        exact phrase_clean (h2 y hy).1 s hs
    · exact hm

theorem chunk_tidy : Tidy (pil x.text) := by
  cases x with
  | phrase x => exact phrase_tidy h.1
  | paren xs m =>
    obtain ⟨h1, h2, -, h4⟩ := h
    have hm : '"' ∉ ')' :: m ∧ ∀ c ∈ ')' :: m, isSpace c = false := by revert m; decide
    rw [Spec.Chunk.text, pil_skip fun e => absurd e (by decide), pil_append (fun _ => by simp), pil_self hm.1, pil_intercalate,
      List.map_map]
    refine Tidy.cons (Tidy.append (Tidy.intercalate (by simpa using h1) ?_) hm.2) (by decide)
    intro t ht
    obtain ⟨y, hy, rfl⟩ := List.mem_map.mp ht
    exact phrase_tidy (h2 y hy).1

end

/-- The segments of a line. -/
def lineSegs (xs : List Spec.Chunk) : List (Bool × Str) := sepSegs (xs.map chunkSegs)

section
variable {line : Str} {xs : List Spec.Chunk} (h : Spec.Paragraph db line xs)
include h

theorem line_sanitize : sanitize db sentSanitization line = segFlat '"' '"' (lineSegs xs) := by
  have e : pil (List.intercalate c!" " (xs.map Spec.Chunk.text)) = segFlat '"' '"' (lineSegs xs) := by
    rw [pil_intercalate, lineSegs, sepSegs_flat, List.map_map, List.map_map]
    congr 1
    exact List.map_congr_left fun x hx => chunk_pil (h.ordinary x hx)
  rw [sent_sanitize db h.words, e]
  rw [pil_intercalate]
  refine Tidy.intercalate (by simpa using h.not_empty) ?_
  intro t ht
  obtain ⟨y, hy, rfl⟩ := List.mem_map.mp ht
  obtain ⟨x, hx, rfl⟩ := List.mem_map.mp hy
  exact chunk_tidy (h.ordinary x hx)

theorem line_quotes (ctr : List Str) :
    (findBlocks db reQuote '༺' '༻' (sanitize db sentSanitization line) ctr).2 = ctr ++ segParts (lineSegs xs) ∧
    splitWs (findBlocks db reQuote '༺' '༻' (sanitize db sentSanitization line) ctr).1 =
      splitWs (segMark qmk ctr.length (lineSegs xs)) := by
  have hnl := (sent_block db line).1
  obtain ⟨ms, last, h1, h2, h3, h4, h5⟩ := findBlocks_spec (r := reQuote) (op := '"') (cl := '"') (st := '༺') (en := '༻') db rfl
    (by decide) (sanitize db sentSanitization line) ctr hnl
  obtain ⟨ms', last', k1, k2, k3, k4, k5, -⟩ := seg_asm '"' '"' (lineSegs xs) fun s hs => by
    rcases sepSegs_mem hs with rfl | ⟨l, hl, hs⟩
    · decide
    · obtain ⟨x, hx, rfl⟩ := List.mem_map.mp hl
      exact ⟨chunk_clean (h.ordinary x hx) s hs, chunk_clean (h.ordinary x hx) s hs⟩
  rw [assembled_asm] at h1
  obtain ⟨rfl, rfl⟩ := asm_unique (h1.symm.trans ((line_sanitize h).trans k1)) h2 (fun m hm => ⟨(k4 m hm).1.1, (k4 m hm).2.2⟩) h3 k5
  rw [h4, h5, k3, k2, marked_asm]
  exact ⟨rfl, rfl⟩

end

/-! ### Words -/

/-- Blanks around parentheses. -/
def pad (t : Str) : Str := t.flatMap fun c => if c = '(' ∨ c = ')' then [' ', c, ' '] else [c]

/-- The words, with parentheses on their own. -/
def pw (t : Str) : List Str := splitWs (pad t)

theorem pad_append (a b : Str) : pad (a ++ b) = pad a ++ pad b := by simp [pad]

theorem pad_self {t : Str} (h : '(' ∉ t ∧ ')' ∉ t) : pad t = t := by
  induction t with
  | nil => rfl
  | cons c t ih =>
    have h1 : ¬ (c = '(' ∨ c = ')') := by
      rintro (rfl | rfl)
      · exact h.1 (by simp)
      · exact h.2 (by simp)
    have := ih ⟨fun hm => h.1 (by simp [hm]), fun hm => h.2 (by simp [hm])⟩
    unfold pad at this ⊢
    rw [List.flatMap_cons, if_neg h1, this]
    rfl

theorem pad_cons_space {d : Char} (hd : isSpace d = true) (t : Str) : pad (d :: t) = d :: pad t := by
  have h1 : ¬ (d = '(' ∨ d = ')') := by
    rintro (rfl | rfl) <;> exact absurd hd (by decide)
  unfold pad
  rw [List.flatMap_cons, if_neg h1]
  rfl

theorem pw_words (t : Str) : pw t = (splitWs t).flatMap pw :=
  splitWs_rewrite rfl (fun a d b hd => by rw [pad_append, pad_cons_space hd]) t.length t (Nat.le_refl _)

theorem pw_self {t : Str} (h : '(' ∉ t ∧ ')' ∉ t) : pw t = splitWs t := by rw [pw, pad_self h]

theorem pw_sep (a b : Str) : pw (a ++ ' ' :: b) = pw a ++ pw b := by
  unfold pw
  rw [pad_append, pad_cons_space (by decide), splitWs_sep (by decide)]

theorem pw_paren {c : Char} (hc : c = '(' ∨ c = ')') (a b : Str) : pw (a ++ c :: b) = pw a ++ [c] :: pw b := by
  have hs : isSpace c = false := by rcases hc with rfl | rfl <;> decide
  have : pad (c :: b) = ' ' :: ([c] ++ ' ' :: pad b) := by
    unfold pad
    rw [List.flatMap_cons, if_pos hc]
    rfl
  unfold pw
  have hw : splitWs [c] = [[c]] := by
    rw [splitWs_word (by simpa using hs)]
    rfl
  rw [pad_append, this, splitWs_sep (by decide), splitWs_sep (by decide), hw]
  rfl

theorem pw_nil : pw [] = [] := rfl

/-- The words of a phrase, with markers for the quotations. -/
def PhraseWords (q : List Str) : Spec.Phrase → List Str → Prop
  | .word p, ws => ws = [p.text]
  | .quote ps m, ws => ∃ n x, q[n]? = some x ∧ splitWs x = ps.map Spec.Printed.text ∧
      ws = mk '༺' '༻' n :: Spec.Printed.singles (pilcrow ps ++ m)

/-- The words of a chunk, with markers for the quotations. -/
def QuoteWords (q : List Str) : Spec.Chunk → List Str → Prop
  | .phrase x, ws => PhraseWords q x ws
  | .paren xs m, ws => ∃ wss, List.Forall₂ (PhraseWords q) xs wss ∧
      ws = c!"(" :: (wss.flatten ++ c!")" :: Spec.Printed.singles m)

theorem sep_words {α : Type} {sg : α → List (Bool × Str)} {R : List Str → α → List Str → Prop} {xs : List α}
    (hR : ∀ x ∈ xs, ∀ pre post, R (pre ++ (segParts (sg x) ++ post)) x (pw (segMark qmk pre.length (sg x)))) (pre post : List Str) :
    ∃ wss, List.Forall₂ (R (pre ++ (segParts (sepSegs (xs.map sg)) ++ post))) xs wss ∧
      pw (segMark qmk pre.length (sepSegs (xs.map sg))) = wss.flatten := by
  induction xs generalizing pre with
  | nil => exact ⟨[], .nil, rfl⟩
  | cons x xs ih =>
    have hx := hR x (by simp)
    cases xs with
    | nil => exact ⟨[_], .cons (hx pre post) .nil, by simp [sepSegs]⟩
    | cons y xs =>
      obtain ⟨wss, h1, h2⟩ := ih (fun z hz => hR z (by simp [List.mem_cons.mp hz])) (pre ++ segParts (sg x))
      have e : sepSegs ((x :: y :: xs).map sg) = sg x ++ (false, c!" ") :: sepSegs ((y :: xs).map sg) := rfl
      refine ⟨pw (segMark qmk pre.length (sg x)) :: wss, .cons ?_ ?_, ?_⟩
      · have := hx pre (segParts (sepSegs ((y :: xs).map sg)) ++ post)
        rw [e, segParts_append, segParts, List.append_assoc]
        exact this
      · rw [e, segParts_append, segParts, List.append_assoc]
        rw [List.append_assoc] at h1
        exact h1
      · rw [e, segMark_append, segMark, List.singleton_append, pw_sep, List.flatten_cons]
        rw [List.length_append] at h2
        rw [h2]

theorem mark_words {m : Str} (hm : m ∈ [[], [','], [';'], ['!'], ['?'], ['.']]) :
    pw m = Spec.Printed.singles m := by
  revert m
  decide

theorem phrase_words {x : Spec.Phrase} (h : x.Ordinary db) (pre post : List Str) :
    PhraseWords (pre ++ (segParts (phraseSegs x) ++ post)) x (pw (segMark qmk pre.length (phraseSegs x))) := by
  cases x with
  | word p =>
    show pw (p.text ++ []) = [p.text]
    rw [List.append_nil, pw_self ⟨h.2 _ (by decide), h.2 _ (by decide)⟩, splitWs_noBlank_self (Ordinary.text_noBlank h.1)]
  | quote ps m =>
    obtain ⟨h1, h2, h3, h4, h5⟩ := h
    refine ⟨pre.length, List.intercalate c!" " (ps.map Spec.Printed.text), ?_, ?_, ?_⟩
    · simp [phraseSegs, segParts]
    · rw [← join_eq_intercalate, splitWs_join]
      intro w hw
      obtain ⟨p, hp, rfl⟩ := List.mem_map.mp hw
      exact Ordinary.text_noBlank (h2 p hp).1
    · have e : segMark qmk pre.length (phraseSegs (.quote ps m)) =
          [] ++ ' ' :: (mk '༺' '༻' pre.length ++ ' ' :: (pilcrow ps ++ m)) := by
        simp [phraseSegs, segMark, qmk, mk]
      have hmk : ∀ c ∈ mk '༺' '༻' pre.length, isSpace c = false ∧ c ≠ '(' ∧ c ≠ ')' := by
        intro c hc
        simp only [mk, List.mem_cons, List.mem_append, List.not_mem_nil, or_false] at hc
        rcases hc with rfl | hc | rfl
        · decide
        · have := natRepr_isDigit _ _ hc
          refine ⟨?_, ?_, ?_⟩
          · have := digit_not_space this
            simpa using this
          · rintro rfl
            exact absurd this (by decide)
          · rintro rfl
            exact absurd this (by decide)
        · decide
      rw [e, pw_sep, pw_sep, pw_nil, List.nil_append, pw_self ⟨fun hm => (hmk _ hm).2.1 rfl, fun hm => (hmk _ hm).2.2 rfl⟩,
        splitWs_word fun c hc => (hmk c hc).1, if_neg (by simp [mk]), List.singleton_append]
      congr 1
      unfold pilcrow
      by_cases hs : Spec.stops ps = true
      · rw [if_pos hs, h5 hs]
        decide
      · rw [if_neg hs, List.nil_append]
        exact mark_words h4

theorem chunk_words {x : Spec.Chunk} (h : x.Ordinary db) (pre post : List Str) :
    QuoteWords (pre ++ (segParts (chunkSegs x) ++ post)) x (pw (segMark qmk pre.length (chunkSegs x))) := by
  cases x with
  | phrase x => exact phrase_words h.1 pre post
  | paren xs m =>
    obtain ⟨h1, h2, h3, h4⟩ := h
    obtain ⟨wss, k1, k2⟩ := sep_words (sg := phraseSegs) (R := PhraseWords) (xs := xs) (fun x hx => phrase_words (h2 x hx).1) pre post
    refine ⟨wss, ?_, ?_⟩
    · simpa [chunkSegs, segParts, segParts_append] using k1
    · have e : segMark qmk pre.length (chunkSegs (.paren xs m)) =
          [] ++ '(' :: (segMark qmk pre.length (sepSegs (xs.map phraseSegs)) ++ ')' :: m) := by
        simp [chunkSegs, segMark, segMark_append]
      rw [e, pw_paren (.inl rfl), pw_paren (.inr rfl), k2, mark_words h4]
      rfl

end Model
