import Verif.Lemmas.TokenWords
import Verif.Lemmas.Parts
import Verif.Lemmas.Sentencizer

/-! # Quotes and brackets that are cut out of a text -/

namespace Model
open Py

/-- Text that markers and white space cannot contain. -/
structure Shape (w : Str) : Prop where
  ne : w ≠ []
  chars : ∀ c ∈ w, isSpace c = false ∧ isDelim c = false ∧ c ≠ '¶'
  nondigit : ∃ c ∈ w, c.isDigit = false

/-- Whatever occurs in the first text occurs in the second. -/
def Refl (b text : Str) : Prop := ∀ w, Shape w → w <:+: b → w <:+: text

theorem Refl.trans {a b c : Str} (h : Refl a b) (h' : Refl b c) : Refl a c := fun w hw hi => h' w hw (h w hw hi)

theorem Refl.of_infix {a b : Str} (h : a <:+: b) : Refl a b := fun _ _ hi => hi.trans h

theorem Refl.of_words {a b : Str} (h : ∀ v ∈ splitWs a, Refl v b) : Refl a b := by
  intro w hw hi
  obtain ⟨v, hv, hi⟩ := infix_word (fun c hc => (hw.chars c hc).1) hw.ne _ a (Nat.le_refl _) hi
  exact h v hv w hw hi

/-- A marker. -/
def mk (st en : Char) (n : Nat) : Str := st :: (natRepr n ++ [en])

/-- Words of the text with markers. -/
def markWords (st en : Char) : Nat → List (Str × Str) → Str → List Str
  | _, [], last => splitWs last
  | k, (b, _) :: ms, last => splitWs b ++ mk st en k :: markWords st en (k + 1) ms last

theorem marked_words {st en : Char} (hst : isSpace st = false) (hen : isSpace en = false) :
    ∀ (ms : List (Str × Str)) (k : Nat) (last : Str),
    splitWs (Spec.marked st en natRepr k ms last) = markWords st en k ms last
  | [], k, last => rfl
  | (b, x) :: ms, k, last => by
    have e : Spec.marked st en natRepr k ((b, x) :: ms) last =
        b ++ ' ' :: (mk st en k ++ ' ' :: Spec.marked st en natRepr (k + 1) ms last) := by
      simp [Spec.marked, mk]
    have hw : ∀ c ∈ mk st en k, isSpace c = false := by
      intro c hc
      simp only [mk, List.mem_cons, List.mem_append, List.not_mem_nil, or_false] at hc
      rcases hc with rfl | hc | rfl
      · exact hst
      · exact digit_not_space (natRepr_isDigit k c hc)
      · exact hen
    rw [e, splitWs_sep (by decide), splitWs_sep (by decide), splitWs_word hw, if_neg (by simp [mk]),
      marked_words hst hen ms (k + 1) last]
    rfl

theorem mk_no_shape {st en : Char} (hst : isDelim st = true) (hen : isDelim en = true) {n : Nat} {w : Str} (hw : Shape w) :
    ¬ w <:+: mk st en n := by
  intro hi
  obtain ⟨c, hc, hd⟩ := hw.nondigit
  have h1 := hi.subset hc
  have h2 := (hw.chars c hc).2.1
  simp only [mk, List.mem_cons, List.mem_append, List.not_mem_nil, or_false] at h1
  rcases h1 with rfl | h1 | rfl
  · rw [hst] at h2; cases h2
  · rw [natRepr_isDigit n c h1] at hd; cases hd
  · rw [hen] at h2; cases h2

/-- Words of the text before the first marker, between markers and after the last one. -/
theorem mem_markWords {st en : Char} : ∀ (ms : List (Str × Str)) (k : Nat) (last v : Str), v ∈ markWords st en k ms last →
    (∃ m ∈ ms, v ∈ splitWs m.1) ∨ v ∈ splitWs last ∨ ∃ i, i < ms.length ∧ v = mk st en (k + i)
  | [], k, last, v, h => .inr (.inl h)
  | (b, x) :: ms, k, last, v, h => by
    rcases List.mem_append.mp h with h | h
    · exact .inl ⟨(b, x), by simp, h⟩
    · rcases List.mem_cons.mp h with rfl | h
      · exact .inr (.inr ⟨0, by simp, rfl⟩)
      · rcases mem_markWords ms (k + 1) last v h with ⟨m, hm, h⟩ | h | ⟨i, hi, rfl⟩
        · exact .inl ⟨m, by simp [hm], h⟩
        · exact .inr (.inl h)
        · exact .inr (.inr ⟨i + 1, by simpa using hi, by congr 1; omega⟩)

theorem assembled_infix {op cl : Char} : ∀ (ms : List (Str × Str)) (last : Str),
    (∀ m ∈ ms, m.1 <:+: Spec.assembled op cl ms last ∧ m.2 <:+: Spec.assembled op cl ms last) ∧
    last <:+: Spec.assembled op cl ms last
  | [], last => ⟨by simp, List.infix_rfl⟩
  | (b, x) :: ms, last => by
    obtain ⟨h1, h2⟩ := assembled_infix (op := op) (cl := cl) ms last
    have e : Spec.assembled op cl ((b, x) :: ms) last = b ++ op :: (x ++ cl :: Spec.assembled op cl ms last) := by
      simp [Spec.assembled]
    have h3 : Spec.assembled op cl ms last <:+: Spec.assembled op cl ((b, x) :: ms) last := by
      rw [e]
      exact ⟨b ++ op :: (x ++ [cl]), [], by simp⟩
    refine ⟨?_, h2.trans h3⟩
    intro m hm
    rcases List.mem_cons.mp hm with rfl | hm
    · rw [e]
      exact ⟨⟨[], op :: (x ++ cl :: Spec.assembled op cl ms last), by simp⟩,
        ⟨b ++ [op], cl :: Spec.assembled op cl ms last, by simp⟩⟩
    · exact ⟨(h1 m hm).1.trans h3, (h1 m hm).2.trans h3⟩

theorem mk_part {st en : Char} (hst : isDelim st = true) (hen : isDelim en = true) (n : Nat) (t : Str) : Part (mk st en n) t where
  path := by
    rintro ⟨u, -, hi⟩
    have h1 : '.' ∈ mk st en n := hi.subset (by simp)
    simp only [mk, List.mem_cons, List.mem_append, List.not_mem_nil, or_false] at h1
    rcases h1 with rfl | h1 | rfl
    · exact absurd hst (by decide)
    · exact absurd (natRepr_isDigit n _ h1) (by decide)
    · exact absurd hen (by decide)
  alone := by
    rintro w hw ⟨x, y, e, -, -⟩
    refine absurd ⟨x, y, e.symm⟩ (mk_no_shape hst hen (n := n) (w := w) ⟨hw.ne_nil, fun c hc => ?_, ?_⟩)
    · have key : ∀ c ∈ ['‘', '’', '′', '\'', 'n', 'N'], isSpace c = false ∧ isDelim c = false ∧ c ≠ '¶' := by decide
      exact key c (hw.chars c hc)
    · obtain ⟨c, w', rfl⟩ := List.exists_cons_of_ne_nil hw.ne_nil
      have key : ∀ c ∈ ['‘', '’', '′', '\'', 'n', 'N'], c.isDigit = false := by decide
      exact ⟨c, by simp, key c (hw.chars c (by simp))⟩

theorem assembled_part {op cl : Char} (hop : Spec.edge op = true) (hcl : Spec.edge cl = true) :
    ∀ (ms : List (Str × Str)) (last : Str),
    (∀ m ∈ ms, Part m.1 (Spec.assembled op cl ms last) ∧ Part m.2 (Spec.assembled op cl ms last)) ∧
    Part last (Spec.assembled op cl ms last)
  | [], last => ⟨by simp, Part.self⟩
  | (b, x) :: ms, last => by
    obtain ⟨h1, h2⟩ := assembled_part hop hcl ms last
    have h3 : Part (Spec.assembled op cl ms last) (Spec.assembled op cl ((b, x) :: ms) last) := by
      have := Part.cut (b := Spec.assembled op cl ms last) (x := b ++ op :: x ++ [cl]) (y := [])
        (by rw [List.getLast?_append]; exact hcl) rfl
      simpa [Spec.assembled] using this
    have h4 : Part b (Spec.assembled op cl ((b, x) :: ms) last) := by
      have := Part.cut (b := b) (x := []) (y := op :: (x ++ cl :: Spec.assembled op cl ms last)) rfl (by simpa using hop)
      simpa [Spec.assembled] using this
    have h5 : Part x (Spec.assembled op cl ((b, x) :: ms) last) := by
      have := Part.cut (b := x) (x := b ++ [op]) (y := cl :: Spec.assembled op cl ms last)
        (by rw [List.getLast?_append]; exact hop) (by simpa using hcl)
      simpa [Spec.assembled] using this
    refine ⟨?_, h2.trans h3⟩
    intro m hm
    rcases List.mem_cons.mp hm with rfl | hm
    · exact ⟨h4, h5⟩
    · exact ⟨(h1 m hm).1.trans h3, (h1 m hm).2.trans h3⟩

/-! ### Words and values -/

/-- Every word is free of delimiters or one of the markers `M`. -/
def WordsOk (M : Str → Prop) (b : Str) : Prop := ∀ w ∈ splitWs b, Clean w ∨ M w

/-- Value of a text. -/
def value (ν : Str → Str) (b : Str) : Str := (splitWs b).flatMap (val ν inkP)

theorem inkP_words (t : Str) : inkP t = (splitWs t).flatMap inkP := by
  unfold inkP
  rw [← splitWs_flatten, splitWs_plainer]
  simp only [← splitWs_flatten]
  rw [List.flatMap_def, List.flatten_flatten, List.map_map, List.flatMap_def]
  rfl

theorem value_clean {ν : Str → Str} {b : Str} (h : ∀ w ∈ splitWs b, Clean w) : value ν b = inkP b := by
  rw [inkP_words]
  refine List.flatMap_congr fun w hw => ?_
  rw [val, if_neg (by simp [(h w hw).not_opens])]

/-- A character that separates parts of a text. -/
structure Sep (c : Char) : Prop where
  space : isSpace c = false
  dash : Spec.isDash c = false
  straight : Spec.straight c = c

theorem inkP_cut (a b : Str) {c : Char} (hc : Sep c) : inkP (a ++ c :: b) = inkP a ++ c :: inkP b := by
  unfold inkP
  rw [plainer_cut a b hc.dash, ink_append, hc.straight]
  simp [Spec.ink, hc.space]

theorem Clean.words {x : Str} (h : Clean x) : ∀ w ∈ splitWs x, Clean w := fun _ hw _ hc => h _ (splitWs_mem hw hc)

theorem WordsOk.cut {M : Str → Prop} {a b : Str} {c : Char} (hc : Sep c) (hM : ∀ w, M w → c ∉ w) (h : WordsOk M (a ++ c :: b)) :
    WordsOk M a ∧ WordsOk M b ∧ ∀ ν, value ν (a ++ c :: b) = value ν a ++ c :: value ν b := by
  obtain ⟨A, x, y, B, h1, h2, h3, h4, h5⟩ := splitWs_cut a b hc.space
  have hxy : Clean (x ++ c :: y) := (h _ (by rw [h3]; simp)).resolve_right fun hm => hM _ hm (by simp)
  have hx : Clean x := hxy.infix ⟨[], c :: y, by simp⟩
  have hy : Clean y := hxy.infix ⟨x ++ [c], [], by simp⟩
  refine ⟨?_, ?_, ?_⟩
  · intro w hw
    rw [h1, List.mem_append] at hw
    rcases hw with hw | hw
    · exact h w (by rw [h3]; simp [hw])
    · exact .inl (hx.words w hw)
  · intro w hw
    rw [h2, List.mem_append] at hw
    rcases hw with hw | hw
    · exact .inl (hy.words w hw)
    · exact h w (by rw [h3]; simp [hw])
  · intro ν
    have vx := value_clean (ν := ν) hx.words
    have vy := value_clean (ν := ν) hy.words
    unfold value at vx vy ⊢
    rw [h1, h2, h3, List.flatMap_append, List.flatMap_append, List.flatMap_append, List.flatMap_cons, vx, vy, val,
      if_neg (by simp [hxy.not_opens]), inkP_cut x y hc]
    simp

/-- The parts of a text: their words are the words of the text, and their values make up its value. -/
theorem WordsOk.parts {M : Str → Prop} {op cl : Char} (hop : Sep op) (hcl : Sep cl) (hM : ∀ w, M w → op ∉ w ∧ cl ∉ w) :
    ∀ (ms : List (Str × Str)) (last : Str), WordsOk M (Spec.assembled op cl ms last) →
    (∀ m ∈ ms, WordsOk M m.1 ∧ WordsOk M m.2) ∧ WordsOk M last ∧
    ∀ ν, value ν (Spec.assembled op cl ms last) =
      ms.flatMap (fun m => value ν m.1 ++ op :: (value ν m.2 ++ [cl])) ++ value ν last
  | [], last, h => ⟨by simp, h, fun ν => by simp [Spec.assembled]⟩
  | (b, x) :: ms, last, h => by
    have e : Spec.assembled op cl ((b, x) :: ms) last = b ++ op :: (x ++ cl :: Spec.assembled op cl ms last) := by
      simp [Spec.assembled]
    rw [e] at h
    obtain ⟨h1, h2, h3⟩ := h.cut hop fun w hw => (hM w hw).1
    obtain ⟨h4, h5, h6⟩ := h2.cut hcl fun w hw => (hM w hw).2
    obtain ⟨h7, h8, h9⟩ := WordsOk.parts hop hcl hM ms last h5
    refine ⟨?_, h8, ?_⟩
    · intro m hm
      rcases List.mem_cons.mp hm with rfl | hm
      · exact ⟨h1, h4⟩
      · exact h7 m hm
    · intro ν
      rw [e, h3, h6, h9]
      simp

/-- Values of the words of the text with markers. -/
theorem markWords_value {M : Str → Prop} {op cl st en : Char} {ν ν' : Str → Str} (hmk : ∀ n, opens (mk st en n) = true)
    {Q : List Str} (hν : ∀ w, M w → ν' w = ν w)
    (hν' : ∀ n (h : n < Q.length), ν' (mk st en n) = op :: (value ν Q[n] ++ [cl])) :
    ∀ (ms : List (Str × Str)) (last : Str) (ctr : List Str), (∀ m ∈ ms, WordsOk M m.1) → WordsOk M last →
    ctr ++ ms.map Prod.snd <+: Q →
    (markWords st en ctr.length ms last).flatMap (val ν' inkP) =
      ms.flatMap (fun m => value ν m.1 ++ op :: (value ν m.2 ++ [cl])) ++ value ν last := by
  have hwords : ∀ b, WordsOk M b → (splitWs b).flatMap (val ν' inkP) = value ν b := by
    intro b hb
    refine List.flatMap_congr fun w hw => ?_
    rcases hb w hw with h | h
    · rw [val, val, if_neg (by simp [h.not_opens]), if_neg (by simp [h.not_opens])]
    · rw [val, val, hν w h]
  intro ms
  induction ms with
  | nil =>
    intro last ctr _ hl _
    simpa [markWords] using hwords last hl
  | cons m ms ih =>
    obtain ⟨b, x⟩ := m
    intro last ctr hms hl hQ
    have hlt : ctr.length < Q.length := by
      have := hQ.length_le
      simp at this
      omega
    have hx : Q[ctr.length] = x := by
      obtain ⟨r, rfl⟩ := hQ
      simp
    have ih := ih last (ctr ++ [x]) (fun m hm => hms m (by simp [hm])) hl (by simpa using hQ)
    rw [List.length_append, List.length_singleton] at ih
    rw [markWords, List.flatMap_append, List.flatMap_cons, ih, hwords b (hms (b, x) (by simp)), val, if_pos (hmk _),
      hν' _ hlt, hx]
    simp

/-! ### `__find_blocks` -/

/-- What a text with markers has to do with the text it was made from. -/
structure Marked (M : Str → Prop) (op cl st en : Char) (Q : List Str) (b b' : Str) : Prop where
  nl : '\n' ∉ b'
  refl : Refl b' b
  part : Part b' b
  words : ∀ w ∈ splitWs b', Clean w ∨ M w ∨ ∃ n, n < Q.length ∧ w = mk st en n
  value : ∀ ν ν' : Str → Str, (∀ w, M w → ν' w = ν w) →
    (∀ n (h : n < Q.length), ν' (mk st en n) = op :: (value ν Q[n] ++ [cl])) → value ν' b' = value ν b

section
variable {M : Str → Prop} {op cl st en : Char} {r : Re}
variable (hr : r = .seq (.cls ⟨false, false, [.ch op]⟩)
      (.seq (.rep 0 false (.cls ⟨false, false, [.dot]⟩)) (.cls ⟨false, false, [.ch cl]⟩))) (hnl : cl ≠ '\n')
variable (hop : Sep op) (hcl : Sep cl) (hM : ∀ w, M w → op ∉ w ∧ cl ∉ w)
variable (hst : isDelim st = true ∧ isSpace st = false) (hen : isDelim en = true ∧ isSpace en = false)
variable (hmk : ∀ n, opens (mk st en n) = true) (hed : Spec.edge op = true ∧ Spec.edge cl = true)
include hr hnl hop hcl hM hst hen hmk hed

theorem findBlocks_marked (db : CharDB) {b : Str} (ctr : List Str) (hb : '\n' ∉ b) (hw : WordsOk M b) :
    ∃ xs, (findBlocks db r st en b ctr).2 = ctr ++ xs ∧ (∀ x ∈ xs, x <:+: b ∧ Part x b ∧ WordsOk M x) ∧
    ∀ Q, ctr ++ xs <+: Q → Marked M op cl st en Q b (findBlocks db r st en b ctr).1 := by
  obtain ⟨ms, last, h1, -, -, h4, h5⟩ := findBlocks_exact db hr hnl (st := st) (en := en) b ctr hb
  rw [h1] at hw
  obtain ⟨w1, w2, w3⟩ := WordsOk.parts hop hcl hM ms last hw
  obtain ⟨i1, i2⟩ := assembled_infix (op := op) (cl := cl) ms last
  obtain ⟨j1, j2⟩ := assembled_part hed.1 hed.2 ms last
  have hws : splitWs (findBlocks db r st en b ctr).1 = markWords st en ctr.length ms last := by
    rw [h5, multiSpaces_words, marked_words hst.2 hen.2]
  refine ⟨ms.map Prod.snd, h4, ?_, ?_⟩
  · intro x hx
    obtain ⟨m, hm, rfl⟩ := List.mem_map.mp hx
    exact ⟨h1 ▸ (i1 m hm).2, h1 ▸ (j1 m hm).2, (w1 m hm).2⟩
  · intro Q hQ
    refine ⟨?_, ?_, ?_, ?_, ?_⟩
    · intro hn
      rw [h5] at hn
      rcases Re.sub_mem hn with hn | hn
      · have key : ∀ (ms : List (Str × Str)) (k : Nat), '\n' ∈ Spec.marked st en natRepr k ms last →
            (∃ m ∈ ms, '\n' ∈ m.1) ∨ '\n' ∈ last := by
          intro ms
          induction ms with
          | nil => intro k h; exact .inr h
          | cons m ms ih =>
            intro k h
            simp only [Spec.marked, List.mem_append, List.mem_cons, List.not_mem_nil, or_false] at h
            rcases h with (((h | h | h) | h) | h | h) | h
            · exact .inl ⟨m, by simp, h⟩
            · exact absurd h (by decide)
            · rw [← h] at hst; exact absurd hst.1 (by decide)
            · exact absurd (natRepr_isDigit k _ h) (by decide)
            · rw [← h] at hen; exact absurd hen.1 (by decide)
            · exact absurd h (by decide)
            · rcases ih (k + 1) h with ⟨m', hm', h⟩ | h
              · exact .inl ⟨m', by simp [hm'], h⟩
              · exact .inr h
        rcases key ms _ hn with ⟨m, hm, h⟩ | h
        · exact hb (h1 ▸ (i1 m hm).1.subset h)
        · exact hb (h1 ▸ i2.subset h)
      · exact absurd hn (by decide)
    · refine Refl.of_words fun v hv => ?_
      rw [hws] at hv
      rcases mem_markWords ms _ last v hv with ⟨m, hm, h⟩ | h | ⟨i, -, rfl⟩
      · exact Refl.of_infix ((splitWs_infix h).trans (h1 ▸ (i1 m hm).1))
      · exact Refl.of_infix ((splitWs_infix h).trans (h1 ▸ i2))
      · intro w hw hi
        exact absurd hi (mk_no_shape hst.1 hen.1 hw)
    · refine Part.of_words fun v hv => ?_
      rw [hws] at hv
      rcases mem_markWords ms _ last v hv with ⟨m, hm, h⟩ | h | ⟨i, -, rfl⟩
      · exact (Part.word h).trans (h1 ▸ (j1 m hm).1)
      · exact (Part.word h).trans (h1 ▸ j2)
      · exact mk_part hst.1 hen.1 _ _
    · intro w hw
      rw [hws] at hw
      rcases mem_markWords ms _ last w hw with ⟨m, hm, h⟩ | h | ⟨i, hi, rfl⟩
      · rcases (w1 m hm).1 w h with h | h
        · exact .inl h
        · exact .inr (.inl h)
      · rcases w2 w h with h | h
        · exact .inl h
        · exact .inr (.inl h)
      · refine .inr (.inr ⟨_, ?_, rfl⟩)
        have := hQ.length_le
        simp at this
        omega
    · intro ν ν' hν hν'
      have := markWords_value (op := op) (cl := cl) hmk hν hν' ms last ctr (fun m hm => (w1 m hm).1) w2 hQ
      rw [h1, w3]
      rw [← this, ← hws, ← h1]
      rfl

theorem findBlocksAll_marked (db : CharDB) : ∀ (bs : List Str) (ctr : List Str), (∀ b ∈ bs, '\n' ∉ b ∧ WordsOk M b) →
    ∃ xs, (findBlocksAll db r st en bs ctr).2 = ctr ++ xs ∧ (∀ x ∈ xs, ∃ b ∈ bs, x <:+: b ∧ Part x b ∧ WordsOk M x) ∧
    ∀ Q, ctr ++ xs <+: Q → List.Forall₂ (Marked M op cl st en Q) bs (findBlocksAll db r st en bs ctr).1
  | [], ctr, _ => ⟨[], by simp [findBlocksAll], by simp, fun Q _ => .nil⟩
  | b :: bs, ctr, h => by
    obtain ⟨xs, h1, h2, h3⟩ := findBlocks_marked hr hnl hop hcl hM hst hen hmk hed db ctr (h b (by simp)).1 (h b (by simp)).2
    obtain ⟨ys, h4, h5, h6⟩ := findBlocksAll_marked db bs (ctr ++ xs) fun b hb => h b (by simp [hb])
    have e : findBlocksAll db r st en (b :: bs) ctr = ((findBlocks db r st en b ctr).1 :: (findBlocksAll db r st en bs (ctr ++ xs)).1,
        (findBlocksAll db r st en bs (ctr ++ xs)).2) := by
      rw [findBlocksAll, ← h1]
    rw [e]
    refine ⟨xs ++ ys, by rw [h4, List.append_assoc], ?_, ?_⟩
    · intro x hx
      rcases List.mem_append.mp hx with hx | hx
      · exact ⟨b, by simp, h2 x hx⟩
      · obtain ⟨b', hb', h⟩ := h5 x hx
        exact ⟨b', by simp [hb'], h⟩
    · intro Q hQ
      rw [← List.append_assoc] at hQ
      exact .cons (h3 Q ((List.prefix_append _ _).trans hQ)) (h6 Q hQ)

end

end Model
