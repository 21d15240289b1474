import Verif.Lemmas.SentCall

/-! # The sentencizer on texts without addresses -/

namespace Model
open Py

theorem toLower_www {c : Char} (h : c.toLower ∈ c!"www.") : c ∈ ['w', 'W', '.'] := by
  have hn : c.toLower = c ∨ (c.toNat + 32 = c.toLower.toNat ∧ 65 ≤ c.toNat) := by
    unfold Char.toLower
    split
    · rename_i hc
      right
      have h1 : 65 ≤ c.toNat := hc.1
      have h2 : c.toNat ≤ 90 := hc.2
      refine ⟨?_, h1⟩
      simp only [Char.toNat, UInt32.toNat_add]
      have : c.val.toNat ≤ 90 := h2
      have e : ('a'.val - 'A'.val).toNat = 32 := by decide
      rw [e]
      omega
    · exact .inl rfl
  rcases hn with hn | ⟨hn, h65⟩
  · rw [hn] at h
    simp only [List.mem_cons, List.not_mem_nil, or_false] at h ⊢
    tauto
  · have h' : c.toLower = 'w' ∨ c.toLower = '.' := by
      simp only [List.mem_cons, List.not_mem_nil, or_false] at h
      tauto
    have inj : ∀ d : Char, c.toNat = d.toNat → c = d := fun d hd => Char.ext (UInt32.toNat_inj.mp hd)
    rcases h' with h' | h'
    · rw [h'] at hn
      have : c = 'W' := inj 'W' (by
        have : ('w' : Char).toNat = 119 := rfl
        have h2 : ('W' : Char).toNat = 87 := rfl
        omega)
      simp [this]
    · rw [h'] at hn
      have : ('.' : Char).toNat = 46 := rfl
      omega

theorem shape_www {w : Str} (h : w.map Char.toLower = c!"www.") : Shape w := by
  have hc : ∀ c ∈ w, c ∈ ['w', 'W', '.'] := fun c hc => toLower_www (h ▸ List.mem_map_of_mem hc)
  have key : ∀ c ∈ ['w', 'W', '.'], (isSpace c = false ∧ isDelim c = false ∧ c ≠ '¶') ∧ c.isDigit = false := by decide
  refine ⟨?_, fun c h => (key c (hc c h)).1, ?_⟩
  · rintro rfl
    cases h
  · cases w with
    | nil => cases h
    | cons c w => exact ⟨c, by simp, (key c (hc c (by simp))).2⟩

theorem shape_measure {db : CharDB} {w : Str} (h : Spec.Measure db.digit w) : Shape w := by
  obtain ⟨d, v, q, rfl, hd, hv, hq⟩ := h
  have hq' : q ∈ ['‘', '’', '′', '“', '”', '″', '\'', '"'] := by
    unfold Spec.straight at hq
    split at hq
    · rename_i h
      simp only [List.mem_cons, List.not_mem_nil, or_false] at h ⊢
      tauto
    · split at hq
      · rename_i h
        simp only [List.mem_cons, List.not_mem_nil, or_false] at h ⊢
        tauto
      · simp only [List.mem_cons, List.not_mem_nil, or_false]
        tauto
  have key : ∀ c ∈ ['‘', '’', '′', '“', '”', '″', '\'', '"', ',', '.'],
      (isSpace c = false ∧ isDelim c = false ∧ c ≠ '¶') ∧ c.isDigit = false := by decide
  have hdig : ∀ c, db.digit c = true → isSpace c = false ∧ isDelim c = false ∧ c ≠ '¶' := by
    intro c hc
    have hw := db.digit_word c hc
    refine ⟨?_, ?_, ?_⟩
    · rcases hs : isSpace c with _ | _
      · rfl
      · rw [db.word_space c hs] at hw; cases hw
    · rcases hb : isDelim c with _ | _
      · rfl
      · rw [(delims_digit db c (isDelim_iff.mp hb)).1] at hc; cases hc
    · rintro rfl
      rw [db.word_marks '¶' (by decide)] at hw
      cases hw
  refine ⟨by simp, ?_, ⟨q, by simp, (key q (by
    simp only [List.mem_cons, List.not_mem_nil, or_false] at hq' ⊢; tauto)).2⟩⟩
  intro c hc
  simp only [List.mem_cons, List.mem_append, List.not_mem_nil, or_false] at hc
  rcases hc with rfl | hc | rfl
  · exact hdig c hd
  · rcases hv c hc with h | rfl | rfl
    · exact hdig c h
    · exact (key _ (by decide)).1
    · exact (key _ (by decide)).1
  · exact (key c (by simp only [List.mem_cons, List.not_mem_nil, or_false] at hq' ⊢; tauto)).1

/-- A part of a text whose paths and abbreviations are in the text. -/
def Piece (b text : Str) : Prop := Refl b text ∧ Part b text

theorem Piece.trans {a b c : Str} (h : Piece a b) (h' : Piece b c) : Piece a c := ⟨h.1.trans h'.1, h.2.trans h'.2⟩

theorem Piece.prose {b text : Str} (hp : Piece b text) (h : Spec.Writing text) (hu : '_' ∉ b) : Spec.Prose b where
  underscore := hu
  names n hn hi := by
    have key : ∀ n ∈ [c!"NSD", c!"NSGE", c!"NSLE"], n ≠ [] ∧ (∀ c ∈ n, isSpace c = false ∧ isDelim c = false ∧ c ≠ '¶') ∧
        ∃ c ∈ n, c.isDigit = false := by decide
    obtain ⟨k1, k2, k3⟩ := key n hn
    exact h.names n hn (hp.1 n ⟨k1, k2, k3⟩ hi)
  www w hw hi := h.www w hw (hp.1 w (shape_www hw) hi)
  slash hi := by
    obtain ⟨a, c, e⟩ := List.append_of_mem hi
    have := hp.1 ['/'] ⟨by simp, by decide, by decide⟩ ⟨a, c, by simp [e]⟩
    obtain ⟨h1, h2, h3⟩ := h.slash (this.subset (by simp))
    refine words_slash (fun hi => h1 (hp.1 _ ⟨by simp, by decide, by decide⟩ hi)) (fun h4 => ?_)
      fun w hw ha => h3 w hw (hp.2.alone w hw ha)
    obtain ⟨u, h5, h6⟩ := hp.2.path h4
    exact h2 u h5 h6

/-- The conditions under which characters are kept. -/
def Keeps (db : CharDB) (text : Str) : Prop := (∀ w, Spec.Measure db.digit w → ¬ w <:+: text) ∧ ¬ c!"**" <:+: text

theorem Refl.keeps {db : CharDB} {b text : Str} (hr : Refl b text) (h : Keeps db text) : Keeps db b :=
  ⟨fun w hw hi => h.1 w hw (hr w (shape_measure hw) hi),
    fun hi => h.2 (hr _ ⟨by decide, by decide, by decide⟩ hi)⟩

/-- Tokens of a part of a text. -/
theorem tokenize_part (db : CharDB) {b text : Str} (h : Spec.Writing text) (hr : Piece b text)
    (hw : ∀ w ∈ splitWs b, Clean w ∨ Mark w) :
    (∀ t ∈ tokenize db b, Clean t ∨ (Mark t ∧ t ∈ splitWs b)) ∧
    (Keeps db text → ∀ ν, (tokenize db b).flatMap (val ν id) = value ν b) := by
  have hu : '_' ∉ b := by
    intro hu
    obtain ⟨x, y, e⟩ := List.append_of_mem hu
    obtain ⟨v, hv, hi⟩ := infix_word (w := ['_']) (by decide) (by simp) _ b (Nat.le_refl _) ⟨x, y, by simp [e]⟩
    have hm : '_' ∈ v := hi.subset (by simp)
    rcases hw v hv with h | h
    · exact absurd (h _ hm) (by decide)
    · exact mark_no_underscore h hm
  obtain ⟨h1, h2⟩ := tokenize_words db (hr.prose h hu) hw
  exact ⟨h1, fun hk ν => h2 (hr.1.keeps hk).1 (hr.1.keeps hk).2 ν⟩

theorem mapM_kept {α β : Type} {f : α → Except PyErr β} {K : Prop} {P : α → β → Prop} : ∀ (l : List α),
    (∀ a ∈ l, ∃ b, f a = .ok b ∧ (K → P a b)) → ∃ bs, l.mapM f = .ok bs ∧ (K → List.Forall₂ P l bs)
  | [], _ => ⟨[], rfl, fun _ => .nil⟩
  | a :: l, h => by
    obtain ⟨b, h1, h2⟩ := h a (by simp)
    obtain ⟨bs, h3, h4⟩ := mapM_kept l fun a ha => h a (by simp [ha])
    refine ⟨b :: bs, ?_, fun hk => .cons (h2 hk) (h4 hk)⟩
    rw [List.mapM_cons, h1, h3]
    rfl

theorem forall₂_flatMap {α β γ : Type} {f : α → List γ} {g : β → List γ} {l : List α} {bs : List β}
    (h : List.Forall₂ (fun a b => g b = f a) l bs) : bs.flatMap g = l.flatMap f := by
  induction h with
  | nil => rfl
  | cons h _ ih => rw [List.flatMap_cons, List.flatMap_cons, h, ih]

theorem forall₂_mem_right {α β : Type} {R : α → β → Prop} {l : List α} {bs : List β} (h : List.Forall₂ R l bs) {b : β}
    (hb : b ∈ bs) : ∃ a ∈ l, R a b := by
  induction h with
  | nil => cases hb
  | cons h _ ih =>
    rcases List.mem_cons.mp hb with rfl | hb
    · exact ⟨_, by simp, h⟩
    · obtain ⟨a, ha, h⟩ := ih hb
      exact ⟨a, by simp [ha], h⟩

theorem forall₂_imp_mem {α β : Type} {R S : α → β → Prop} {l : List α} {bs : List β} (h : List.Forall₂ R l bs)
    (hS : ∀ a b, a ∈ l → R a b → S a b) : List.Forall₂ S l bs := by
  induction h with
  | nil => exact .nil
  | cons h _ ih => exact .cons (hS _ _ (by simp) h) (ih fun a b ha => hS a b (by simp [ha]))

/-- Markers of quotes. -/
def QMark (quotes : List Str) (w : Str) : Prop := ∃ n, n < quotes.length ∧ w = mk '༺' '༻' n

/-- Markers of brackets. -/
def BMark (brackets : List Str) (w : Str) : Prop := ∃ n, n < brackets.length ∧ w = mk '⦅' '⦆' n

theorem QMark.mark {quotes : List Str} {w : Str} (h : QMark quotes w) : Mark w := by
  obtain ⟨n, -, rfl⟩ := h
  exact ⟨n, .inl rfl⟩

theorem BMark.mark {brackets : List Str} {w : Str} (h : BMark brackets w) : Mark w := by
  obtain ⟨n, -, rfl⟩ := h
  exact ⟨n, .inr rfl⟩

/-- Value of a marker of a quote. -/
def qVal (db : CharDB) (quotes : List Str) (w : Str) : Str := '"' :: (inkP (lookupMark db quotes w) ++ ['"'])

/-- Value of a marker. -/
def bVal (db : CharDB) (quotes brackets : List Str) (w : Str) : Str :=
  if w.head? = some '༺' then qVal db quotes w else '(' :: (value (qVal db quotes) (lookupMark db brackets w) ++ [')'])

section
variable {db : CharDB} {text : Str} (h : Spec.Writing text)
include h

theorem quoteBlock_ok {quotes : List Str} (hq : ∀ q ∈ quotes, Clean q ∧ Piece q text) {t : Str} (ht : QMark quotes t) :
    ∃ p, quoteBlock db (tokenize db) quotes t = .ok p ∧ (Keeps db text → p.flatten = qVal db quotes t) := by
  obtain ⟨n, hn, rfl⟩ := ht
  have hmem : quotes[n] ∈ quotes := List.getElem_mem hn
  obtain ⟨hc, hr⟩ := hq _ hmem
  obtain ⟨h1, h2⟩ := tokenize_part db h hr fun w hw => .inl (hc.words w hw)
  refine ⟨[c!"\""] ++ tokenize db quotes[n] ++ [c!"\""], ?_, ?_⟩
  · unfold quoteBlock
    rw [mk, slice_inner, intOf_natRepr]
    show (index quotes (n : Int) >>= fun q => _) = _
    rw [block_index hn]
    rfl
  · intro hk
    have h3 := h2 hk (fun _ => [])
    rw [value_clean hc.words] at h3
    have h4 : (tokenize db quotes[n]).flatten = inkP quotes[n] := by
      rw [← h3, List.flatMap_def]
      congr 1
      conv_lhs => rw [← List.map_id (tokenize db quotes[n])]
      refine List.map_congr_left fun t ht => ?_
      rcases h1 t ht with hct | ⟨hm, hmw⟩
      · rw [val, if_neg (by simp [hct.not_opens])]
      · have := (hc.words t hmw).not_opens
        rw [hm.opens] at this
        cases this
    rw [qVal, lookupMark_mk db hn, List.flatten_append, List.flatten_append, h4]
    simp

theorem nestedToken_ok {quotes : List Str} (hq : ∀ q ∈ quotes, Clean q ∧ Piece q text) {t : Str}
    (ht : Clean t ∨ QMark quotes t) :
    ∃ p, nestedToken db (tokenize db) quotes t = .ok p ∧ (Keeps db text → p.flatten = val (qVal db quotes) id t) := by
  rcases ht with hc | hm
  · refine ⟨[t], ?_, fun _ => ?_⟩
    · rw [nestedToken, if_neg]
      intro hh
      have := hc.not_opens
      simp [opens, hh] at this
    · rw [val, if_neg (by simp [hc.not_opens])]
      simp
  · obtain ⟨p, h1, h2⟩ := quoteBlock_ok h hq hm
    refine ⟨p, ?_, fun hk => ?_⟩
    · rw [nestedToken, if_pos, h1]
      obtain ⟨n, -, rfl⟩ := hm
      rfl
    · rw [h2 hk, val, if_pos hm.mark.opens]

theorem sentToken_ok {quotes brackets : List Str} (hq : ∀ q ∈ quotes, Clean q ∧ Piece q text)
    (hb : ∀ x ∈ brackets, WordsOk (QMark quotes) x ∧ Piece x text) {t : Str}
    (ht : Clean t ∨ QMark quotes t ∨ BMark brackets t) :
    ∃ p, sentToken db (tokenize db) quotes brackets t = .ok p ∧
      (Keeps db text → p.flatten = val (bVal db quotes brackets) id t) := by
  rcases ht with hc | hm | hm
  · refine ⟨[t], ?_, fun _ => ?_⟩
    · have := hc.not_opens
      simp only [opens, Bool.or_eq_false_iff, beq_eq_false_iff_ne] at this
      rw [sentToken, if_neg this.1, if_neg this.2]
    · rw [val, if_neg (by simp [hc.not_opens])]
      simp
  · obtain ⟨p, h1, h2⟩ := quoteBlock_ok h hq hm
    have hhead : t.head? = some '༺' := by
      obtain ⟨n, -, rfl⟩ := hm
      rfl
    refine ⟨p, ?_, fun hk => ?_⟩
    · rw [sentToken, if_pos hhead, h1]
    · rw [h2 hk, val, if_pos hm.mark.opens, bVal, if_pos hhead]
  · have hop := hm.mark.opens
    obtain ⟨n, hn, rfl⟩ := hm
    obtain ⟨hw, hr⟩ := hb _ (List.getElem_mem hn)
    obtain ⟨h1, h2⟩ := tokenize_part db h hr fun w hw' => (hw w hw').imp id QMark.mark
    obtain ⟨ps, h3, h4⟩ := mapM_kept (f := nestedToken db (tokenize db) quotes) (K := Keeps db text)
      (P := fun t p => p.flatten = val (qVal db quotes) id t) (tokenize db brackets[n]) (by
        intro t ht
        refine nestedToken_ok h hq ?_
        rcases h1 t ht with hc | ⟨hm, hmw⟩
        · exact .inl hc
        · exact hw t hmw)
    have hne : ¬ (mk '⦅' '⦆' n).head? = some '༺' := by
      simp [mk]
    refine ⟨[c!"("] ++ ps.flatten ++ [c!")"], ?_, fun hk => ?_⟩
    · rw [sentToken, if_neg hne, if_pos (by simp [mk])]
      rw [show slice (mk '⦅' '⦆' n) 1 (-1) = natRepr n from slice_inner _ _ _, intOf_natRepr]
      show (index brackets (n : Int) >>= fun q => _) = _
      rw [block_index hn]
      show ((tokenize db brackets[n]).mapM (nestedToken db (tokenize db) quotes) >>= fun q => _) = _
      rw [h3]
      rfl
    · have h5 := forall₂_flatMap (g := List.flatten) (f := val (qVal db quotes) id) (h4 hk)
      rw [h2 hk] at h5
      rw [val, if_pos hop, bVal, if_neg hne, lookupMark_mk db hn, List.flatten_append, List.flatten_append, ← h5]
      simp [List.flatMap_def, List.flatten_flatten]

end

theorem blocks_unpil (db : CharDB) (bs : List Str) :
    unpil ((bs.map (sanitize db sentSanitization)).flatMap inkP) = unpil (bs.flatMap inkP) := by
  induction bs with
  | nil => rfl
  | cons b bs ih =>
    rw [List.map_cons, List.flatMap_cons, List.flatMap_cons, unpil_append, unpil_append, ih, (sent_block db b).2.2.2.1]

/-- Value of tokens without the pilcrows among them. -/
theorem drop_pil {ν : Str → Str} (ts : List Str) :
    unpil ((ts.filter fun t => t ≠ c!"¶").flatMap (val ν id)) = unpil (ts.flatMap (val ν id)) := by
  induction ts with
  | nil => rfl
  | cons t ts ih =>
    by_cases ht : t = c!"¶"
    · subst ht
      have hop : opens c!"¶" = false := by decide
      simp only [List.filter_cons, ne_eq, not_true_eq_false, decide_false, Bool.false_eq_true, if_false]
      rw [List.flatMap_cons, unpil_append, ← ih, val, hop]
      simp [unpil]
    · rw [List.filter_cons, if_pos (by simpa using ht), List.flatMap_cons, List.flatMap_cons, unpil_append, unpil_append, ih]

theorem forall₂_groups {α β γ : Type} {P : β → γ → Prop} {f : α → List β} : ∀ {bs : List α} {r : List γ},
    List.Forall₂ P (bs.flatMap f) r → ∃ gs, r = gs.flatten ∧ List.Forall₂ (fun b g => List.Forall₂ P (f b) g) bs gs
  | [], r, h => by
    cases h
    exact ⟨[], rfl, .nil⟩
  | b :: bs, r, h => by
    rw [List.flatMap_cons] at h
    have h1 := List.forall₂_take_append r (f b) _ h.flip
    have h2 := List.forall₂_drop_append r (f b) _ h.flip
    obtain ⟨gs, e, h3⟩ := forall₂_groups h2.flip
    exact ⟨r.take (f b).length :: gs, by rw [List.flatten_cons, ← e, List.take_append_drop], .cons h1.flip h3⟩

theorem forall₂_trans {α β γ : Type} {R : α → β → Prop} {S : β → γ → Prop} {T : α → γ → Prop} (hT : ∀ a b c, R a b → S b c → T a c) :
    ∀ {l : List α} {m : List β} {n : List γ}, List.Forall₂ R l m → List.Forall₂ S m n → List.Forall₂ T l n
  | _, _, _, .nil, .nil => .nil
  | _, _, _, .cons h1 h2, .cons h3 h4 => .cons (hT _ _ _ h1 h3) (forall₂_trans hT h2 h4)

theorem forall₂_map_self {α β : Type} {R : α → β → Prop} {f : α → β} : ∀ {l : List α}, (∀ a ∈ l, R a (f a)) →
    List.Forall₂ R l (l.map f)
  | [], _ => .nil
  | a :: l, h => .cons (h a (by simp)) (forall₂_map_self fun b hb => h b (by simp [hb]))

/-- The sentencizer on a text that is fit for it, without marker characters. -/
theorem sentencize_writing (db : CharDB) {text : Str} (h : Spec.Writing text) (hc : Clean text) :
    ∃ r, sentencize db (tokenize db) text = .ok r ∧
      (Keeps db text → unpil r.flatten.flatten = unpil (inkP text) ∧
        (¬ c!".\"" <:+: text → '¶' ∉ text → r.flatten.flatten = inkP text) ∧
        ∃ gs, r = gs.flatten ∧ List.Forall₂ (fun l g => unpil g.flatten.flatten = unpil (inkP l)) (reNewline.split db text) gs) := by
  obtain ⟨n1, n2⟩ := newline_split db text
  generalize hbs : (reNewline.split db text).map (sanitize db sentSanitization) = bs0
  have hbs0 : ∀ b ∈ bs0, '\n' ∉ b ∧ Clean b ∧ Piece b text := by
    intro b hb
    rw [← hbs, List.mem_map] at hb
    obtain ⟨x, hx, rfl⟩ := hb
    obtain ⟨s1, s2, s3, -, -⟩ := sent_block db x
    refine ⟨s1, fun c hc' => ?_, ⟨s2.trans (Refl.of_infix (n1 x hx)), (sent_block_part db x).trans (newline_part db text x hx)⟩⟩
    rcases s3 c hc' with h | rfl | rfl
    · exact hc c ((n1 x hx).subset h)
    · decide
    · decide
  -- quotes
  have hquo : Sep '"' := ⟨by decide, by decide, by decide⟩
  have hop : Sep '(' := ⟨by decide, by decide, by decide⟩
  have hcl : Sep ')' := ⟨by decide, by decide, by decide⟩
  obtain ⟨quotes, q1, q2, q3⟩ := findBlocksAll_marked (M := fun _ => False) (r := reQuote) (op := '"') (cl := '"')
    (st := '༺') (en := '༻') rfl (by decide) hquo hquo (fun _ h => h.elim) (by decide) (by decide) (fun n => rfl) (by decide) db bs0 []
    fun b hb => ⟨(hbs0 b hb).1, fun w hw => .inl ((hbs0 b hb).2.1.words w hw)⟩
  rw [List.nil_append] at q1 q3
  have q3 := q3 quotes List.prefix_rfl
  generalize hf1 : findBlocksAll db reQuote '༺' '༻' bs0 [] = f1 at q1 q3
  obtain ⟨bs1, ctr1⟩ := f1
  simp only at q1 q3
  subst q1
  have hq : ∀ q ∈ ctr1, Clean q ∧ Piece q text := by
    intro q hq
    obtain ⟨b, hb, hi, hp, -⟩ := q2 q hq
    exact ⟨(hbs0 b hb).2.1.infix hi, Piece.trans ⟨Refl.of_infix hi, hp⟩ (hbs0 b hb).2.2⟩
  have hbs1 : ∀ b ∈ bs1, '\n' ∉ b ∧ WordsOk (QMark ctr1) b ∧ Piece b text := by
    intro b hb
    obtain ⟨b0, hb0, hm⟩ := forall₂_mem_right q3 hb
    refine ⟨hm.nl, fun w hw => ?_, Piece.trans ⟨hm.refl, hm.part⟩ (hbs0 b0 hb0).2.2⟩
    rcases hm.words w hw with h | h | h
    · exact .inl h
    · exact h.elim
    · exact .inr h
  have w1 : List.Forall₂ (fun b0 b1 => value (qVal db ctr1) b1 = inkP b0) bs0 bs1 := by
    refine forall₂_imp_mem q3 fun b0 b1 hb0 hm => ?_
    rw [hm.value (fun _ => []) _ (fun _ h => h.elim) (fun n hn => by
      rw [qVal, lookupMark_mk db hn, value_clean (hq _ (List.getElem_mem hn)).1.words]),
      value_clean (hbs0 b0 hb0).2.1.words]
  have v1 : bs1.flatMap (value (qVal db ctr1)) = bs0.flatMap inkP := forall₂_flatMap w1
  -- brackets
  obtain ⟨brackets, b1, b2, b3⟩ := findBlocksAll_marked (M := QMark ctr1) (r := reBracket) (op := '(') (cl := ')')
    (st := '⦅') (en := '⦆') rfl (by decide) hop hcl (by
      intro w hw
      have := hw.mark.chars
      constructor <;> intro hc <;> exact absurd (this _ hc) (by decide)) (by decide) (by decide) (fun n => rfl) (by decide) db bs1 []
    fun b hb => ⟨(hbs1 b hb).1, (hbs1 b hb).2.1⟩
  rw [List.nil_append] at b1 b3
  have b3 := b3 brackets List.prefix_rfl
  generalize hf2 : findBlocksAll db reBracket '⦅' '⦆' bs1 [] = f2 at b1 b3
  obtain ⟨bs2, ctr2⟩ := f2
  simp only at b1 b3
  subst b1
  have hb : ∀ x ∈ ctr2, WordsOk (QMark ctr1) x ∧ Piece x text := by
    intro x hx
    obtain ⟨b, hb, hi, hp, hw⟩ := b2 x hx
    exact ⟨hw, Piece.trans ⟨Refl.of_infix hi, hp⟩ (hbs1 b hb).2.2⟩
  have hbs2 : ∀ b ∈ bs2, (∀ w ∈ splitWs b, Clean w ∨ QMark ctr1 w ∨ BMark ctr2 w) ∧ Piece b text := by
    intro b hb
    obtain ⟨b0, hb0, hm⟩ := forall₂_mem_right b3 hb
    exact ⟨hm.words, Piece.trans ⟨hm.refl, hm.part⟩ (hbs1 b0 hb0).2.2⟩
  have w2 : List.Forall₂ (fun b1 b2 => value (bVal db ctr1 ctr2) b2 = value (qVal db ctr1) b1) bs1 bs2 := by
    refine forall₂_imp_mem b3 fun b0 b1 hb0 hm => ?_
    refine hm.value (qVal db ctr1) _ ?_ ?_
    · rintro w ⟨n, hn, rfl⟩
      rfl
    · intro n hn
      rw [bVal, if_neg (by simp [mk]), lookupMark_mk db hn]
  have v2 : bs2.flatMap (value (bVal db ctr1 ctr2)) = bs1.flatMap (value (qVal db ctr1)) := forall₂_flatMap w2
  -- tokens
  have htok : ∀ b ∈ bs2, (∀ t ∈ tokenize db b, Clean t ∨ QMark ctr1 t ∨ BMark ctr2 t) ∧
      (Keeps db text → ∀ ν, (tokenize db b).flatMap (val ν id) = value ν b) := by
    intro b hb
    obtain ⟨hw, hr⟩ := hbs2 b hb
    obtain ⟨t1, t2⟩ := tokenize_part db h hr fun w hw' => by
      rcases hw w hw' with h | h | h
      · exact .inl h
      · exact .inr h.mark
      · exact .inr h.mark
    refine ⟨fun t ht => ?_, t2⟩
    rcases t1 t ht with hct | ⟨-, hmw⟩
    · exact .inl hct
    · exact hw t hmw
  have hsents : ∀ sent ∈ bs2.flatMap fun block => splitSentences db (tokenize db block), ∀ t ∈ sent,
      Clean t ∨ QMark ctr1 t ∨ BMark ctr2 t := by
    intro sent hs t ht
    obtain ⟨b, hb, hs⟩ := List.mem_flatMap.mp hs
    have hmem : t ∈ (splitSentences db (tokenize db b)).flatten := List.mem_flatten.mpr ⟨sent, hs, ht⟩
    rw [splitSentences_flatten, List.mem_filter] at hmem
    exact (htok b hb).1 t hmem.1
  obtain ⟨r, r1, r2⟩ := mapM_kept (K := Keeps db text) (f := fun sent => do
      let parts ← sent.mapM (sentToken db (tokenize db) ctr1 ctr2)
      return parts.flatten) (P := fun sent out => out.flatten = sent.flatMap (val (bVal db ctr1 ctr2) id))
    (bs2.flatMap fun block => splitSentences db (tokenize db block)) (by
      intro sent hs
      obtain ⟨ps, p1, p2⟩ := mapM_kept (K := Keeps db text) (f := sentToken db (tokenize db) ctr1 ctr2)
        (P := fun t p => p.flatten = val (bVal db ctr1 ctr2) id t) sent fun t ht => sentToken_ok h hq hb (hsents sent hs t ht)
      refine ⟨ps.flatten, ?_, fun hk => ?_⟩
      · show (sent.mapM (sentToken db (tokenize db) ctr1 ctr2) >>= fun q => _) = _
        rw [p1]
        rfl
      · rw [← forall₂_flatMap (g := List.flatten) (f := val (bVal db ctr1 ctr2) id) (p2 hk)]
        rw [List.flatMap_def, List.flatten_flatten])
  refine ⟨r, ?_, fun hk => ?_⟩
  · unfold sentencize
    simp only [hbs, hf1, hf2]
    exact r1
  · have e1 : r.flatten.flatten = bs2.flatMap fun b =>
        ((tokenize db b).filter fun t => t ≠ c!"¶").flatMap (val (bVal db ctr1 ctr2) id) := by
      have := forall₂_flatMap (g := List.flatten) (f := fun s : List Str => s.flatMap (val (bVal db ctr1 ctr2) id)) (r2 hk)
      rw [List.flatten_flatten, ← List.flatMap_def, this, List.flatMap_assoc]
      refine List.flatMap_congr fun b _ => ?_
      rw [← splitSentences_flatten, List.flatMap_def, List.flatMap_def, List.map_flatten, List.flatten_flatten, List.map_map]
      congr 1
    have e2 : bs2.flatMap (fun b => (tokenize db b).flatMap (val (bVal db ctr1 ctr2) id)) = bs0.flatMap inkP := by
      rw [← v1, ← v2]
      exact List.flatMap_congr fun b hb => (htok b hb).2 hk _
    have e3 : unpil (bs0.flatMap inkP) = unpil (inkP text) := by
      rw [← hbs, blocks_unpil, n2]
    have w3 : ∃ gs, r = gs.flatten ∧
        List.Forall₂ (fun l g => unpil g.flatten.flatten = unpil (inkP l)) (reNewline.split db text) gs := by
      obtain ⟨gs, g1, g2⟩ := forall₂_groups (r2 hk)
      refine ⟨gs, g1, ?_⟩
      have w4 : List.Forall₂ (fun b2 (g : List (List Str)) => unpil g.flatten.flatten = unpil (value (bVal db ctr1 ctr2) b2))
          bs2 gs := by
        refine forall₂_imp_mem g2 fun b g hb hg => ?_
        have := forall₂_flatMap (g := List.flatten) (f := fun s : List Str => s.flatMap (val (bVal db ctr1 ctr2) id)) hg
        rw [List.flatten_flatten, ← List.flatMap_def, this, ← (htok b hb).2 hk, ← drop_pil, ← splitSentences_flatten,
          List.flatMap_def, List.flatMap_def, List.map_flatten, List.flatten_flatten, List.map_map]
        congr 2
      have w0 : List.Forall₂ (fun l b0 => unpil (inkP b0) = unpil (inkP l)) (reNewline.split db text) bs0 := by
        rw [← hbs]
        exact forall₂_map_self fun l _ => (sent_block db l).2.2.2.1
      have w5 := forall₂_trans (T := fun b1 (g : List (List Str)) => unpil g.flatten.flatten = unpil (value (qVal db ctr1) b1))
        (fun _ _ _ h1 h2 => h2.trans (congrArg unpil h1)) w2 w4
      have w6 := forall₂_trans (T := fun b0 (g : List (List Str)) => unpil g.flatten.flatten = unpil (inkP b0))
        (fun _ _ _ h1 h2 => h2.trans (congrArg unpil h1)) w1 w5
      exact forall₂_trans (fun _ _ _ h1 h2 => h2.trans h1) w0 w6
    refine ⟨?_, fun hdot hpil => ?_, w3⟩
    · rw [e1, ← e3, ← e2]
      clear e1 e2 v2 htok hbs2 b3 hsents r1 r2 hf2 w2 w3
      induction bs2 with
      | nil => rfl
      | cons b bs ih => rw [List.flatMap_cons, List.flatMap_cons, unpil_append, unpil_append, ih, drop_pil]
    · have e4 : bs0.flatMap inkP = inkP text := by
        rw [← hbs, ← n2, List.flatMap_map]
        exact List.flatMap_congr fun b hb => (sent_block db b).2.2.2.2 fun h => hdot (h.trans (n1 b hb))
      have e5 : '¶' ∉ inkP text := by
        intro h
        rcases plainer_mem (List.mem_of_mem_filter h) with h | h
        · exact hpil h
        · revert h; decide
      rw [e1, ← e4, ← e2]
      refine List.flatMap_congr fun b hb => ?_
      rw [List.filter_eq_self.mpr]
      intro t ht
      rw [decide_eq_true_eq]
      rintro rfl
      refine e5 ?_
      rw [← e4, ← e2]
      exact List.mem_flatMap.mpr ⟨b, hb, List.mem_flatMap.mpr ⟨_, ht, by
        rw [val, if_neg (by decide)]; simp⟩⟩

end Model
