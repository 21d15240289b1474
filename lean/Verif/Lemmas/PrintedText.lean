import Verif.Lemmas.PrintedTokens

/-! The stages of the tokenizer, put together. -/

namespace Model
open Py

variable {db : CharDB}

theorem space_not_odd (db : CharDB) {c : Char} (h : isSpace c = true) : odd c = false := by
  unfold odd
  rw [plain_not_special (db := db) (.inr h)]
  rfl

/-- A text whose words have no odd character has none. -/
theorem clean_of_words (db : CharDB) {text : Str} (h : ∀ w ∈ splitWs text, ∀ c ∈ w, odd c = false) : ∀ c ∈ text, odd c = false := by
  intro c hc
  by_cases hs : isSpace c = true
  · exact space_not_odd db hs
  · obtain ⟨x, y, rfl⟩ := List.append_of_mem hc
    obtain ⟨A, a, b, B, x', y', h1, -⟩ := word_around (c := c) (by simpa using hs) x y
    exact h (a ++ c :: b) (by rw [h1]; simp) c (by simp)

section
variable {p : Spec.Printed} (h : p.Ordinary db)
include h

theorem Ordinary.not_odd {c : Char} (hc : c ∈ p.text) : odd c = false := by
  rcases Ordinary.text_mem h hc with hp | hu
  · unfold odd
    rw [plain_not_special (.inl hp)]
    rfl
  · have : ∀ c ∈ usedMarks, odd c = false := by decide
    exact this c hu

theorem Ordinary.cutCannot_odd : ∀ w ∈ cutCannot p, ∀ c ∈ w, odd c = false := by
  intro w hw c hc
  have hmem : c ∈ p.text ∨ c = ',' := by
    unfold Spec.Printed.text
    simp only [List.mem_append]
    rcases cutCannot_cases hw with ⟨d, rfl, hd⟩ | hi | ⟨m, hm, rfl⟩
    · rw [List.mem_singleton] at hc
      subst hc
      tauto
    · have := cannotInit_mem hi hc
      tauto
    · simp only [List.mem_append] at hc
      rcases hc with (hc | hc) | hc
      · have := cannotLast_mem hc
        tauto
      · tauto
      · rcases hm with rfl | ⟨rfl, -⟩
        · cases hc
        · exact .inr (by simpa using hc)
  rcases hmem with hc | rfl
  · exact Ordinary.not_odd h hc
  · decide

/-- The characters of the tokens. -/
theorem Ordinary.token_cases {w : Str} (hw : w ∈ p.tokens) :
    (∃ c, w = [c] ∧ c ∈ usedMarks) ∨ (NoBlank w ∧ ∀ c ∈ w, c ∈ p.stem ++ p.tail) := by
  have hstem := Ordinary.stem_noBlank h
  unfold Spec.Printed.tokens Spec.Printed.singles at hw
  rw [splitCannot_eq] at hw
  simp only [List.mem_append, List.mem_map, List.mem_singleton] at hw
  rcases hw with ⟨c, hc, rfl⟩ | (hi | rfl) | ht | ⟨c, hc, rfl⟩ | ⟨c, hc, rfl⟩ | ⟨c, hc, rfl⟩
  · exact .inl ⟨c, rfl, (Ordinary.around h c (.inl hc)).1⟩
  · exact .inr ⟨⟨cannotInit_ne hi, fun c hc => hstem.2 c (cannotInit_mem hi hc)⟩, fun c hc =>
      List.mem_append_left _ (cannotInit_mem hi hc)⟩
  · exact .inr ⟨⟨cannotLast_ne hstem.1, fun c hc => hstem.2 c (cannotLast_mem hc)⟩, fun c hc =>
      List.mem_append_left _ (cannotLast_mem hc)⟩
  · split at ht
    · cases ht
    · rename_i hne
      rw [List.mem_singleton] at ht
      subst ht
      exact .inr ⟨⟨hne, Ordinary.tail_noBlank h⟩, fun c hc => List.mem_append_right _ hc⟩
  · exact .inl ⟨c, rfl, (Ordinary.around h c (.inr (.inl hc))).1⟩
  · exact .inl ⟨c, rfl, (Ordinary.around h c (.inr (.inr (.inl hc)))).1⟩
  · exact .inl ⟨c, rfl, (Ordinary.around h c (.inr (.inr (.inr hc)))).1⟩

theorem Ordinary.token_noBlank {w : Str} (hw : w ∈ p.tokens) : NoBlank w := by
  rcases Ordinary.token_cases h hw with ⟨c, rfl, hc⟩ | ⟨hn, -⟩
  · have : ∀ c ∈ usedMarks, isSpace c = false := by decide
    exact ⟨by simp, by simpa using this c hc⟩
  · exact hn

theorem Ordinary.token_odd {w : Str} (hw : w ∈ p.tokens) : ∀ c ∈ w, odd c = false := by
  intro c hc
  rcases Ordinary.token_cases h hw with ⟨d, rfl, hd⟩ | ⟨-, hm⟩
  · have : ∀ c ∈ usedMarks, odd c = false := by decide
    rw [List.mem_singleton] at hc
    subst hc
    exact this c hd
  · apply Ordinary.not_odd h
    have := hm c hc
    unfold Spec.Printed.text
    simp only [List.mem_append] at this ⊢
    tauto

/-- A dot is a token of its own. -/
theorem Ordinary.token_dot {w : Str} (hw : w ∈ p.tokens) (hd : '.' ∈ w) : w = ['.'] := by
  rcases Ordinary.token_cases h hw with ⟨c, rfl, -⟩ | ⟨-, hm⟩
  · rw [List.mem_singleton] at hd
    rw [hd]
  · exact absurd (hm _ hd) (Ordinary.core_not h (by decide) (by decide))

end

/-! ### Words and their tokens -/

/-- The words after the first split. -/
def stepAlways (db : CharDB) (w : Str) : List Str := splitWs (tokAlwaysSplit.1.sub db tokAlwaysSplit.2 w)
/-- The words after the split at dots. -/
def stepDots (db : CharDB) (w : Str) : List Str := (stepAlways db w).flatMap (splitDots db)
/-- The words after the split of "cannot". -/
def stepCannot (db : CharDB) (w : Str) : List Str :=
  (stepDots db w).flatMap fun v => splitWs (cannotRule.1.sub db cannotRule.2 v)
/-- The words after the split at commas. -/
def stepComma (db : CharDB) (w : Str) : List Str := (stepCannot db w).flatMap commaCut

/-- The stages of the tokenizer treat a word on its own, wherever it stands. -/
structure WordCut (db : CharDB) (w : Str) (toks : List Str) : Prop where
  always : ∃ o, OnWord db tokAlwaysSplit.1 tokAlwaysSplit.2 w o
  solid : ∀ v ∈ stepDots db w, NoBlank v
  cannot : ∀ v ∈ stepDots db w, ∃ o, OnWord db cannotRule.1 cannotRule.2 v o
  clean : ∀ v ∈ stepCannot db w, ∀ c ∈ v, odd c = false
  comma : ∀ v ∈ stepCannot db w, CommaWord v
  quote : ∀ v ∈ stepComma db w, Quotable v
  tail : ∀ v ∈ stepComma db w, ∃ o, OnWord db tailRule.1 tailRule.2 v o
  tokens : (stepComma db w).flatMap (fun v => splitWs (tailRule.1.sub db tailRule.2 v)) = toks
  noBlank : ∀ v ∈ toks, NoBlank v
  calm : ∀ v ∈ toks, ∀ c ∈ v, odd c = false
  dot : ∀ v ∈ toks, '.' ∈ v → v = ['.']

/-- Ordinary words. -/
theorem Ordinary.cut {p : Spec.Printed} (h : p.Ordinary db) : WordCut db p.text p.tokens := by
  have eA : stepAlways db p.text = cutAlways p := by
    unfold stepAlways
    rw [(Ordinary.always h).sub_eq, Ordinary.splitWs_always h]
  have eD : stepDots db p.text = cutDots p := by
    unfold stepDots
    rw [eA, Ordinary.dots h]
  have eC : stepCannot db p.text = cutCannot p := by
    unfold stepCannot
    rw [eD, Ordinary.cannot_cut h]
  have eM : stepComma db p.text = cutComma p := by
    unfold stepComma
    rw [eC, Ordinary.comma_cut h]
  refine ⟨⟨_, Ordinary.always h⟩, ?_, ?_, ?_, ?_, ?_, ?_, ?_, fun v hv => Ordinary.token_noBlank h hv,
    fun v hv => Ordinary.token_odd h hv, fun v hv => Ordinary.token_dot h hv⟩
  · rw [eD]
    intro w hw
    have hc := Ordinary.core_noBlank h
    rcases cutDots_cases hw with ⟨c, rfl, hm⟩ | ⟨m, hm, rfl⟩
    · have : ∀ c ∈ usedMarks, isSpace c = false := by decide
      exact ⟨by simp, by simpa using this c (Ordinary.around h c hm).1⟩
    · refine ⟨by simp [h.stem_ne], fun c hcm => ?_⟩
      rcases List.mem_append.mp hcm with hcm | hcm
      · exact hc.2 c hcm
      · rcases hm with rfl | ⟨rfl, -⟩
        · cases hcm
        · rw [List.mem_singleton] at hcm
          subst hcm
          decide
  · rw [eD]; exact Ordinary.cannot_on h
  · rw [eC]; exact Ordinary.cutCannot_odd h
  · rw [eC]; exact Ordinary.comma_words h
  · rw [eM]; exact Ordinary.quotable h
  · rw [eM]; exact Ordinary.tail_on h
  · rw [eM]; exact Ordinary.tail_cut h

theorem quotable_of_not {w : Str} (hq : '\'' ∉ w) : Quotable w := fun a b e => absurd (by rw [e]; simp) hq

/-- Words without anything to split. -/
theorem cut_self {w : Str} (hn : NoBlank w) (ha : ∀ c ∈ w, c ∉ alwaysChars ∧ c ≠ '.') (hc : ∀ c ∈ w, foldCase c ≠ 'c')
    (hm : ',' ∉ w) (hq : '\'' ∉ w) (ho : ∀ c ∈ w, odd c = false) : WordCut db w [w] := by
  have a1 : OnWord db tokAlwaysSplit.1 tokAlwaysSplit.2 w w := fun pre rest _ _ => always_skip ha
  have c1 : OnWord db cannotRule.1 cannotRule.2 w w := fun pre rest _ _ => cannot_skip hc
  have hd : '.' ∉ w := fun h => (ha _ h).2 rfl
  have eD : stepDots db w = [w] := by
    unfold stepDots stepAlways
    rw [a1.sub_eq, splitWs_noBlank_self hn]
    simp [splitDots_self hn hd]
  have eC : stepCannot db w = [w] := by
    unfold stepCannot
    rw [eD]
    simp [c1.sub_eq, splitWs_noBlank_self hn]
  have eM : stepComma db w = [w] := by
    unfold stepComma
    rw [eC]
    simp [commaCut, no_comma_last hm]
  refine ⟨⟨_, a1⟩, ?_, ?_, ?_, ?_, ?_, ?_, ?_, ?_, ?_, ?_⟩
  · rw [eD]; simpa using hn
  · rw [eD]; simpa using ⟨w, c1⟩
  · rw [eC]; simpa using ho
  · rw [eC]; simpa using ⟨w, hm, .inl rfl⟩
  · rw [eM]; simpa using quotable_of_not hq
  · rw [eM]; simpa using ⟨w, tail_self hq⟩
  · rw [eM]; simp [(tail_self (db := db) hq).sub_eq, splitWs_noBlank_self hn]
  · simpa using hn
  · simpa using ho
  · simpa using fun h => absurd h hd

/-- Marks on their own. -/
theorem cut_mark {c : Char} (hc : c ∈ usedMarks) (hq : c ≠ '\'') : WordCut db [c] [[c]] := by
  have hs := mark_single hc
  have hn : NoBlank [c] := by
    have : ∀ c ∈ usedMarks, isSpace c = false := by decide
    exact ⟨by simp, by simpa using this c hc⟩
  have ho : odd c = false := by
    have : ∀ c ∈ usedMarks, odd c = false := by decide
    exact this c hc
  have hq' : '\'' ∉ [c] := by simpa using fun e => hq e.symm
  have a1 : ∃ o, OnWord db tokAlwaysSplit.1 tokAlwaysSplit.2 [c] o ∧ splitWs o = [[c]] := by
    by_cases ha : c ∈ alwaysMarks
    · refine ⟨[' ', c, ' '], fun pre rest _ hrest => ?_, ?_⟩
      · have hhead : ∀ d, rest.head? = some d → isSpace d = true := by
          intro d hd
          rcases hrest with rfl | ⟨b, r, rfl, hb⟩
          · cases hd
          · cases hd
            exact hb
        have hink : ∀ d ∈ usedMarks, isSpace d = false := by decide
        exact always_one ha (fun e => by have := hhead c e; rw [hink c hc] at this; cases this) fun _ d hd hm => by
          have h1 := hhead d hd
          have h2 : ∀ d ∈ ['.', '?', '!'], isSpace d = false := by decide
          rw [h2 d hm] at h1
          cases h1
      · have e : [' ', c, ' '] = [] ++ ' ' :: ([c] ++ ' ' :: []) := rfl
        rw [e, splitWs_sep (by decide), splitWs_sep (by decide), hs]
        rfl
    · refine ⟨[c], fun pre rest _ hrest => ?_, hs⟩
      have hcd : c = ',' ∨ c = '.' := by
        have : ∀ c ∈ usedMarks, c ∉ alwaysMarks → c ≠ '\'' → c = ',' ∨ c = '.' := by decide
        exact this c hc ha hq
      rcases hcd with rfl | rfl
      · exact always_skip (w := [',']) (by decide)
      · rw [List.singleton_append, subGo_skip_one]
        · rfl
        · refine always_none (by decide) fun _ d hd hm => ?_
          have h2 : ∀ d ∈ ['.', '?', '!'], isSpace d = false := by decide
          rcases hrest with rfl | ⟨b, r, rfl, hb⟩
          · cases hd
          · cases hd
            rw [h2 _ hm] at hb
            cases hb
  obtain ⟨o, a1, a2⟩ := a1
  have eD : stepDots db [c] = [[c]] := by
    unfold stepDots stepAlways
    rw [a1.sub_eq, a2]
    simp only [List.flatMap_cons, List.flatMap_nil, List.append_nil]
    by_cases hd : c = '.'
    · subst hd
      exact splitDots_end (w := []) (by simp) (by simp) (by simp)
    · exact splitDots_self hn (by simpa using fun e => hd e.symm)
  have c1 := cannot_mark (db := db) hc
  have eC : stepCannot db [c] = [[c]] := by
    unfold stepCannot
    rw [eD]
    simp [c1.sub_eq, hs]
  have eM : stepComma db [c] = [[c]] := by
    unfold stepComma
    rw [eC]
    simp only [List.flatMap_cons, List.flatMap_nil, List.append_nil]
    unfold commaCut
    by_cases e : c = ','
    · subst e
      rfl
    · rw [if_neg (by simpa using e)]
  refine ⟨⟨_, a1⟩, ?_, ?_, ?_, ?_, ?_, ?_, ?_, ?_, ?_, ?_⟩
  · rw [eD]; simpa using hn
  · rw [eD]; simpa using ⟨_, c1⟩
  · rw [eC]; simpa using ho
  · rw [eC]
    simp only [List.mem_singleton, forall_eq]
    by_cases e : c = ','
    · subst e
      exact ⟨[], by simp, .inr rfl⟩
    · exact ⟨[c], by simpa using fun h => e h.symm, .inl rfl⟩
  · rw [eM]; simpa using quotable_of_not hq'
  · rw [eM]; simpa using ⟨_, tail_self hq'⟩
  · rw [eM]; simp [(tail_self (db := db) hq').sub_eq, hs]
  · simpa using hn
  · simpa using ho
  · simp only [List.mem_singleton, forall_eq]
    intro e
    rw [e]

/-! ### The stages -/

/-- The rules between "cannot" and the commas. -/
def middleRules : List SubRule := (tokSegmentOff.drop 1).take 17

/-- The rule for words after a hyphen or an asterisk. -/
def hyphenRules : List SubRule := tokSegmentOff.drop 25

theorem segmentOff_parts : tokSegmentOff = cannotRule :: (middleRules ++ (commaRule1 :: commaRule2 :: (quoteRules ++
    (tailRule :: hyphenRules)))) := by
  decide +kernel

theorem middle_odd : ∀ r ∈ middleRules, r.1.needs odd = true := by decide +kernel
theorem hyphen_odd : ∀ r ∈ hyphenRules, r.1.needs odd = true := by decide +kernel
theorem restore_odd : ∀ r ∈ tokRestore, r.1.needs odd = true := by decide +kernel
theorem reattach_odd : ∀ r ∈ tokReattach.take 3, r.1.needs odd = true := by decide +kernel

theorem subAll_two (a b : List SubRule) (t : Str) : subAll db (a ++ b) t = subAll db b (subAll db a t) := by
  unfold subAll
  rw [List.foldl_append]

section
variable {ι : Type} {items : List ι} {txt : ι → Str} {tks : ι → List Str} (h : ∀ i ∈ items, WordCut db (txt i) (tks i))
include h

/-- Segmentation within the words. -/
theorem cut_off {text : Str} (ht : splitWs text = items.flatMap fun i => stepDots db (txt i)) :
    splitWs (subAll db tokSegmentOff text) = items.flatMap tks := by
  rw [segmentOff_parts, subAll_cons, subAll_two, subAll_cons, subAll_cons, subAll_two, subAll_cons]
  have e1 : splitWs (cannotRule.1.sub db cannotRule.2 text) = items.flatMap fun i => stepCannot db (txt i) := by
    rw [splitWs_sub_each fun _ _ _ hc => cannot_blank hc, ht, List.flatMap_assoc]
    · rfl
    · intro w hw
      rw [ht, List.mem_flatMap] at hw
      obtain ⟨p, hp, hw⟩ := hw
      exact (h p hp).cannot w hw
  generalize cannotRule.1.sub db cannotRule.2 text = t1 at e1 ⊢
  rw [subAll_of_needs middleRules middle_odd (clean_of_words db fun w hw => by
    rw [e1, List.mem_flatMap] at hw
    obtain ⟨p, hp, hw⟩ := hw
    exact (h p hp).clean w hw)]
  have e2 : splitWs (commaRule2.1.sub db commaRule2.2 (commaRule1.1.sub db commaRule1.2 t1)) =
      items.flatMap fun i => stepComma db (txt i) := by
    rw [commas, e1, List.flatMap_assoc]
    · rfl
    · intro w hw
      rw [e1, List.mem_flatMap] at hw
      obtain ⟨p, hp, hw⟩ := hw
      exact (h p hp).comma w hw
  generalize commaRule2.1.sub db commaRule2.2 (commaRule1.1.sub db commaRule1.2 t1) = t2 at e2 ⊢
  rw [quoteRules_none fun w hw => by
    rw [e2, List.mem_flatMap] at hw
    obtain ⟨p, hp, hw⟩ := hw
    exact (h p hp).quote w hw]
  have e3 : splitWs (tailRule.1.sub db tailRule.2 t2) = items.flatMap tks := by
    rw [splitWs_sub_each fun _ _ _ hc => tailRule_blank hc, e2, List.flatMap_assoc]
    · exact List.flatMap_congr fun p hp => (h p hp).tokens
    · intro w hw
      rw [e2, List.mem_flatMap] at hw
      obtain ⟨p, hp, hw⟩ := hw
      exact (h p hp).tail w hw
  generalize tailRule.1.sub db tailRule.2 t2 = t3 at e3 ⊢
  rw [subAll_of_needs hyphenRules hyphen_odd (clean_of_words db fun w hw => by
    rw [e3, List.mem_flatMap] at hw
    obtain ⟨p, hp, hw⟩ := hw
    exact (h p hp).calm w hw)]
  exact e3

/-- Nothing is put back together. -/
theorem cut_reattach {text : Str} (ht : splitWs text = items.flatMap tks) : subAll db tokReattach text = text := by
  have e : tokReattach = tokReattach.take 3 ++ tokReattach.drop 3 := by decide +kernel
  rw [e, subAll_two, subAll_of_needs _ reattach_odd (clean_of_words db fun w hw => by
    rw [ht, List.mem_flatMap] at hw
    obtain ⟨p, hp, hw⟩ := hw
    exact (h p hp).calm w hw)]
  show subAll db [_] text = text
  rw [subAll_cons, Re.sub_none]
  · rfl
  · intro pre rest et
    apply none_of_den
    rintro w u er ⟨x, y, rfl, hx, -⟩
    obtain ⟨hl, hx⟩ := rep_cls_den (g := true) hx
    obtain ⟨a, b, x, rfl⟩ : ∃ a b x', x = a :: b :: x' := by
      match x, hl with
      | a :: b :: x', _ => exact ⟨a, b, x', rfl⟩
    have ha := dot_test (hx a (by simp))
    have hb := dot_test (hx b (by simp))
    subst ha
    subst hb
    obtain ⟨A, l, r, B, x', y', h1, -⟩ := run_in_word (x := pre.reverse) (v := c!"..") (y := x ++ y ++ u) (by simp) (by decide)
    have e2 : text = pre.reverse ++ (c!".." ++ (x ++ y ++ u)) := by rw [et, er]; simp
    rw [← e2, ht] at h1
    have hm : l ++ (c!".." ++ r) ∈ items.flatMap tks := by rw [h1]; simp
    obtain ⟨p, hp, hw⟩ := List.mem_flatMap.mp hm
    have := congrArg List.length ((h p hp).dot _ hw (by simp))
    simp only [List.length_append, List.length_cons, List.length_nil] at this
    omega

theorem segment_cut (hsober : Sober db (items.map txt)) {text : Str} (ht : splitWs text = items.map txt) :
    splitWs (segment db text) = items.flatMap tks := by
  have e0 : segment db text = subAll db tokReattach (subAll db tokRestore (join c!" " (splitWs
      (subAll db tokSegmentOff (join c!" " ((splitWs (tokAlwaysSplit.1.sub db tokAlwaysSplit.2
        (subAll db tokNoSplit text))).flatMap (splitDots db))))))) := by
    unfold segment
    with_reducible rfl
  have hon : ∀ w ∈ splitWs text, ∃ o, OnWord db tokAlwaysSplit.1 tokAlwaysSplit.2 w o := by
    intro w hw
    rw [ht] at hw
    obtain ⟨p, hp, rfl⟩ := List.mem_map.mp hw
    exact (h p hp).always
  have e1 : splitWs (tokAlwaysSplit.1.sub db tokAlwaysSplit.2 text) = items.flatMap fun i => stepAlways db (txt i) := by
    rw [splitWs_sub_each (fun _ _ _ hc => always_blank hc) hon, ht, List.flatMap_map]
    rfl
  have e2 : (items.flatMap fun i => stepAlways db (txt i)).flatMap (splitDots db) = items.flatMap fun i => stepDots db (txt i) := by
    rw [List.flatMap_assoc]
    rfl
  have hnb : ∀ w ∈ items.flatMap fun i => stepDots db (txt i), NoBlank w := by
    intro w hw
    obtain ⟨p, hp, hw⟩ := List.mem_flatMap.mp hw
    exact (h p hp).solid w hw
  have e3 := cut_off h (text := join c!" " (items.flatMap fun i => stepDots db (txt i))) (splitWs_join _ hnb)
  have htok : ∀ w ∈ items.flatMap tks, NoBlank w := by
    intro w hw
    obtain ⟨p, hp, hw⟩ := List.mem_flatMap.mp hw
    exact (h p hp).noBlank w hw
  have e4 := splitWs_join _ htok
  rw [e0, hsober.noSplit ht, e1, e2, e3, subAll_of_needs tokRestore restore_odd (clean_of_words db fun w hw => by
    rw [e4, List.mem_flatMap] at hw
    obtain ⟨p, hp, hw⟩ := hw
    exact (h p hp).calm w hw), cut_reattach h e4, e4]

/-- Tokenization of texts whose words are treated on their own. -/
theorem tokenize_cut (hsober : Sober db (items.map txt)) {text : Str} (hne : text ≠ []) (ht : splitWs text = items.map txt) :
    tokenize db text = items.flatMap tks := by
  have hclean := hsober.clean ht
  have hsan : sanitize db tokSanitization text = join c!" " (splitWs text) := by
    unfold sanitize
    rw [subAll_of_needs tokSanitization sanitization_odd fun c hc => hclean c (strip_mem hc), splitWs_strip]
  have hj : splitWs (join c!" " (splitWs text)) = items.map txt := by
    rw [splitWs_join _ (splitWs_noBlank text), ht]
  obtain ⟨p, hp, -, htok⟩ := tokenize_eq db hne
  have hp' := hp _ (Nat.lt_succ_self _)
  rw [hsan, protectText_of_none (hsober.unprotected hj) (Nat.succ_pos _)] at hp'
  have hp2 := Option.some.inj hp'
  have h1 : p.dict = [] := by rw [← hp2]
  have h2 : p.text = join c!" " (splitWs text) := by rw [← hp2]
  rw [htok, h1, h2, unprotect_nil]
  exact segment_cut h hsober hj

end

theorem Piece.cut {p : Spec.Piece} (h : p.Ordinary db) : WordCut db p.text p.tokens := by
  have hm : ∀ c ∈ [',', ';', '!', '?', '.', '(', ')', '[', ']', '{', '}', '"'], c ∈ usedMarks ∧ c ≠ '\'' := by decide
  cases p with
  | word p => exact Ordinary.cut h
  | mark c => exact cut_mark (hm c h).1 (hm c h).2

theorem Piece.sober {p : Spec.Piece} (h : p.Ordinary db) : Sober db [p.text] := by
  have hm : ∀ c ∈ [',', ';', '!', '?', '.', '(', ')', '[', ']', '{', '}', '"'], c ∈ usedMarks ∧ c ≠ '\'' := by decide
  cases p with
  | word p => exact Ordinary.sober h
  | mark c => exact sober_mark (hm c h).1 (hm c h).2

/-- Tokenization of printed texts. -/
theorem tokenize_pieces {ps : List Spec.Piece} (h : ∀ p ∈ ps, p.Ordinary db)
    (hb : (ps.map Spec.Piece.text).IsChain (Spec.DotBefore db)) {text : Str} (hne : text ≠ [])
    (ht : splitWs text = ps.map Spec.Piece.text) : tokenize db text = ps.flatMap Spec.Piece.tokens := by
  refine tokenize_cut (fun p hp => Piece.cut (h p hp)) (sober_of (fun w hw => ?_) hb) hne ht
  obtain ⟨p, hp, rfl⟩ := List.mem_map.mp hw
  exact Piece.sober (h p hp)

/-- Tokenization of printed words. -/
theorem tokenize_printed {ps : List Spec.Printed} (h : ∀ p ∈ ps, p.Ordinary db)
    (hb : (ps.map Spec.Printed.text).IsChain (Spec.DotBefore db)) {text : Str} (hne : text ≠ [])
    (ht : splitWs text = ps.map Spec.Printed.text) : tokenize db text = ps.flatMap Spec.Printed.tokens := by
  refine tokenize_cut (fun p hp => Ordinary.cut (h p hp)) (sober_of (fun w hw => ?_) hb) hne ht
  obtain ⟨p, hp, rfl⟩ := List.mem_map.mp hw
  exact Ordinary.sober (h p hp)

end Model
