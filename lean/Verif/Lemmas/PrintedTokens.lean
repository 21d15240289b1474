import Verif.Lemmas.PrintedSegment

/-! Tokenization of printed texts. -/

namespace Model
open Py

variable {db : CharDB}

/-! ### Commas -/

/-- Words with at most a final comma. -/
def CommaWord (w : Str) : Prop := ∃ v, ',' ∉ v ∧ (w = v ∨ w = v ++ [','])

/-- A final comma is split off. -/
def commaCut (w : Str) : List Str := if w.getLast? = some ',' then splitWs w.dropLast ++ [[',']] else [w]

theorem comma1_self {v : Str} (hv : ',' ∉ v) : OnWord db commaRule1.1 commaRule1.2 v v := by
  apply onWord_self
  intro pre rest u w _ _ e hw
  obtain ⟨c, w, rfl⟩ := List.exists_cons_of_ne_nil hw
  apply comma1_none
  rintro rfl
  exact hv (by rw [e]; simp)

theorem comma2_self {v : Str} (hv : ',' ∉ v) : OnWord db commaRule2.1 commaRule2.2 v v := by
  apply onWord_self
  intro pre rest u w _ _ e hw
  obtain ⟨c, w, rfl⟩ := List.exists_cons_of_ne_nil hw
  apply comma2_none
  rintro rfl
  exact hv (by rw [e]; simp)

theorem comma1_end {v : Str} (hv : ',' ∉ v) : OnWord db commaRule1.1 commaRule1.2 (v ++ [',']) (v ++ [',']) ∨
    OnWord db commaRule1.1 commaRule1.2 (v ++ [',']) (v ++ c!" , ") := by
  have skip : ∀ pre rest, commaRule1.1.subGo db commaRule1.2 pre (v ++ ([','] ++ rest)) =
      v ++ commaRule1.1.subGo db commaRule1.2 (v.reverse ++ pre) ([','] ++ rest) := by
    intro pre rest
    apply subGo_skip
    intro u w e hw
    obtain ⟨c, w, rfl⟩ := List.exists_cons_of_ne_nil hw
    apply comma1_none
    rintro rfl
    exact hv (by rw [e]; simp)
  by_cases hd : ∃ c, v.getLast? = some c ∧ db.digit c = true
  · left
    obtain ⟨c, hc, hd⟩ := hd
    obtain ⟨v', rfl⟩ : ∃ v', v = v' ++ [c] := by
      rcases List.eq_nil_or_concat v with rfl | ⟨v', d, rfl⟩
      · cases hc
      · rw [List.concat_eq_append, List.getLast?_concat, Option.some.injEq] at hc
        exact ⟨v', by rw [hc]; simp⟩
    intro pre rest _ _
    rw [List.append_assoc, skip]
    have e : (v' ++ [c]).reverse ++ pre = c :: (v'.reverse ++ pre) := by simp
    rw [e, List.singleton_append, subGo_skip_one (comma1_digit hd)]
    simp
  · right
    intro pre rest hpre _
    rw [List.append_assoc, skip, subGo_hit (w := [',']) (rest := rest) (t := ⟨',' :: (v.reverse ++ pre), rest, []⟩) (by simp) (comma1_hit ?_) rfl rfl]
    · have e : expand [','] [] commaRule1.2 = c!" , " := rfl
      rw [e]
      simp
    · intro c q e
      rcases List.eq_nil_or_concat v with rfl | ⟨v', d, rfl⟩
      · exact edge_digit hpre c q (by simpa using e)
      · have : d = c := by
          have : d :: (v'.reverse ++ pre) = c :: q := by simpa using e
          exact (List.cons.inj this).1
        subst this
        by_contra hc
        exact hd ⟨d, by rw [List.concat_eq_append, List.getLast?_concat], by simpa using hc⟩

theorem comma2_end {v : Str} (hv : ',' ∉ v) : OnWord db commaRule2.1 commaRule2.2 (v ++ [',']) (v ++ c!" , ") := by
  intro pre rest _ hrest
  rw [List.append_assoc, subGo_skip v, subGo_hit (w := [',']) (rest := rest) (t := ⟨',' :: (v.reverse ++ pre), rest, []⟩) (by simp)
    (comma2_hit (edge_digit hrest)) rfl rfl]
  · have e : expand [','] [] commaRule2.2 = c!" , " := rfl
    rw [e]
    simp
  · intro u w e hw
    obtain ⟨c, w, rfl⟩ := List.exists_cons_of_ne_nil hw
    apply comma2_none
    rintro rfl
    exact hv (by rw [e]; simp)

theorem splitWs_comma (v : Str) : splitWs (v ++ c!" , ") = splitWs v ++ [[',']] := by
  have e : v ++ c!" , " = v ++ ' ' :: ([','] ++ ' ' :: []) := rfl
  rw [e, splitWs_sep (by decide), splitWs_sep (by decide)]
  rfl

theorem no_comma_last {v : Str} (hv : ',' ∉ v) : v.getLast? ≠ some ',' := fun h => hv (List.mem_of_getLast? h)

/-- Both rules for commas. -/
theorem commas {text : Str} (h : ∀ w ∈ splitWs text, CommaWord w) :
    splitWs (commaRule2.1.sub db commaRule2.2 (commaRule1.1.sub db commaRule1.2 text)) = (splitWs text).flatMap commaCut := by
  have b1 : ∀ pre c rest, isSpace c = true → commaRule1.1.matchAt db pre (c :: rest) = none := by
    intro pre c rest hc
    apply comma1_none
    rintro rfl
    exact absurd hc (by decide)
  have b2 : ∀ pre c rest, isSpace c = true → commaRule2.1.matchAt db pre (c :: rest) = none := by
    intro pre c rest hc
    apply comma2_none
    rintro rfl
    exact absurd hc (by decide)
  -- the first rule, word by word
  have first : ∀ w ∈ splitWs text, (∃ o, OnWord db commaRule1.1 commaRule1.2 w o) ∧
      ∀ u ∈ splitWs (commaRule1.1.sub db commaRule1.2 w), CommaWord u := by
    intro w hw
    have hnb := splitWs_noBlank text w hw
    obtain ⟨v, hv, rfl | rfl⟩ := h w hw
    · refine ⟨⟨w, comma1_self hv⟩, fun u hu => ?_⟩
      rw [(comma1_self hv).sub_eq, splitWs_noBlank_self hnb, List.mem_singleton] at hu
      exact ⟨w, hv, .inl hu⟩
    · rcases comma1_end (db := db) hv with ho | ho
      · refine ⟨⟨_, ho⟩, fun u hu => ?_⟩
        rw [ho.sub_eq, splitWs_noBlank_self hnb, List.mem_singleton] at hu
        exact ⟨v, hv, .inr hu⟩
      · refine ⟨⟨_, ho⟩, fun u hu => ?_⟩
        rw [ho.sub_eq, splitWs_comma, List.mem_append, List.mem_singleton] at hu
        rcases hu with hu | rfl
        · exact ⟨u, fun hc => hv (splitWs_mem hu hc), .inl rfl⟩
        · exact ⟨[], by simp, .inr rfl⟩
  have e1 := splitWs_sub_each b1 fun w hw => (first w hw).1
  rw [splitWs_sub_each b2, e1, List.flatMap_assoc]
  · apply List.flatMap_congr
    intro w hw
    have hnb := splitWs_noBlank text w hw
    obtain ⟨v, hv, rfl | rfl⟩ := h w hw
    · rw [(comma1_self hv).sub_eq, splitWs_noBlank_self hnb]
      simp only [List.flatMap_cons, List.flatMap_nil, List.append_nil]
      rw [(comma2_self hv).sub_eq, splitWs_noBlank_self hnb]
      unfold commaCut
      rw [if_neg (no_comma_last hv)]
    · have hcut : commaCut (v ++ [',']) = splitWs v ++ [[',']] := by
        unfold commaCut
        rw [if_pos List.getLast?_concat, List.dropLast_concat]
      rw [hcut]
      have hv2 : ∀ u ∈ splitWs v, splitWs (commaRule2.1.sub db commaRule2.2 u) = [u] := by
        intro u hu
        rw [(comma2_self fun hc => hv (splitWs_mem hu hc)).sub_eq, splitWs_noBlank_self (splitWs_noBlank v u hu)]
      have hc2 : splitWs (commaRule2.1.sub db commaRule2.2 [',']) = [[',']] := by
        have := (comma2_end (db := db) (v := []) (by simp)).sub_eq
        rw [List.nil_append, List.nil_append] at this
        rw [this]
        rfl
      rcases comma1_end (db := db) hv with ho | ho
      · rw [ho.sub_eq, splitWs_noBlank_self hnb]
        simp only [List.flatMap_cons, List.flatMap_nil, List.append_nil]
        rw [(comma2_end hv).sub_eq, splitWs_comma]
      · rw [ho.sub_eq, splitWs_comma, List.flatMap_append, List.flatMap_congr hv2]
        simp only [List.flatMap_cons, List.flatMap_nil, List.append_nil, List.flatMap_singleton']
        rw [hc2]
  · intro w hw
    rw [e1, List.mem_flatMap] at hw
    obtain ⟨w0, hw0, hw⟩ := hw
    obtain ⟨v, hv, rfl | rfl⟩ := (first w0 hw0).2 w hw
    · exact ⟨w, comma2_self hv⟩
    · exact ⟨_, comma2_end hv⟩

/-- The words after the split at commas. -/
def cutComma (p : Spec.Printed) : List Str :=
  Spec.Printed.singles p.opening ++ (cannotInit p.stem ++ ((cannotLast p.stem ++ p.tail) ::
    (Spec.Printed.singles p.inner ++ (Spec.Printed.singles p.mark ++ Spec.Printed.singles p.outer))))

section
variable {p : Spec.Printed} (h : p.Ordinary db)
include h

theorem Ordinary.last_core : NoBlank (cannotLast p.stem ++ p.tail) ∧ ',' ∉ cannotLast p.stem ++ p.tail := by
  have hs := Ordinary.stem_noBlank h
  refine ⟨⟨by simp [cannotLast_ne hs.1], fun c hc => ?_⟩, fun hc => ?_⟩
  · rcases List.mem_append.mp hc with hc | hc
    · exact hs.2 c (cannotLast_mem hc)
    · exact Ordinary.tail_noBlank h c hc
  · rcases List.mem_append.mp hc with hc | hc
    · exact Ordinary.stem_not h (by decide) (cannotLast_mem hc)
    · exact Ordinary.tail_not h (m := ',') (by decide) (by decide) hc

theorem Ordinary.comma_words : ∀ w ∈ cutCannot p, CommaWord w := by
  intro w hw
  rcases cutCannot_cases hw with ⟨c, rfl, hc⟩ | hi | ⟨m, hm, rfl⟩
  · by_cases e : c = ','
    · subst e
      exact ⟨[], by simp, .inr rfl⟩
    · exact ⟨[c], by simpa using fun h => e h.symm, .inl rfl⟩
  · exact ⟨w, fun hc => Ordinary.stem_not h (m := ',') (by decide) (cannotInit_mem hi hc), .inl rfl⟩
  · refine ⟨cannotLast p.stem ++ p.tail, (Ordinary.last_core h).2, ?_⟩
    rcases hm with rfl | ⟨rfl, -⟩
    · exact .inl (by simp)
    · exact .inr rfl

theorem Ordinary.comma_cut : (cutCannot p).flatMap commaCut = cutComma p := by
  have hs : ∀ s : Str, (Spec.Printed.singles s).flatMap commaCut = Spec.Printed.singles s := by
    intro s
    apply singles_flat
    intro c _
    unfold commaCut
    by_cases e : c = ','
    · subst e
      rfl
    · rw [if_neg (by simpa using e)]
  have hself : ∀ v : Str, ',' ∉ v → commaCut v = [v] := by
    intro v hv
    unfold commaCut
    rw [if_neg (no_comma_last hv)]
  have hinit : (cannotInit p.stem).flatMap commaCut = cannotInit p.stem := by
    have : ∀ w ∈ cannotInit p.stem, commaCut w = [w] := fun w hw =>
      hself w fun hc => Ordinary.stem_not h (m := ',') (by decide) (cannotInit_mem hw hc)
    rw [List.flatMap_congr this, List.flatMap_singleton']
  obtain ⟨h1, h2⟩ := Ordinary.last_core h
  unfold cutCannot cutComma
  rw [List.flatMap_append, List.flatMap_append, List.flatMap_append, hs, hs, hinit]
  congr 2
  split
  · rename_i hh
    have e : commaCut (cannotLast p.stem ++ p.tail ++ [',']) = [cannotLast p.stem ++ p.tail, [',']] := by
      unfold commaCut
      rw [if_pos List.getLast?_concat, List.dropLast_concat, splitWs_noBlank_self h1]
      rfl
    simp only [List.flatMap_cons, List.flatMap_nil, List.append_nil]
    rw [e, hh.1, hh.2]
    rfl
  · rw [List.flatMap_cons, List.flatMap_append, hs, hs, hself _ h2]
    simp

end

theorem cutComma_cases {p : Spec.Printed} {w : Str} (hw : w ∈ cutComma p) :
    (∃ c, w = [c] ∧ (c ∈ p.opening ∨ c ∈ p.inner ∨ c ∈ p.mark ∨ c ∈ p.outer)) ∨ w ∈ cannotInit p.stem ∨
      w = cannotLast p.stem ++ p.tail := by
  unfold cutComma Spec.Printed.singles at hw
  simp only [List.mem_append, List.mem_map, List.mem_cons] at hw
  rcases hw with ⟨c, hc, rfl⟩ | hi | rfl | ⟨c, hc, rfl⟩ | ⟨c, hc, rfl⟩ | ⟨c, hc, rfl⟩
  · exact .inl ⟨c, rfl, .inl hc⟩
  · exact .inr (.inl hi)
  · exact .inr (.inr rfl)
  · exact .inl ⟨c, rfl, .inr (.inl hc)⟩
  · exact .inl ⟨c, rfl, .inr (.inr (.inl hc))⟩
  · exact .inl ⟨c, rfl, .inr (.inr (.inr hc))⟩

/-! ### Contractions -/

/-- The parts of a contraction, up to case. -/
theorem fold_parts {x : Str} (hx : x.map foldCase ∈ tails) : ∃ x1 x2, x = x1 ++ '\'' :: x2 ∧ '\'' ∉ x1 ∧
    ((x1 = [] ∧ ∃ c u, x2 = c :: u ∧ foldCase c ≠ 't') ∨ ∃ n c, x1 = [n] ∧ x2 = [c] ∧ foldCase c = 't') := by
  have hparts : ∀ l ∈ tails, (∃ y ∈ [c!"re", c!"ll", c!"ve", c!"m", c!"d", c!"s"], l = '\'' :: y) ∨ l = c!"n't" := by decide
  rcases hparts _ hx with ⟨y, hy, e⟩ | e
  · rw [List.map_eq_cons_iff] at e
    obtain ⟨q, x2, rfl, hq, rfl⟩ := e
    have := foldCase_of_not_letter (d := q) (c := '\'') (by decide) (by decide) hq
    subst this
    refine ⟨[], x2, rfl, by simp, .inl ⟨rfl, ?_⟩⟩
    cases x2 with
    | nil => exact absurd hy (by decide)
    | cons c u =>
      refine ⟨c, u, rfl, ?_⟩
      have h2 : ∀ y ∈ [c!"re", c!"ll", c!"ve", c!"m", c!"d", c!"s"], y.head? ≠ some 't' := by decide
      have := h2 _ hy
      simpa using this
  · simp only [List.map_eq_cons_iff, List.map_eq_nil_iff] at e
    obtain ⟨n, _, rfl, hn, q, _, rfl, hq, c, _, rfl, hc, rfl⟩ := e
    have := foldCase_of_not_letter (d := q) (c := '\'') (by decide) (by decide) hq
    subst this
    refine ⟨[n], [c], rfl, ?_, .inr ⟨n, c, rfl, rfl, hc⟩⟩
    rw [List.mem_singleton]
    rintro rfl
    exact absurd hn (by decide)

theorem tails_inky {x : Str} (hx : x.map foldCase ∈ tails) : ∀ c ∈ x, isSpace c = false := by
  intro c hc
  have h1 : foldCase c ∈ x.map foldCase := List.mem_map_of_mem hc
  have : ∀ l ∈ tails, ∀ c ∈ l, isSpace c = false := by decide
  exact space_fold rfl (this _ hx _ h1)

theorem tail_self {v : Str} (hv : '\'' ∉ v) : OnWord db tailRule.1 tailRule.2 v v := by
  apply onWord_self
  intro pre rest u w _ hrest e hw
  rcases hm : tailRule.1.matchAt db (u.reverse ++ pre) (w ++ rest) with _ | t
  · rfl
  · exfalso
    obtain ⟨l, hl, x, hx, ex⟩ := tail_run (Re.matchAt_some hm).1
    simp only at ex
    rw [← hx] at hl
    obtain ⟨x1, x2, rfl, -⟩ := fold_parts hl
    have hq : '\'' ∈ w := by
      rcases List.append_eq_append_iff.mp ex with ⟨a', e1, e2⟩ | ⟨c', e1, e2⟩
      · cases a' with
        | nil => rw [List.append_nil] at e1; rw [← e1]; simp
        | cons d a' =>
          rcases hrest with rfl | ⟨b, r, rfl, hb⟩
          · simp at e2
          · simp only [List.cons_append, List.cons.injEq] at e2
            have := tails_inky hl d (by rw [e1]; simp)
            rw [← e2.1, hb] at this
            cases this
      · rw [e1]; simp
    exact hv (by rw [e]; simp [hq])

theorem tail_end {v t : Str} (hv : '\'' ∉ v) (ht : t.map foldCase ∈ tails) :
    OnWord db tailRule.1 tailRule.2 (v ++ t) (v ++ (' ' :: t ++ [' '])) := by
  intro pre rest _ hrest
  have htne : t ≠ [] := by
    rintro rfl
    revert ht
    decide
  rw [List.append_assoc, subGo_skip v, subGo_hit htne (tail_hit ht hrest) rfl rfl]
  · have e : expand t [(1, t)] tailRule.2 = ' ' :: t ++ [' '] := by
      simp [expand, tailRule, capText]
    rw [e]
    simp
  · intro u w e hw
    rcases hm : tailRule.1.matchAt db (u.reverse ++ pre) (w ++ (t ++ rest)) with _ | s
    · rfl
    · exfalso
      obtain ⟨l, hl, x, hx, ex⟩ := tail_run (Re.matchAt_some hm).1
      simp only at ex
      rw [← hx] at hl
      obtain ⟨x1, x2, rfl, hx1, hxc⟩ := fold_parts hl
      obtain ⟨t1, t2, rfl, ht1, htc⟩ := fold_parts ht
      have hw1 : '\'' ∉ w ++ t1 := by
        rw [List.mem_append, not_or]
        exact ⟨fun hc => hv (by rw [e]; simp [hc]), ht1⟩
      have e3 : (w ++ t1) ++ '\'' :: (t2 ++ rest) = x1 ++ '\'' :: (x2 ++ s.rest) := by simpa using ex
      obtain ⟨z, e4, e5⟩ := in_right e3 hw1
      have hz : z = [] := by
        cases z with
        | nil => rfl
        | cons c z =>
          simp only [List.cons_append, List.cons.injEq] at e5
          exact absurd (by rw [e4, ← e5.1]; simp) hx1
      subst hz
      rw [List.append_nil] at e4
      simp only [List.nil_append, List.cons.injEq, true_and] at e5
      rcases hxc with ⟨rfl, -⟩ | ⟨n, c, rfl, rfl, hc⟩
      · rw [eq_comm, List.append_eq_nil_iff] at e4
        exact hw e4.1
      · have hlen := congrArg List.length e4
        have hwl := List.length_pos_of_ne_nil hw
        simp only [List.length_append, List.length_singleton] at hlen
        have h0 : t1 = [] := List.eq_nil_of_length_eq_zero (by omega)
        subst h0
        rcases htc with ⟨-, d, u', rfl, hd⟩ | ⟨n', c', h0, -⟩
        · simp only [List.cons_append, List.cons.injEq] at e5
          rw [e5.1] at hd
          exact hd hc
        · cases h0

section
variable {p : Spec.Printed} (h : p.Ordinary db)
include h

theorem Ordinary.init_noQuote {w : Str} (hw : w ∈ cannotInit p.stem) : '\'' ∉ w := fun hc =>
  Ordinary.stem_not h (m := '\'') (by decide) (cannotInit_mem hw hc)

theorem Ordinary.last_noQuote : '\'' ∉ cannotLast p.stem := fun hc =>
  Ordinary.stem_not h (m := '\'') (by decide) (cannotLast_mem hc)

theorem Ordinary.quotable : ∀ w ∈ cutComma p, Quotable w := by
  intro w hw
  have hno : ∀ v : Str, '\'' ∉ v → Quotable v := fun v hv a b e => absurd (by rw [e]; simp) hv
  rcases cutComma_cases hw with ⟨c, rfl, hc⟩ | hi | rfl
  · exact hno _ (by simpa using fun e => (Ordinary.around h c hc).2 e.symm)
  · exact hno w (Ordinary.init_noQuote h hi)
  · rcases h.tail with et | hl
    · rw [et, List.append_nil]
      exact hno _ (Ordinary.last_noQuote h)
    · obtain ⟨x, y, e, hx, hy, -, hyn, hyl, -⟩ := tail_parts hl
      have hqx : '\'' ∉ x := fun hc => by have := (hx _ hc).2; revert this; decide
      have hqy : '\'' ∉ y := fun hc => by have := (hy _ hc).1; revert this; decide
      intro a b eab
      rw [e, ← List.append_assoc] at eab
      obtain ⟨z, rfl, ez⟩ := in_right eab (by
        rw [List.mem_append, not_or]
        exact ⟨Ordinary.last_noQuote h, hqx⟩)
      cases z with
      | nil =>
        simp only [List.nil_append, List.cons.injEq, true_and] at ez
        subst ez
        exact ⟨by simp [cannotLast_ne h.stem_ne], hyn, hyl⟩
      | cons c z =>
        simp only [List.cons_append, List.cons.injEq] at ez
        exact absurd (by rw [ez.2]; simp) hqy

theorem Ordinary.tail_on : ∀ w ∈ cutComma p, ∃ o, OnWord db tailRule.1 tailRule.2 w o := by
  intro w hw
  rcases cutComma_cases hw with ⟨c, rfl, hc⟩ | hi | rfl
  · exact ⟨_, tail_self (by simpa using fun e => (Ordinary.around h c hc).2 e.symm)⟩
  · exact ⟨_, tail_self (Ordinary.init_noQuote h hi)⟩
  · rcases h.tail with et | hl
    · rw [et, List.append_nil]
      exact ⟨_, tail_self (Ordinary.last_noQuote h)⟩
    · exact ⟨_, tail_end (Ordinary.last_noQuote h) (by rw [tail_fold hl]; exact hl)⟩

theorem Ordinary.tail_cut : (cutComma p).flatMap (fun w => splitWs (tailRule.1.sub db tailRule.2 w)) = p.tokens := by
  have hs : ∀ s : Str, (∀ c ∈ s, c ∈ usedMarks ∧ c ≠ '\'') → (Spec.Printed.singles s).flatMap (fun w =>
      splitWs (tailRule.1.sub db tailRule.2 w)) = Spec.Printed.singles s := by
    intro s hs
    apply singles_flat
    intro c hc
    show splitWs (tailRule.1.sub db tailRule.2 [c]) = _
    rw [(tail_self (db := db) (v := [c]) (by simpa using fun e => (hs c hc).2 e.symm)).sub_eq, mark_single (hs c hc).1]
  have ho := hs p.opening fun c hc => Ordinary.around h c (.inl hc)
  have hi := hs p.inner fun c hc => Ordinary.around h c (.inr (.inl hc))
  have hm := hs p.mark fun c hc => Ordinary.around h c (.inr (.inr (.inl hc)))
  have hu := hs p.outer fun c hc => Ordinary.around h c (.inr (.inr (.inr hc)))
  have hstem := Ordinary.stem_noBlank h
  have hlast : NoBlank (cannotLast p.stem) := ⟨cannotLast_ne hstem.1, fun c hc => hstem.2 c (cannotLast_mem hc)⟩
  have hinit : (cannotInit p.stem).flatMap (fun w => splitWs (tailRule.1.sub db tailRule.2 w)) = cannotInit p.stem := by
    have : ∀ w ∈ cannotInit p.stem, splitWs (tailRule.1.sub db tailRule.2 w) = [w] := by
      intro w hw
      rw [(tail_self (Ordinary.init_noQuote h hw)).sub_eq]
      exact splitWs_noBlank_self ⟨cannotInit_ne hw, fun c hc => hstem.2 c (cannotInit_mem hw hc)⟩
    rw [List.flatMap_congr this, List.flatMap_singleton']
  have hcore : splitWs (tailRule.1.sub db tailRule.2 (cannotLast p.stem ++ p.tail)) =
      cannotLast p.stem :: (if p.tail = [] then [] else [p.tail]) := by
    rcases h.tail with et | hl
    · rw [et, List.append_nil, (tail_self (Ordinary.last_noQuote h)).sub_eq, splitWs_noBlank_self hlast]
      rfl
    · have hne : p.tail ≠ [] := by
        intro et
        rw [et] at hl
        revert hl
        decide
      have htail : NoBlank p.tail := ⟨hne, Ordinary.tail_noBlank h⟩
      rw [(tail_end (Ordinary.last_noQuote h) (by rw [tail_fold hl]; exact hl)).sub_eq, if_neg hne]
      have e : cannotLast p.stem ++ (' ' :: p.tail ++ [' ']) = cannotLast p.stem ++ ' ' :: (p.tail ++ ' ' :: []) := rfl
      rw [e, splitWs_sep (by decide), splitWs_sep (by decide), splitWs_noBlank_self hlast, splitWs_noBlank_self htail]
      rfl
  unfold cutComma Spec.Printed.tokens
  rw [List.flatMap_append, List.flatMap_append, List.flatMap_cons, List.flatMap_append, List.flatMap_append, ho, hi, hm, hu, hinit,
    hcore, splitCannot_eq]
  simp

end

end Model
