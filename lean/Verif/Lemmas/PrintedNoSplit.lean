import Verif.Lemmas.PrintedCalm

/-! The rules that keep dots and measures find nothing in sober texts. -/

namespace Model
open Py

variable {db : CharDB}

theorem sanitization_odd : ∀ r ∈ tokSanitization, r.1.needs odd = true := by decide +kernel

theorem none_of_run {r : Re} {pre rest : Str} (h : ∀ t w, t ∈ r.run db ⟨pre, rest, []⟩ → Eats ⟨pre, rest, []⟩ t w → False) :
    r.matchAt db pre rest = none := by
  rcases hm : r.matchAt db pre rest with _ | t
  · rfl
  · obtain ⟨ht, w, -, he⟩ := Re.matchAt_some hm
    exact (h t w ht he).elim

theorem none_of_den {r : Re} {pre rest : Str} (h : ∀ w u, rest = w ++ u → ¬ r.den db w) : r.matchAt db pre rest = none := by
  rcases hm : r.matchAt db pre rest with _ | t
  · rfl
  · obtain ⟨w, u, e, hd⟩ := Re.match_den hm
    exact (h w u e hd).elim

/-- A dot with a lookahead. -/
theorem dot_ahead {a : Re} {pre rest : Str} (h : ∀ u w v, rest = '.' :: u → u = w ++ v → ¬ a.den db w) :
    (Re.seq (.cls ⟨false, false, [.ch '.']⟩) (.ahead false a)).matchAt db pre rest = none := by
  apply none_of_run
  intro t w ht he
  obtain ⟨u, x, y, h1, h2, e1, e2⟩ := Re.run_seq ht
  obtain ⟨c, rfl, hc⟩ := Re.run_den _ _ _ _ h1 e1
  have := dot_test hc
  subst this
  obtain ⟨-, w, v, er, hd⟩ := Re.run_ahead h2
  exact h u.rest w v e1.rest er hd

theorem digit_test {ic : Bool} {c : Char} (h : (⟨false, ic, [.digit]⟩ : Cls).test db c = true) : db.digit c = true := by
  simpa [Cls.test, Item.test] using h

/-- Digits, commas and dots. -/
theorem number_test {c : Char} (h : (⟨false, true, [.digit, .ch ',', .ch '.']⟩ : Cls).test db c = true) :
    db.digit c = true ∨ c = ',' ∨ c = '.' := by
  simp only [Cls.test, List.any_cons, List.any_nil, Bool.or_false, Item.test, if_true, bne_iff_ne, ne_eq,
    Bool.not_eq_false, Bool.or_eq_true, beq_iff_eq] at h
  rcases h with h | h | h
  · exact .inl h
  · exact .inr (.inl (foldCase_of_not_letter (by decide) (by decide) (h.symm.trans (by decide))))
  · exact .inr (.inr (foldCase_of_not_letter (by decide) (by decide) (h.symm.trans (by decide))))

theorem number_noSpace {c : Char} (h : db.digit c = true ∨ c = ',' ∨ c = '.') : isSpace c = false := by
  rcases h with h | rfl | rfl
  · by_contra hs
    have := db.word_space c (by simpa using hs)
    rw [db.digit_word c h] at this
    cases this
  · decide
  · decide

section
variable {ws : List Str} (h : Sober db ws) {text : Str} (ht : splitWs text = ws)
include h ht

theorem Sober.measured {x d v q y : Str} {dc qc : Char} (e : text = x ++ (d ++ (v ++ (q ++ y)))) (hd : d = [dc]) (hq : q = [qc])
    (hdc : db.digit dc = true) (hv : ∀ c ∈ v, db.digit c = true ∨ c = ',' ∨ c = '.') (hqc : qc = '\'' ∨ qc = '"') : False := by
  subst hd hq
  obtain ⟨a, b, hm, -⟩ := h.in_word ht (x := x) (v := [dc] ++ (v ++ [qc])) (y := y) (by rw [e]; simp) (by simp) (by
    intro c hc
    simp only [List.mem_append, List.mem_singleton] at hc
    rcases hc with rfl | hc | rfl
    · exact number_noSpace (db := db) (.inl hdc)
    · exact number_noSpace (hv c hc)
    · rcases hqc with rfl | rfl <;> decide)
  have := h.measure _ hm a dc v qc b (by simp) hdc hv
  rcases hqc with rfl | rfl
  · exact this.1 rfl
  · exact this.2 rfl

/-- The patterns for numbers before a mark of measure. -/
theorem Sober.measure_none {a r : Re} {q : Char} (hq : q = '\'' ∨ q = '"') (pre rest : Str) (et : text = pre.reverse ++ rest) :
    (Re.seq (.behind false a) (.seq (.group 1 (.seq (.cls ⟨false, true, [.digit]⟩)
      (.rep 0 true (.cls ⟨false, true, [.digit, .ch ',', .ch '.']⟩)))) (.seq (.cls ⟨false, true, [.ch q]⟩) r))).matchAt db pre rest =
      none := by
  apply none_of_den
  rintro w u e ⟨x, y, rfl, hx, x2, y2, rfl, ⟨x3, y3, rfl, ⟨dc, hx3, hdc⟩, hrep⟩, x4, y4, rfl, ⟨qc, hx4, hqc⟩, -⟩
  have : x = [] := hx
  subst this
  have hqq : qc = q := by
    rcases hq with rfl | rfl <;> exact lit_test (by decide) (by decide) hqc
  refine h.measured ht (x := pre.reverse) (d := x3) (v := y3) (q := x4) (y := y4 ++ u) (by rw [et, e]; simp) hx3 hx4
    (digit_test hdc) (fun c hc => number_test ((rep_cls_den hrep).2 c hc)) (hqq ▸ hq)

theorem Sober.measure_none' {a : Re} {q : Char} (hq : q = '\'' ∨ q = '"') (pre rest : Str) (et : text = pre.reverse ++ rest) :
    (Re.seq (.behind false a) (.seq (.group 1 (.seq (.cls ⟨false, true, [.digit]⟩)
      (.rep 0 true (.cls ⟨false, true, [.digit, .ch ',', .ch '.']⟩)))) (.cls ⟨false, true, [.ch q]⟩))).matchAt db pre rest =
      none := by
  apply none_of_den
  rintro w u e ⟨x, y, rfl, hx, x2, y2, rfl, ⟨x3, y3, rfl, ⟨dc, hx3, hdc⟩, hrep⟩, ⟨qc, hx4, hqc⟩⟩
  have : x = [] := hx
  subst this
  have hqq : qc = q := by
    rcases hq with rfl | rfl <;> exact lit_test (by decide) (by decide) hqc
  refine h.measured ht (x := pre.reverse) (d := x3) (v := y3) (q := y2) (y := u) (by rw [et, e]; simp) hx3 hx4
    (digit_test hdc) (fun c hc => number_test ((rep_cls_den hrep).2 c hc)) (hqq ▸ hq)

end

/-- An alternative of literals. -/
def altRe : List Str → Re
  | [] => .eps
  | [l] => litRe l
  | l :: ls => .alt (litRe l) (altRe ls)

theorem altRe_run {ls : List Str} (hls : ls ≠ []) : ∀ {s t : St}, t ∈ (altRe ls).run db s → ∃ l ∈ ls, t ∈ (litRe l).run db s := by
  induction ls with
  | nil => exact absurd rfl hls
  | cons l ls ih =>
    intro s t ht
    cases ls with
    | nil => exact ⟨l, by simp, ht⟩
    | cons l2 ls =>
      rw [altRe, Re.run, List.mem_append] at ht
      · rcases ht with ht | ht
        · exact ⟨l, by simp, ht⟩
        · obtain ⟨m, hm, ht⟩ := ih (by simp) ht
          exact ⟨m, List.mem_cons_of_mem _ hm, ht⟩
      · simp

theorem abbr_eq : tokNoSplit[3]?.map Prod.fst = some (.seq .wordB (.seq (.group 1 (altRe Spec.abbreviations))
    (.seq (.cls ⟨false, true, [.ch '.']⟩) (.ahead false (.seq (.cls ⟨false, true, [.space]⟩)
      (.cls ⟨false, true, [.range 'A' 'Z']⟩)))))) := by decide +kernel

theorem Sober.abbr_none {ws : List Str} (h : Sober db ws) {text : Str} (ht : splitWs text = ws) {a : Re} (pre rest : Str)
    (et : text = pre.reverse ++ rest) : (Re.seq .wordB (.seq (.group 1 (altRe Spec.abbreviations))
      (.seq (.cls ⟨false, true, [.ch '.']⟩) a))).matchAt db pre rest = none := by
  apply none_of_run
  intro t w hrun he
  obtain ⟨u, x, y, h1, h2, e1, e2⟩ := Re.run_seq hrun
  obtain ⟨rfl, hb⟩ := run_wordB h1
  obtain ⟨u2, x2, y2, h3, h4, e3, e4⟩ := Re.run_seq h2
  obtain ⟨v, hv, ev⟩ := group_run h3 e3
  obtain ⟨l, hl, hv⟩ := altRe_run (by decide) hv
  obtain ⟨z, hz, hz2, -⟩ := litRe_run hv
  have hfix : ∀ l ∈ Spec.abbreviations, l.map foldCase = l := by decide
  rw [hfix l hl] at hz
  have hx2 : x2 = z := by
    have := ev.rest
    rw [hz2] at this
    exact (List.append_cancel_right this).symm
  subst hx2
  obtain ⟨u3, x3, y3, h5, -, e5, -⟩ := Re.run_seq h4
  obtain ⟨c, rfl, hc⟩ := Re.run_den _ _ _ _ h5 e5
  have := dot_test hc
  subst this
  have hns : ∀ c ∈ x2, isSpace c = false := by
    intro c hc
    have hm : foldCase c ∈ x2.map foldCase := List.mem_map_of_mem hc
    rw [hz] at hm
    have : ∀ l ∈ Spec.abbreviations, ∀ c ∈ l, isSpace c = false := by decide
    exact space_fold rfl (this l hl _ hm)
  have er : rest = x2 ++ ('.' :: u3.rest) := by
    have h1 := e3.rest
    have h2 := e5.rest
    simp only at h1
    rw [h1, h2]
    rfl
  obtain ⟨a, b, hm, ⟨x', hx', -⟩, -⟩ := h.in_word ht (x := pre.reverse) (v := x2 ++ ['.']) (y := u3.rest) (by
    rw [et, er]; simp) (by simp) (by
      intro c hc
      rw [List.mem_append, List.mem_singleton] at hc
      rcases hc with hc | rfl
      · exact hns c hc
      · decide)
  obtain ⟨a', c, d, u, rfl, rfl, hc, hd⟩ := h.abbr _ hm a x2 b (by simp) (by rw [hz]; exact hl)
  have hp : pre = c :: (x' ++ a').reverse := by
    have := congrArg List.reverse hx'
    simpa using this
  rw [hp, er] at hb
  simp [atWordB, hc, hd] at hb

theorem Sober.noSplit {ws : List Str} (h : Sober db ws) {text : Str} (ht : splitWs text = ws) :
    subAll db tokNoSplit text = text := by
  have hclean := h.clean ht
  have hrest : ∀ r ∈ tokNoSplit.drop 7, r.1.needs Model.odd = true := by decide +kernel
  have after : ∀ pre rest u : Str, text = pre.reverse ++ rest → rest = '.' :: u → _ :=
    fun pre rest u et er => h.after_dot ht (x := pre.reverse) (y := u) (by rw [et, er])
  have e : tokNoSplit = tokNoSplit.take 3 ++ ((tokNoSplit.drop 3).take 1 ++ ((tokNoSplit.drop 4).take 3 ++ tokNoSplit.drop 7)) := by
    decide +kernel
  have happ : ∀ (a b : List SubRule) (t : Str), subAll db (a ++ b) t = subAll db b (subAll db a t) := by
    intro a b t
    unfold subAll
    rw [List.foldl_append]
  rw [e, happ, happ, happ]
  have s1 : subAll db (tokNoSplit.take 3) text = text := by
    show subAll db [_, _, _] text = text
    rw [subAll_cons, Re.sub_none, subAll_cons, Re.sub_none, subAll_cons, Re.sub_none]
    · rfl
    · intro pre rest et
      apply dot_ahead
      rintro u w v er eu ⟨x, y, rfl, ⟨b, rfl, hb⟩, z, z2, rfl, hz, -⟩
      obtain ⟨hl, hz⟩ := rep_cls_den hz
      obtain ⟨f, z, rfl⟩ : ∃ f z', z = f :: z' := by cases z <;> simp at hl ⊢
      have hf := digit_test (hz f (by simp))
      have hb := space_test hb
      rcases after pre rest u et er with e | ⟨c, u', e, hc, -⟩ | ⟨d, u', e, hd, hu⟩
      · rw [e] at eu; simp at eu
      · rw [e] at eu
        simp only [List.append_assoc, List.cons_append, List.nil_append, List.cons.injEq] at eu
        rw [eu.1, hb] at hc; cases hc
      · rw [e] at eu
        simp only [List.append_assoc, List.cons_append, List.nil_append, List.cons.injEq] at eu
        have := (hu f _ eu.2 (number_noSpace (db := db) (.inl hf))).2.1
        rw [hf] at this; cases this
    · intro pre rest et
      apply dot_ahead
      rintro u w v er eu ⟨x, y, rfl, hx, ⟨f, rfl, hf⟩⟩
      have hf' : f ∈ [',', ':', ';', '?', '!'] := by
        have h2 : ',' = f ∨ ':' = f ∨ ';' = f ∨ '?' = f ∨ '!' = f := by simpa [Cls.test, Item.test] using hf
        rcases h2 with rfl | rfl | rfl | rfl | rfl <;> decide
      have hcol : f = ':' → False := by
        rintro rfl
        have := hclean ':' (by rw [et, er, eu]; simp)
        exact absurd this (by decide)
      have hf2 : f ∈ [',', ';', '?', '!'] := by
        simp only [List.mem_cons, List.not_mem_nil, or_false] at hf' ⊢
        rcases hf' with h | h | h | h | h
        · exact .inl h
        · exact (hcol h).elim
        · exact .inr (.inl h)
        · exact .inr (.inr (.inl h))
        · exact .inr (.inr (.inr h))
      have hfs : isSpace f = false := by
        have : ∀ c ∈ [',', ';', '?', '!'], isSpace c = false := by decide
        exact this f hf2
      rcases after pre rest u et er with e | ⟨c, u', e, hc, hc2⟩ | ⟨d, u', e, hd, hu⟩
      · rw [e] at eu; simp at eu
      · rcases hx with ⟨b, rfl, hb⟩ | hx
        · rw [e] at eu
          simp only [List.append_assoc, List.cons_append, List.nil_append, List.cons.injEq] at eu
          rw [eu.1, space_test hb] at hc; cases hc
        · have : x = [] := hx
          subst this
          rw [e] at eu
          simp only [List.nil_append, List.cons_append, List.cons.injEq] at eu
          rw [eu.1] at hc2
          exact hc2 hf2
      · rcases hx with ⟨b, rfl, hb⟩ | hx
        · rw [e] at eu
          simp only [List.append_assoc, List.cons_append, List.nil_append, List.cons.injEq] at eu
          exact (hu f _ eu.2 hfs).2.2 hf2
        · have : x = [] := hx
          subst this
          rw [e] at eu
          simp only [List.nil_append, List.cons_append, List.cons.injEq] at eu
          rw [eu.1, hfs] at hd; cases hd
    · intro pre rest et
      apply dot_ahead
      rintro u w v er eu ⟨x, y, rfl, ⟨b, rfl, hb⟩, ⟨f, rfl, hf⟩⟩
      have hf' : 97 ≤ f.toNat ∧ f.toNat ≤ 122 := by
        simpa [Cls.test, Item.test] using hf
      have hfs : isSpace f = false := by
        by_contra hs
        have hs : isSpace f = true := by simpa using hs
        unfold isSpace at hs
        simp only [Bool.or_eq_true, Bool.and_eq_true, decide_eq_true_eq, beq_iff_eq] at hs
        omega
      have hb := space_test hb
      rcases after pre rest u et er with e | ⟨c, u', e, hc, -⟩ | ⟨d, u', e, hd, hu⟩
      · rw [e] at eu; simp at eu
      · rw [e] at eu
        simp only [List.append_assoc, List.cons_append, List.nil_append, List.cons.injEq] at eu
        rw [eu.1, hb] at hc; cases hc
      · rw [e] at eu
        simp only [List.append_assoc, List.cons_append, List.nil_append, List.cons.injEq] at eu
        exact (hu f _ eu.2 hfs).1 hf'
  have s2 : subAll db ((tokNoSplit.drop 3).take 1) text = text := by
    show subAll db [_] text = text
    rw [subAll_cons, Re.sub_none]
    · rfl
    · intro pre rest et
      have := Option.some.inj (show some _ = some _ from abbr_eq)
      rw [this]
      exact h.abbr_none ht pre rest et
  have s3 : subAll db ((tokNoSplit.drop 4).take 3) text = text := by
    show subAll db [_, _, _] text = text
    rw [subAll_cons, Re.sub_none, subAll_cons, Re.sub_none, subAll_cons, Re.sub_none]
    · rfl
    · exact h.measure_none' ht (.inr rfl)
    · exact h.measure_none' ht (.inl rfl)
    · exact h.measure_none ht (.inl rfl)
  rw [s1, s2, s3]
  exact subAll_of_needs _ hrest hclean

end Model
