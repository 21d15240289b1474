import Verif.Lemmas.SentChars

/-! The lines of a text. -/

namespace Model
open Py

/-- White space class. -/
abbrev spaceCls : Cls := ⟨false, false, [.space]⟩
/-- Class of tabs and line breaks. -/
abbrev breakCls : Cls := ⟨false, false, [.ch '\t', .ch '\n', .ch '\r']⟩

theorem spaceCls_test (db : CharDB) (c : Char) : spaceCls.test db c = isSpace c := by simp [Cls.test, Item.test]

theorem breakCls_test (db : CharDB) (c : Char) : breakCls.test db c = Spec.isBreak c := by
  have h := test_lits (db := db) ['\t', '\n', '\r'] c
  rw [Bool.eq_iff_iff, show breakCls = ⟨false, false, ['\t', '\n', '\r'].map Item.ch⟩ from rfl, h]
  simp [Spec.isBreak, or_assoc]

theorem isBreak_space {c : Char} (h : Spec.isBreak c = true) : isSpace c = true := by
  simp only [Spec.isBreak, Bool.or_eq_true, beq_iff_eq] at h
  rcases h with (rfl | rfl) | rfl <;> decide

theorem reNewline_eq : reNewline = .seq (.rep 0 true (.cls spaceCls)) (.seq (.rep 1 true (.cls breakCls)) (.rep 0 true (.cls spaceCls))) := rfl

/-- The first way of a greedy repetition of a class takes all characters of the class. -/
theorem many_head {db : CharDB} {k : Cls} : ∀ (n : Nat) (s t : St), s.rest.length ≤ n →
    (many ((Re.cls k).run db) true n s).head? = some t → t.rest.head?.all fun c => !k.test db c
  | 0, s, t, hn, h => by
    simp only [many, List.head?_cons, Option.some.injEq] at h
    subst h
    have : s.rest = [] := List.eq_nil_of_length_eq_zero (by omega)
    rw [this]
    rfl
  | n + 1, ⟨pre, rest, caps⟩, t, hn, h => by
    cases rest with
    | nil =>
      have : many ((Re.cls k).run db) true (n + 1) ⟨pre, [], caps⟩ = [⟨pre, [], caps⟩] := by simp [many, Re.run]
      rw [this] at h
      cases h
      rfl
    | cons c cs =>
      rcases hk : k.test db c with _ | _
      · have : many ((Re.cls k).run db) true (n + 1) ⟨pre, c :: cs, caps⟩ = [⟨pre, c :: cs, caps⟩] := by
          simp [many, run_cls_cons, hk]
        rw [this] at h
        cases h
        simp [hk]
      · have e : many ((Re.cls k).run db) true (n + 1) ⟨pre, c :: cs, caps⟩ =
            many ((Re.cls k).run db) true n ⟨c :: pre, cs, caps⟩ ++ [⟨pre, c :: cs, caps⟩] := by
          simp [many, run_cls_cons, hk]
        rw [e] at h
        rcases hm : many ((Re.cls k).run db) true n ⟨c :: pre, cs, caps⟩ with _ | ⟨u, l⟩
        · exfalso
          cases n with
          | zero => simp [many] at hm
          | succ n => simp [many] at hm
        · rw [hm] at h
          simp only [List.cons_append, List.head?_cons, Option.some.injEq] at h
          subst h
          exact many_head n ⟨c :: pre, cs, caps⟩ u (by simpa using hn) (by rw [hm]; rfl)

/-- The head of a list put together from lists is the head of one of them. -/
theorem head_flatMap {α β : Type} {f : α → List β} : ∀ {l : List α} {b : β}, (l.flatMap f).head? = some b →
    ∃ a ∈ l, (f a).head? = some b
  | [], b, h => by cases h
  | a :: l, b, h => by
    rw [List.flatMap_cons] at h
    rcases hf : f a with _ | ⟨c, cs⟩
    · rw [hf] at h
      obtain ⟨x, hx, h⟩ := head_flatMap (l := l) h
      exact ⟨x, by simp [hx], h⟩
    · rw [hf] at h
      exact ⟨a, by simp, by rw [hf]; exact h⟩

/-- A match at a line break: a run of white space up to its end, with a break. -/
theorem newline_matchAt {db : CharDB} {pre rest : Str} {t : St} (h : reNewline.matchAt db pre rest = some t) :
    ∃ gap, rest = gap ++ t.rest ∧ (∀ c ∈ gap, isSpace c = true) ∧ (∃ c ∈ gap, Spec.isBreak c = true) ∧
      (t.rest.head?.all fun c => !isSpace c) = true := by
  obtain ⟨ht, w, hw, he⟩ := Re.matchAt_some h
  refine ⟨w, he.rest, newline_space ht he, ?_, ?_⟩
  · rw [reNewline_eq] at ht
    obtain ⟨s1, w1, w2, h1, h2, e1, e2⟩ := Re.run_seq ht
    obtain ⟨s2, w3, w4, h3, h4, e3, e4⟩ := Re.run_seq h2
    have hw' : w = w1 ++ (w3 ++ w4) := he.uniq (e1.trans (e3.trans e4))
    have h5 := rep_cls_chars (by omega) h3 e3
    have h6 : w3 ≠ [] := by
      have := Re.run_minLen _ _ _ h3
      have h7 := e3.rest
      rintro rfl
      rw [h7] at this
      simp [Re.minLen] at this
    obtain ⟨c, w3', rfl⟩ := List.exists_cons_of_ne_nil h6
    refine ⟨c, by rw [hw']; simp, ?_⟩
    rw [← breakCls_test db]
    exact h5 c (by simp)
  · unfold Re.matchAt at h
    rcases hh : (reNewline.run db ⟨pre, rest, []⟩).head? with _ | u
    · rw [hh] at h; cases h
    · rw [hh] at h
      simp only at h
      split at h
      · cases h
        obtain ⟨a, -, hh⟩ := head_flatMap (f := Re.run db (.seq (.rep 1 true (.cls breakCls)) (.rep 0 true (.cls spaceCls)))) hh
        obtain ⟨b, -, hh⟩ := head_flatMap (f := Re.run db (.rep 0 true (.cls spaceCls))) hh
        have hh : (many ((Re.cls spaceCls).run db) true b.rest.length b).head? = some t := by
          rw [Re.run] at hh
          simpa only [times, List.flatMap_cons, List.flatMap_nil, List.append_nil] using hh
        have := many_head (db := db) (k := spaceCls) _ _ _ (Nat.le_refl _) hh
        simpa only [spaceCls_test] using this
      · cases h

/-- At a run of white space with a break there is a match. -/
theorem newline_found {db : CharDB} (pre gap rest : Str) (h1 : ∀ c ∈ gap, isSpace c = true)
    (h2 : ∃ c ∈ gap, Spec.isBreak c = true) : reNewline.matchAt db pre (gap ++ rest) ≠ none := by
  obtain ⟨c, hc, hb⟩ := h2
  obtain ⟨a, b, rfl⟩ := List.append_of_mem hc
  have hmin : 0 < reNewline.minLen := by decide
  rw [Re.matchAt_eq_head hmin]
  intro hh
  rw [List.head?_eq_none_iff] at hh
  have m1 : (⟨a.reverse ++ pre, c :: (b ++ rest), []⟩ : St) ∈ (Re.rep 0 true (.cls spaceCls)).run db ⟨pre, a ++ c :: b ++ rest, []⟩ := by
    rw [Re.run, List.mem_flatMap]
    refine ⟨⟨pre, a ++ c :: b ++ rest, []⟩, by simp only [times, List.mem_singleton], ?_⟩
    have := many_cls_mem (db := db) (k := spaceCls) (g := true) a pre (c :: (b ++ rest)) [] (a ++ c :: b ++ rest).length
      (fun d hd => by rw [spaceCls_test]; exact h1 d (by simp [hd])) (by simp)
    simpa using this
  have m2 : (⟨c :: (a.reverse ++ pre), b ++ rest, []⟩ : St) ∈ (Re.rep 1 true (.cls breakCls)).run db ⟨a.reverse ++ pre, c :: (b ++ rest), []⟩ := by
    rw [Re.run, List.mem_flatMap]
    refine ⟨⟨c :: (a.reverse ++ pre), b ++ rest, []⟩, ?_, many_cls_mem [] _ _ _ _ (by simp) (by simp)⟩
    simp only [times, run_cls_cons, breakCls_test, hb, if_true, List.flatMap_cons, List.flatMap_nil, List.append_nil, List.mem_singleton]
  have m3 : (⟨c :: (a.reverse ++ pre), b ++ rest, []⟩ : St) ∈ (Re.rep 0 true (.cls spaceCls)).run db ⟨c :: (a.reverse ++ pre), b ++ rest, []⟩ := by
    rw [Re.run, List.mem_flatMap]
    exact ⟨⟨c :: (a.reverse ++ pre), b ++ rest, []⟩, by simp only [times, List.mem_singleton],
      many_cls_mem [] _ _ _ _ (by simp) (by simp)⟩
  have : (⟨c :: (a.reverse ++ pre), b ++ rest, []⟩ : St) ∈ reNewline.run db ⟨pre, a ++ c :: b ++ rest, []⟩ := by
    rw [reNewline_eq, Re.run, List.mem_flatMap]
    refine ⟨_, m1, ?_⟩
    rw [Re.run, List.mem_flatMap]
    exact ⟨_, m2, m3⟩
  rw [hh] at this
  cases this

/-- No break in the white space at the beginning of the text. -/
def Calm (t : Str) : Prop := ∀ gap rest, t = gap ++ rest → (∀ c ∈ gap, isSpace c = true) → ∀ c ∈ gap, Spec.isBreak c = false

theorem calm_of_none {db : CharDB} {pre t : Str} (h : reNewline.matchAt db pre t = none) : Calm t := by
  intro gap rest e h1 c hc
  rcases hb : Spec.isBreak c with _ | _
  · rfl
  · exfalso
    rw [e] at h
    exact newline_found pre gap rest h1 ⟨c, hc, hb⟩ h

theorem cutFrom_lines {db : CharDB} : ∀ (n : Nat) (pre rest cur : Str), rest.length ≤ n →
    (∀ c ∈ cur, Spec.isBreak c = false) → (∀ c cs, cur = c :: cs → isSpace c = true → Calm rest) →
    Spec.Lines (cur.reverse ++ rest)
      ((reNewline.cutFrom db n pre rest cur).1.map Prod.fst ++ [(reNewline.cutFrom db n pre rest cur).2])
  | 0, pre, rest, cur, hn, hb, _ => by
    have : rest = [] := List.eq_nil_of_length_eq_zero (by omega)
    subst this
    simp only [Re.cutFrom, List.map_nil, List.nil_append, List.append_nil]
    exact .last _ fun c hc => hb c (by simpa using hc)
  | n + 1, pre, rest, cur, hn, hb, hs => by
    rcases hm : reNewline.matchAt db pre rest with _ | t
    · cases rest with
      | nil =>
        have e : reNewline.cutFrom db (n + 1) pre [] cur = ([], cur.reverse) := by
          rw [Re.cutFrom.eq_def]
          simp only [hm]
        rw [e]
        simp only [List.map_nil, List.nil_append, List.append_nil]
        exact .last _ fun c hc => hb c (by simpa using hc)
      | cons c cs =>
        have e : reNewline.cutFrom db (n + 1) pre (c :: cs) cur = reNewline.cutFrom db n (c :: pre) cs (c :: cur) := by
          rw [Re.cutFrom.eq_def]
          simp only [hm]
        rw [e]
        have hcalm := calm_of_none hm
        have := cutFrom_lines (db := db) n (c :: pre) cs (c :: cur) (by simpa using hn) (by
          intro d hd
          rcases List.mem_cons.mp hd with rfl | hd
          · rcases hb' : Spec.isBreak d with _ | _
            · rfl
            · have := hcalm [d] cs rfl (by simpa using isBreak_space hb') d (by simp)
              rw [hb'] at this
              cases this
          · exact hb d hd) (by
          intro d ds e hd gap rest' e' hg x hx
          simp only [List.cons.injEq] at e
          obtain ⟨rfl, rfl⟩ := e
          exact hcalm (c :: gap) rest' (by rw [e']; rfl) (by
            intro y hy
            rcases List.mem_cons.mp hy with rfl | hy
            · exact hd
            · exact hg y hy) x (by simp [hx]))
        simpa using this
    · obtain ⟨gap, g1, g2, g3, g4⟩ := newline_matchAt hm
      have e2 : rest.take (rest.length - t.rest.length) = gap := by rw [g1]; simp
      have e : reNewline.cutFrom db (n + 1) pre rest cur =
          ((cur.reverse, gap) :: (reNewline.cutFrom db n t.pre t.rest []).1, (reNewline.cutFrom db n t.pre t.rest []).2) := by
        rw [Re.cutFrom.eq_def]
        simp only [hm, e2]
      rw [e]
      have hlen : t.rest.length ≤ n := by
        obtain ⟨c, hc, -⟩ := g3
        have h1 := congrArg List.length g1
        have h2 := List.length_pos_of_mem hc
        rw [List.length_append] at h1
        omega
      have ih := cutFrom_lines (db := db) n t.pre t.rest [] hlen (by simp) (by simp)
      simp only [List.map_cons, List.cons_append]
      rw [g1, ← List.append_assoc]
      refine .cut _ _ _ _ (fun c hc => hb c (by simpa using hc)) ?_ g2 g3 g4 (by simpa using ih)
      rw [List.getLast?_reverse]
      cases cur with
      | nil => rfl
      | cons c cs =>
        rcases hc : isSpace c with _ | _
        · simp [hc]
        · exfalso
          obtain ⟨d, hd, hbd⟩ := g3
          have := hs c cs rfl hc gap t.rest g1 g2 d hd
          rw [hbd] at this
          cases this

/-- The text is cut into its lines. -/
theorem newline_lines (db : CharDB) (text : Str) : Spec.Lines text (reNewline.split db text) := by
  exact cutFrom_lines (db := db) text.length [] text [] (Nat.le_refl _) (by simp) (by simp)

theorem dropWhile_gap {gap rest : Str} (h1 : ∀ c ∈ gap, isSpace c = true) (h2 : rest.head?.all (fun c => !isSpace c) = true) :
    (gap ++ rest).dropWhile isSpace = rest := by
  induction gap with
  | nil =>
    cases rest with
    | nil => rfl
    | cons c cs =>
      rw [List.nil_append, List.dropWhile_cons, if_neg]
      simpa using h2
  | cons c cs ih =>
    rw [List.cons_append, List.dropWhile_cons, if_pos (h1 c (by simp))]
    exact ih fun d hd => h1 d (by simp [hd])

/-- A line does not reach into the gap after a shorter one. -/
theorem line_not_longer {l gap rest x t : Str} (hl : ∀ c ∈ l ++ x, Spec.isBreak c = false)
    (he : (l ++ x).getLast?.all (fun c => !isSpace c) = true) (hg : ∀ c ∈ gap, isSpace c = true)
    (hb : ∃ c ∈ gap, Spec.isBreak c = true) (e : l ++ gap ++ rest = l ++ x ++ t) : x = [] := by
  rw [List.append_assoc, List.append_assoc] at e
  have e := List.append_cancel_left e
  obtain ⟨c, hc, hbc⟩ := hb
  rcases List.append_eq_append_iff.mp e with ⟨y, rfl, -⟩ | ⟨y, rfl, -⟩
  · have := hl c (by simp [hc])
    rw [hbc] at this
    cases this
  · by_contra hx
    rw [List.getLast?_append_of_ne_nil _ hx, List.getLast?_eq_some_getLast hx] at he
    have := hg (x.getLast hx) (by simp [List.getLast_mem hx])
    simp [this] at he

/-- The lines are determined by the text. -/
theorem lines_unique {text : Str} {ls ls' : List Str} (h : Spec.Lines text ls) (h' : Spec.Lines text ls') : ls = ls' := by
  induction h generalizing ls' with
  | last l hl =>
    cases h' with
    | last => rfl
    | cut l' gap rest ls hl' _ _ hb _ _ =>
      obtain ⟨c, hc, hbc⟩ := hb
      have := hl c (by simp [hc])
      rw [hbc] at this
      cases this
  | cut l gap rest ls hl he hg hb hr _ ih =>
    generalize ht : l ++ gap ++ rest = text at h'
    cases h' with
    | last l' hl' =>
      exfalso
      obtain ⟨c, hc, hbc⟩ := hb
      have := hl' c (by rw [← ht]; simp [hc])
      rw [hbc] at this
      cases this
    | cut l' gap' rest' ls' hl' he' hg' hb' hr' h' =>
      have e : l = l' := by
        rcases List.append_eq_append_iff.mp (show l ++ (gap ++ rest) = l' ++ (gap' ++ rest') by simpa using ht) with
          ⟨x, rfl, -⟩ | ⟨x, rfl, -⟩
        · rw [line_not_longer hl' he' hg hb (by rw [ht]; simp : _ = l ++ x ++ (gap' ++ rest'))]
          simp
        · rw [line_not_longer hl he hg' hb' (by rw [← ht]; simp : _ = l' ++ x ++ (gap ++ rest))]
          simp
      subst e
      rw [List.append_assoc, List.append_assoc] at ht
      have e2 : rest = rest' := by
        rw [← dropWhile_gap hg hr, ← dropWhile_gap hg' hr', List.append_cancel_left ht]
      subst e2
      rw [ih h']

end Model
