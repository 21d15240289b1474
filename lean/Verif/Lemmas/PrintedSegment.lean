import Verif.Lemmas.PrintedDots

/-! Segmentation of printed words: "cannot", commas and contractions. -/

namespace Model
open Py

variable {db : CharDB}

theorem OnWord.sub_eq {r : Re} {tpl : List Tp} {w o : Str} (h : OnWord db r tpl w o) : r.sub db tpl w = o := by
  have := h [] [] (.inl rfl) (.inl rfl)
  rw [subGo_nil, List.append_nil, List.append_nil] at this
  rw [sub_eq_go, this]

/-- Word by word. -/
theorem splitWs_sub_each {r : Re} {tpl : List Tp} (hblank : ∀ pre c rest, isSpace c = true → r.matchAt db pre (c :: rest) = none)
    {text : Str} (hw : ∀ w ∈ splitWs text, ∃ o, OnWord db r tpl w o) :
    splitWs (r.sub db tpl text) = (splitWs text).flatMap fun w => splitWs (r.sub db tpl w) := by
  apply splitWs_sub hblank
  intro w h
  obtain ⟨o, ho⟩ := hw w h
  rw [ho.sub_eq]
  exact ho

theorem singles_flat {F : Str → List Str} {s : Str} (hF : ∀ c ∈ s, F [c] = [[c]]) :
    (Spec.Printed.singles s).flatMap F = Spec.Printed.singles s := by
  induction s with
  | nil => rfl
  | cons c s ih =>
    have e : Spec.Printed.singles (c :: s) = [c] :: Spec.Printed.singles s := rfl
    rw [e, List.flatMap_cons, hF c (by simp), ih fun d hd => hF d (by simp [hd])]
    rfl

theorem edge_word {t : Str} (h : AtEdge t) : ∀ c, t.head? = some c → db.word c = false := by
  intro c hc
  rcases h with rfl | ⟨d, u, rfl, hd⟩
  · cases hc
  · simp only [List.head?_cons, Option.some.injEq] at hc
    exact db.word_space c (hc ▸ hd)

theorem edge_digit {t : Str} (h : AtEdge t) : ∀ c p, t = c :: p → db.digit c = false := by
  rintro c p rfl
  have := edge_word (db := db) h c rfl
  by_contra hd
  rw [db.digit_word c (by simpa using hd)] at this
  cases this

/-! ### "cannot" -/

theorem cannot_letters {x : Str} (hx : x.map foldCase = c!"cannot") : ∀ c ∈ x, db.word c = true := by
  intro c hc
  have h1 : foldCase c ∈ x.map foldCase := List.mem_map_of_mem hc
  rw [hx] at h1
  have h2 : ∀ d ∈ c!"cannot", d ∈ ['c', 'a', 'n', 'o', 't'] ∧ d.toNat < 128 ∧ d ∈ c!"cannot" := by decide
  obtain ⟨h3, h4, h5⟩ := h2 _ h1
  have h6 := (lower_eq_fold h3).mp rfl
  have h7 : c.toLower.toNat < 128 := by rw [h6]; exact h4
  have h8 : c.toLower ∈ c!"cannot" → c.isAlpha = true :=
    on_ascii (P := fun c => c.toLower ∈ c!"cannot" → c.isAlpha = true) (by decide +kernel) (lower_ascii h7)
  exact (alpha_word (h8 (by rw [h6]; exact h5))).1

/-- The rule on a run of letters at the beginning of a word. -/
theorem cannot_go {w pre rest : Str} (hw : w ≠ []) (hp : ∀ c ∈ w, Plain db c) (hpre : AtEdge pre)
    (hrest : ∀ c, rest.head? = some c → db.word c = false) :
    cannotRule.1.subGo db cannotRule.2 pre (w ++ rest) = cannotWord w ++
      cannotRule.1.subGo db cannotRule.2 (w.reverse ++ pre) rest := by
  have hb1 : ∀ x, atWordB db ⟨pre, w ++ x, []⟩ = true := by
    intro x
    obtain ⟨c, w, rfl⟩ := List.exists_cons_of_ne_nil hw
    have hc := (hp c (by simp)).1
    rcases hpre with rfl | ⟨d, p, rfl, hd⟩
    · simp [atWordB, hc]
    · simp [atWordB, hc, db.word_space d hd]
  have hb2 : atWordB db ⟨w.reverse ++ pre, rest, []⟩ = true := by
    obtain ⟨w', c, rfl⟩ := (List.eq_nil_or_concat w).resolve_left hw
    have hc := (hp c (by simp)).1
    cases rest with
    | nil => simp [atWordB, hc]
    | cons d r => simp [atWordB, hc, hrest d rfl]
  by_cases hcan : w.map Char.toLower = c!"cannot"
  · rw [subGo_hit hw (cannot_matchAt ((map_lower_iff_fold w).mp hcan) (hb1 rest) hb2) rfl rfl]
    congr 1
    unfold cannotWord
    rw [if_pos hcan]
    simp [expand, cannotRule, capText]
  · have e : cannotWord w = w := by
      unfold cannotWord
      rw [if_neg hcan]
    rw [e]
    apply subGo_skip
    intro u v huv hv
    by_cases hu : u = []
    · subst hu
      simp only [List.nil_append] at huv
      subst huv
      rcases hm : cannotRule.1.matchAt db ([].reverse ++ pre) (w ++ rest) with _ | t
      · rfl
      · exfalso
        obtain ⟨-, x, hx, he, hb⟩ := cannot_run (Re.matchAt_some hm).1
        simp only [List.reverse_nil, List.nil_append] at he hb
        rcases List.append_eq_append_iff.mp he with ⟨a', ha, hb'⟩ | ⟨c', ha, hb'⟩
        · cases a' with
          | nil =>
            rw [List.append_nil] at ha
            exact hcan ((map_lower_iff_fold w).mpr (ha ▸ hx))
          | cons d a' =>
            have h1 := cannot_letters (db := db) hx d (by rw [ha]; simp)
            rw [hrest d (by rw [hb']; rfl)] at h1
            cases h1
        · cases c' with
          | nil =>
            rw [List.append_nil] at ha
            exact hcan ((map_lower_iff_fold w).mpr (ha ▸ hx))
          | cons d c' =>
            have hd := (hp d (by rw [ha]; simp)).1
            have hne : x ≠ [] := by rintro rfl; simp at hx
            obtain ⟨x', c, rfl⟩ := (List.eq_nil_or_concat x).resolve_left hne
            have hc := (hp c (by rw [ha]; simp)).1
            rw [hb'] at hb
            simp [atWordB, hc, hd] at hb
    · apply cannot_inside
      obtain ⟨u', c, rfl⟩ := (List.eq_nil_or_concat u).resolve_left hu
      obtain ⟨d, v', rfl⟩ := List.exists_cons_of_ne_nil hv
      have hc := (hp c (by rw [huv]; simp)).1
      have hd := (hp d (by rw [huv]; simp)).1
      simp [atWordB, hc, hd]

theorem cannot_not_c {pre rest : Str} {c : Char} (hc : foldCase c ≠ 'c') : cannotRule.1.matchAt db pre (c :: rest) = none := by
  rcases hm : cannotRule.1.matchAt db pre (c :: rest) with _ | t
  · rfl
  · exfalso
    obtain ⟨-, x, hx, he, -⟩ := cannot_run (Re.matchAt_some hm).1
    cases x with
    | nil => simp at hx
    | cons d x =>
      simp only [List.cons_append, List.cons.injEq] at he
      simp only [List.map_cons, List.cons.injEq] at hx
      rw [he.1] at hc
      exact hc hx.1

theorem cannot_skip {w pre rest : Str} (hw : ∀ c ∈ w, foldCase c ≠ 'c') :
    cannotRule.1.subGo db cannotRule.2 pre (w ++ rest) = w ++ cannotRule.1.subGo db cannotRule.2 (w.reverse ++ pre) rest := by
  apply subGo_skip
  intro u v e hv
  obtain ⟨c, v, rfl⟩ := List.exists_cons_of_ne_nil hv
  exact cannot_not_c (hw c (by rw [e]; simp))

theorem cannot_blank {pre rest : Str} {c : Char} (hc : isSpace c = true) : cannotRule.1.matchAt db pre (c :: rest) = none := by
  apply cannot_not_c
  rw [fold_space hc]
  rintro rfl
  exact absurd hc (by decide)

section
variable {p : Spec.Printed} (h : p.Ordinary db)
include h

theorem Ordinary.cannot_word {m : Str} (hm : m = [] ∨ m = [',']) :
    OnWord db cannotRule.1 cannotRule.2 (p.stem ++ p.tail ++ m) (cannotWord p.stem ++ (p.tail ++ m)) := by
  intro pre rest hpre hrest
  have hcomma : db.word ',' = false := by
    rw [db.word_ascii ',' (by decide)]
    decide
  have hquote : db.word '\'' = false := by
    rw [db.word_ascii '\'' (by decide)]
    decide
  have hmc : ∀ c ∈ m, foldCase c ≠ 'c' := by
    rcases hm with rfl | rfl
    · simp
    · decide
  rcases h.tail with et | hl
  · rw [et, List.append_nil, List.nil_append, List.append_assoc, cannot_go h.stem_ne h.stem hpre, cannot_skip hmc]
    · simp
    · intro c hc
      rcases hm with rfl | rfl
      · exact edge_word hrest c hc
      · simp only [List.cons_append, List.head?_cons, Option.some.injEq] at hc
        rw [← hc]
        exact hcomma
  · obtain ⟨x, y, e, hx, hy, hxl, hyn, hyl, hn⟩ := tail_parts hl
    have hxp : ∀ c ∈ p.stem ++ x, Plain db c := by
      intro c hc
      rcases List.mem_append.mp hc with hc | hc
      · exact h.stem c hc
      · exact ⟨(alpha_word (hx c hc).2).1, (alpha_word (db := db) (hx c hc).2).2.1⟩
    have e1 : p.stem ++ p.tail ++ m ++ rest = (p.stem ++ x) ++ (('\'' :: (y ++ m)) ++ rest) := by rw [e]; simp
    rw [e1, cannot_go (by simp [h.stem_ne]) hxp hpre (by
      intro c hc
      simp only [List.cons_append, List.head?_cons, Option.some.injEq] at hc
      rw [← hc]
      exact hquote), cannot_skip (by
      intro c hc
      rw [List.mem_cons, List.mem_append] at hc
      rcases hc with rfl | hc | hc
      · decide
      · exact (hy c hc).2
      · exact hmc c hc)]
    have e2 : cannotWord (p.stem ++ x) = cannotWord p.stem ++ x := by
      by_cases hx0 : x = []
      · subst hx0
        simp
      · have h1 : p.stem.map Char.toLower ≠ c!"cannot" := h.cannot (hn hx0)
        have h2 : (p.stem ++ x).map Char.toLower ≠ c!"cannot" := by
          intro h3
          have h4 := (map_lower_iff_fold _).mp h3
          obtain ⟨x', n, rfl⟩ := (List.eq_nil_or_concat x).resolve_left hx0
          have h5 := (hx n (by simp)).1
          have h6 : (p.stem ++ x').map foldCase ++ [foldCase n] = c!"canno" ++ ['t'] := by simpa using h4
          have := List.append_inj_right' h6 rfl
          rw [h5] at this
          revert this
          decide
        unfold cannotWord
        rw [if_neg h1, if_neg h2]
    rw [e2, e]
    simp

end

/-- The first part of "cannot". -/
def cannotInit (s : Str) : List Str := if s.map Char.toLower = c!"cannot" then [s.take 3] else []

/-- The rest of the word. -/
def cannotLast (s : Str) : Str := if s.map Char.toLower = c!"cannot" then s.drop 3 else s

theorem splitCannot_eq (s : Str) : Spec.splitCannot s = cannotInit s ++ [cannotLast s] := by
  unfold Spec.splitCannot cannotInit cannotLast
  by_cases h : s.map Char.toLower = c!"cannot"
  · rw [if_pos h, if_pos h, if_pos h]; rfl
  · rw [if_neg h, if_neg h, if_neg h]; rfl

theorem cannotLast_mem {s : Str} {c : Char} (h : c ∈ cannotLast s) : c ∈ s := by
  unfold cannotLast at h
  split at h
  · exact List.mem_of_mem_drop h
  · exact h

theorem cannotInit_mem {s w : Str} {c : Char} (h : w ∈ cannotInit s) (hc : c ∈ w) : c ∈ s := by
  unfold cannotInit at h
  split at h
  · rw [List.mem_singleton] at h
    subst h
    exact List.mem_of_mem_take hc
  · cases h

theorem cannotLast_ne {s : Str} (h : s ≠ []) : cannotLast s ≠ [] := by
  unfold cannotLast
  split
  · rename_i hc
    have := congrArg List.length hc
    simp at this
    intro h0
    have := congrArg List.length h0
    simp at this
    omega
  · exact h

theorem cannotInit_ne {s w : Str} (h : w ∈ cannotInit s) : w ≠ [] := by
  unfold cannotInit at h
  split at h
  · rename_i hc
    rw [List.mem_singleton] at h
    have := congrArg List.length hc
    simp at this
    rintro rfl
    have := congrArg List.length h
    simp at this
    omega
  · cases h

theorem splitWs_cannot {s z : Str} (hs : NoBlank s) (hz : ∀ c ∈ z, isSpace c = false) :
    splitWs (cannotWord s ++ z) = cannotInit s ++ [cannotLast s ++ z] := by
  unfold cannotWord
  by_cases h : s.map Char.toLower = c!"cannot"
  · have hi : cannotInit s = [s.take 3] := by unfold cannotInit; rw [if_pos h]
    have hl : cannotLast s = s.drop 3 := by unfold cannotLast; rw [if_pos h]
    have h1 : NoBlank (s.take 3) := ⟨cannotInit_ne (s := s) (by rw [hi]; simp), fun c hc => hs.2 c (List.mem_of_mem_take hc)⟩
    have h2 : NoBlank (s.drop 3 ++ z) := by
      refine ⟨?_, ?_⟩
      · have := cannotLast_ne hs.1
        rw [hl] at this
        simp [this]
      · intro c hc
        rcases List.mem_append.mp hc with hc | hc
        · exact hs.2 c (List.mem_of_mem_drop hc)
        · exact hz c hc
    rw [if_pos h, hi, hl]
    have e : s.take 3 ++ [' '] ++ s.drop 3 ++ z = s.take 3 ++ ' ' :: (s.drop 3 ++ z) := by simp
    rw [e, splitWs_sep (by decide), splitWs_noBlank_self h1, splitWs_noBlank_self h2]
  · have hi : cannotInit s = [] := by unfold cannotInit; rw [if_neg h]
    have hl : cannotLast s = s := by unfold cannotLast; rw [if_neg h]
    rw [if_neg h, hi, hl, List.nil_append]
    refine splitWs_noBlank_self ⟨by simp [hs.1], fun c hc => ?_⟩
    rcases List.mem_append.mp hc with hc | hc
    · exact hs.2 c hc
    · exact hz c hc

/-- The words after the split of "cannot". -/
def cutCannot (p : Spec.Printed) : List Str :=
  Spec.Printed.singles p.opening ++ (cannotInit p.stem ++
    ((if p.inner = [] ∧ p.mark = [','] then [cannotLast p.stem ++ p.tail ++ [',']]
    else (cannotLast p.stem ++ p.tail) :: (Spec.Printed.singles p.inner ++ Spec.Printed.singles p.mark)) ++
      Spec.Printed.singles p.outer))

/-- The characters around the words. -/
theorem Ordinary.around {p : Spec.Printed} (h : p.Ordinary db) : ∀ c, c ∈ p.opening ∨ c ∈ p.inner ∨ c ∈ p.mark ∨ c ∈ p.outer →
    c ∈ usedMarks ∧ c ≠ '\'' := by
  have h1 : ∀ c ∈ ['(', '[', '{', '"'], c ∈ usedMarks ∧ c ≠ '\'' := by decide
  have h2 : ∀ c ∈ [')', ']', '}', '"'], c ∈ usedMarks ∧ c ≠ '\'' := by decide
  have h3 : ∀ c ∈ marks, c ∈ usedMarks ∧ c ≠ '\'' := by decide
  rintro c (hc | hc | hc | hc)
  · exact h1 c (h.opening c hc)
  · exact h2 c (h.inner c hc)
  · exact h3 c (Ordinary.mark_sub h c hc)
  · exact h2 c (h.outer c hc)

/-- The words of a stage. -/
theorem cutDots_cases {p : Spec.Printed} {w : Str} (hw : w ∈ cutDots p) :
    (∃ c, w = [c] ∧ (c ∈ p.opening ∨ c ∈ p.inner ∨ c ∈ p.mark ∨ c ∈ p.outer)) ∨ ∃ m, (m = [] ∨ m = [','] ∧ p.mark = [',']) ∧ w = p.stem ++ p.tail ++ m := by
  unfold cutDots Spec.Printed.singles at hw
  split at hw
  · rename_i hh
    simp only [List.mem_append, List.mem_map, List.mem_singleton] at hw
    rcases hw with ⟨c, hc, rfl⟩ | rfl | ⟨c, hc, rfl⟩
    · exact .inl ⟨c, rfl, .inl hc⟩
    · exact .inr ⟨[','], .inr ⟨rfl, hh.2⟩, rfl⟩
    · exact .inl ⟨c, rfl, .inr (.inr (.inr hc))⟩
  · simp only [List.mem_append, List.mem_map, List.mem_cons] at hw
    rcases hw with ⟨c, hc, rfl⟩ | (rfl | ⟨c, hc, rfl⟩ | ⟨c, hc, rfl⟩) | ⟨c, hc, rfl⟩
    · exact .inl ⟨c, rfl, .inl hc⟩
    · exact .inr ⟨[], .inl rfl, by simp⟩
    · exact .inl ⟨c, rfl, .inr (.inl hc)⟩
    · exact .inl ⟨c, rfl, .inr (.inr (.inl hc))⟩
    · exact .inl ⟨c, rfl, .inr (.inr (.inr hc))⟩

theorem cutCannot_cases {p : Spec.Printed} {w : Str} (hw : w ∈ cutCannot p) :
    (∃ c, w = [c] ∧ (c ∈ p.opening ∨ c ∈ p.inner ∨ c ∈ p.mark ∨ c ∈ p.outer)) ∨ w ∈ cannotInit p.stem ∨
      ∃ m, (m = [] ∨ m = [','] ∧ p.mark = [',']) ∧ w = cannotLast p.stem ++ p.tail ++ m := by
  unfold cutCannot Spec.Printed.singles at hw
  split at hw
  · rename_i hh
    simp only [List.mem_append, List.mem_map, List.mem_singleton] at hw
    rcases hw with ⟨c, hc, rfl⟩ | hi | rfl | ⟨c, hc, rfl⟩
    · exact .inl ⟨c, rfl, .inl hc⟩
    · exact .inr (.inl hi)
    · exact .inr (.inr ⟨[','], .inr ⟨rfl, hh.2⟩, rfl⟩)
    · exact .inl ⟨c, rfl, .inr (.inr (.inr hc))⟩
  · simp only [List.mem_append, List.mem_map, List.mem_cons] at hw
    rcases hw with ⟨c, hc, rfl⟩ | hi | (rfl | ⟨c, hc, rfl⟩ | ⟨c, hc, rfl⟩) | ⟨c, hc, rfl⟩
    · exact .inl ⟨c, rfl, .inl hc⟩
    · exact .inr (.inl hi)
    · exact .inr (.inr ⟨[], .inl rfl, by simp⟩)
    · exact .inl ⟨c, rfl, .inr (.inl hc)⟩
    · exact .inl ⟨c, rfl, .inr (.inr (.inl hc))⟩
    · exact .inl ⟨c, rfl, .inr (.inr (.inr hc))⟩

theorem cannot_mark {c : Char} (hc : c ∈ usedMarks) : OnWord db cannotRule.1 cannotRule.2 [c] [c] := by
  intro pre rest _ _
  have : ∀ c ∈ usedMarks, foldCase c ≠ 'c' := by decide
  exact cannot_skip (w := [c]) (by simpa using this c hc)

theorem mark_single {c : Char} (hc : c ∈ usedMarks) : splitWs [c] = [[c]] := by
  have : ∀ c ∈ usedMarks, isSpace c = false := by decide
  exact splitWs_noBlank_self ⟨by simp, by simpa using this c hc⟩

section
variable {p : Spec.Printed} (h : p.Ordinary db)
include h

theorem Ordinary.stem_noBlank : NoBlank p.stem := ⟨h.stem_ne, fun c hc => (Ordinary.core_noBlank h).2 c (by simp [hc])⟩
theorem Ordinary.tail_noBlank : ∀ c ∈ p.tail, isSpace c = false := fun c hc => (Ordinary.core_noBlank h).2 c (by simp [hc])

theorem Ordinary.cannot_on : ∀ w ∈ cutDots p, ∃ o, OnWord db cannotRule.1 cannotRule.2 w o := by
  intro w hw
  rcases cutDots_cases hw with ⟨c, rfl, hc⟩ | ⟨m, hm, rfl⟩
  · exact ⟨[c], cannot_mark (Ordinary.around h c hc).1⟩
  · exact ⟨_, Ordinary.cannot_word h (hm.imp id And.left)⟩

theorem Ordinary.cannot_cut : (cutDots p).flatMap (fun w => splitWs (cannotRule.1.sub db cannotRule.2 w)) = cutCannot p := by
  have hs : ∀ s : Str, (∀ c ∈ s, c ∈ usedMarks) → (Spec.Printed.singles s).flatMap (fun w =>
      splitWs (cannotRule.1.sub db cannotRule.2 w)) = Spec.Printed.singles s := by
    intro s hs
    apply singles_flat
    intro c hc
    show splitWs (cannotRule.1.sub db cannotRule.2 [c]) = _
    rw [(cannot_mark (hs c hc)).sub_eq, mark_single (hs c hc)]
  have ho := hs p.opening fun c hc => (Ordinary.around h c (.inl hc)).1
  have hi := hs p.inner fun c hc => (Ordinary.around h c (.inr (.inl hc))).1
  have hm := hs p.mark fun c hc => (Ordinary.around h c (.inr (.inr (.inl hc)))).1
  have hu := hs p.outer fun c hc => (Ordinary.around h c (.inr (.inr (.inr hc)))).1
  have core : ∀ m : Str, m = [] ∨ m = [','] → splitWs (cannotRule.1.sub db cannotRule.2 (p.stem ++ p.tail ++ m)) =
      cannotInit p.stem ++ [cannotLast p.stem ++ p.tail ++ m] := by
    intro m hm
    rw [(Ordinary.cannot_word h hm).sub_eq, splitWs_cannot (Ordinary.stem_noBlank h), List.append_assoc (cannotLast p.stem)]
    intro c hc
    rcases List.mem_append.mp hc with hc | hc
    · exact Ordinary.tail_noBlank h c hc
    · rcases hm with rfl | rfl
      · cases hc
      · rw [List.mem_singleton] at hc
        subst hc
        decide
  unfold cutDots cutCannot
  rw [List.flatMap_append, List.flatMap_append, ho, hu]
  congr 1
  split
  · simp only [List.flatMap_cons, List.flatMap_nil, List.append_nil]
    rw [core [','] (.inr rfl)]
    simp
  · rw [List.flatMap_cons, List.flatMap_append, hi, hm]
    have := core [] (.inl rfl)
    rw [List.append_nil, List.append_nil] at this
    rw [this]
    simp

end

end Model
