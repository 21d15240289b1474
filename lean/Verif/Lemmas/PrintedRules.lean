import Verif.Lemmas.SubWords
import Verif.Lemmas.Prose

/-! The rules of the tokenizer at single positions. -/

namespace Model
open Py

variable {db : CharDB}

/-- Marks that are always segmented off. -/
def alwaysMarks : List Char := [';', '!', '?', '(', ')', '[', ']', '{', '}', '"']

/-- A repeated character that is not there. -/
theorem rep_none {a : Char} {pre rest : Str} (h : rest.head? ≠ some a) (caps : List (Nat × Str)) :
    (Re.rep 1 true (.cls ⟨false, false, [.ch a]⟩)).run db ⟨pre, rest, caps⟩ = [] := by
  cases rest with
  | nil => simp [Re.run, times]
  | cons c rest =>
    have : a ≠ c := fun e => h (by rw [e]; rfl)
    simp [Re.run, times, Cls.test, Item.test, this]

/-- A repeated character that is there once. -/
theorem rep_one {a : Char} {pre rest : Str} (h : rest.head? ≠ some a) (caps : List (Nat × Str)) :
    (Re.rep 1 true (.cls ⟨false, false, [.ch a]⟩)).run db ⟨pre, a :: rest, caps⟩ = [⟨a :: pre, rest, caps⟩] := by
  cases rest with
  | nil => simp [Re.run, times, Cls.test, Item.test, many]
  | cons c rest =>
    have : a ≠ c := fun e => h (by rw [e]; rfl)
    simp [Re.run, times, Cls.test, Item.test, many, this]

/-- Sentence ends that do not stand in a row. -/
theorem ends_none {pre rest : Str} {c : Char} (h : c ∈ ['.', '?', '!'] → ∀ d, rest.head? = some d → d ∉ ['.', '?', '!'])
    (caps : List (Nat × Str)) :
    (Re.rep 2 true (.cls ⟨false, false, [.ch '.', .ch '?', .ch '!']⟩)).run db ⟨pre, c :: rest, caps⟩ = [] := by
  have key : ∀ d : Char, d ∉ ['.', '?', '!'] → '.' ≠ d ∧ '?' ≠ d ∧ '!' ≠ d := by
    intro d hd
    simp only [List.mem_cons, List.not_mem_nil, or_false, not_or] at hd
    exact ⟨Ne.symm hd.1, Ne.symm hd.2.1, Ne.symm hd.2.2⟩
  by_cases hc : c ∈ ['.', '?', '!']
  · cases rest with
    | nil =>
      simp only [Re.run, times]
      split <;> simp
    | cons d rest =>
      obtain ⟨k1, k2, k3⟩ := key d (h hc d rfl)
      simp only [Re.run, times]
      split
      · simp [Re.run, Cls.test, Item.test, k1, k2, k3]
      · simp
  · obtain ⟨k1, k2, k3⟩ := key c hc
    simp [Re.run, times, Cls.test, Item.test, k1, k2, k3]

/-- The alternatives of `__re_always_split` after the first. -/
def alwaysChars : List Char := ['…', '=', '!', '?', '"', ';', '|', '\\', '(', ')', '{', '}', '[', ']', '–']

theorem always_eq : tokAlwaysSplit.1 = .group 1 (.alt (.rep 2 true (.cls ⟨false, false, [.ch '.', .ch '?', .ch '!']⟩))
    (alwaysChars.dropLast.foldr (fun a r => .alt (.rep 1 true (.cls ⟨false, false, [.ch a]⟩)) r)
      (.rep 1 true (.cls ⟨false, false, [.ch '–']⟩)))) := rfl

theorem always_none {pre rest : Str} {c : Char} (hc : c ∉ alwaysChars)
    (h : c = '.' → ∀ d, rest.head? = some d → d ∉ ['.', '?', '!']) : tokAlwaysSplit.1.matchAt db pre (c :: rest) = none := by
  apply Re.matchAt_nil
  rw [always_eq, Re.run, Re.run, ends_none]
  · have hne : ∀ a ∈ alwaysChars, (c :: rest).head? ≠ some a := by
      intro a ha e
      simp only [List.head?_cons, Option.some.injEq] at e
      exact hc (e ▸ ha)
    have : ∀ l : List Char, (∀ a ∈ l, a ∈ alwaysChars) →
        (l.foldr (fun a r => Re.alt (.rep 1 true (.cls ⟨false, false, [.ch a]⟩)) r)
          (.rep 1 true (.cls ⟨false, false, [.ch '–']⟩))).run db ⟨pre, c :: rest, []⟩ = [] := by
      intro l
      induction l with
      | nil => intro _; exact rep_none (hne _ (by decide)) _
      | cons a l ih =>
        intro hl
        rw [List.foldr_cons, Re.run, rep_none (hne a (hl a (by simp))), ih fun b hb => hl b (by simp [hb])]
        rfl
    rw [this _ (fun a ha => List.mem_of_mem_dropLast ha)]
    rfl
  · intro hm
    simp only [List.mem_cons, List.not_mem_nil, or_false] at hm
    rcases hm with rfl | rfl | rfl
    · exact h rfl
    · exact absurd (by decide) hc
    · exact absurd (by decide) hc

theorem always_hit {pre rest : Str} {c : Char} (hc : c ∈ alwaysMarks) (hn : rest.head? ≠ some c)
    (h : c = '!' ∨ c = '?' → ∀ d, rest.head? = some d → d ∉ ['.', '?', '!']) :
    tokAlwaysSplit.1.matchAt db pre (c :: rest) = some ⟨c :: pre, rest, [(1, [c])]⟩ := by
  have key : ∀ l : List Char, c ∈ l → l.Nodup →
      (l.foldr (fun a r => Re.alt (.rep 1 true (.cls ⟨false, false, [.ch a]⟩)) r)
        (.rep 1 true (.cls ⟨false, false, [.ch '–']⟩))).run db ⟨pre, c :: rest, []⟩ = [⟨c :: pre, rest, []⟩] := by
    intro l
    induction l with
    | nil => intro h; cases h
    | cons a l ih =>
      intro hm hd
      rw [List.nodup_cons] at hd
      rw [List.foldr_cons, Re.run]
      rcases List.mem_cons.mp hm with rfl | hm
      · rw [rep_one hn]
        have : ∀ l : List Char, c ∉ l →
            (l.foldr (fun a r => Re.alt (.rep 1 true (.cls ⟨false, false, [.ch a]⟩)) r)
              (.rep 1 true (.cls ⟨false, false, [.ch '–']⟩))).run db ⟨pre, c :: rest, []⟩ = [] := by
          intro l
          induction l with
          | nil =>
            intro _
            refine rep_none ?_ _
            intro e
            simp only [List.head?_cons, Option.some.injEq] at e
            rw [e] at hc
            exact absurd hc (by decide)
          | cons b l ih =>
            intro hl
            rw [List.foldr_cons, Re.run, rep_none, ih fun h => hl (by simp [h])]
            · rfl
            · intro e
              simp only [List.head?_cons, Option.some.injEq] at e
              exact hl (by simp [e])
        rw [this l hd.1]
        rfl
      · rw [rep_none, ih hm hd.2]
        · rfl
        · intro e
          simp only [List.head?_cons, Option.some.injEq] at e
          exact hd.1 (e ▸ hm)
  have hmem : c ∈ alwaysChars.dropLast := by
    have : ∀ d ∈ alwaysMarks, d ∈ alwaysChars.dropLast := by decide
    exact this c hc
  apply Re.matchAt_eq_some (l := [])
  · rw [always_eq, Re.run, Re.run, ends_none, key _ hmem (by decide)]
    · simp
    · intro hm
      simp only [List.mem_cons, List.not_mem_nil, or_false] at hm
      rcases hm with rfl | rfl | rfl
      · exact absurd hc (by decide)
      · exact h (.inr rfl)
      · exact h (.inl rfl)
  · simp

/-! ### Commas -/

def commaRule1 : SubRule := (re% r"(?<!\d),", tpl% " , ")
def commaRule2 : SubRule := (re% r",(?!\d)", tpl% " , ")

theorem comma1_none {pre rest : Str} {c : Char} (h : c ≠ ',') : commaRule1.1.matchAt db pre (c :: rest) = none := by
  apply Re.matchAt_nil
  have hr : commaRule1.1 = .seq (.behind true (.cls ⟨false, false, [.digit]⟩)) (.cls ⟨false, false, [.ch ',']⟩) := rfl
  rw [hr, Re.run, List.flatMap_eq_nil_iff]
  intro t ht
  have := Re.run_zero (by trivial) ht
  subst this
  simp [Re.run, Cls.test, Item.test, Ne.symm h]

theorem behind_digit (s : St) : (Re.behind true (.cls ⟨false, false, [.digit]⟩)).run db s =
    if (match s.pre with | [] => false | c :: _ => db.digit c) then [] else [s] := by
  rcases s with ⟨pre, rest, caps⟩
  cases pre with
  | nil => simp [Re.run, Re.width]
  | cons c pre =>
    by_cases hd : db.digit c = true
    · simp [Re.run, Re.width, Cls.test, Item.test, hd]
    · simp [Re.run, Re.width, Cls.test, Item.test, hd]

theorem comma1_digit {pre rest : Str} {c : Char} (h : db.digit c = true) :
    commaRule1.1.matchAt db (c :: pre) (',' :: rest) = none := by
  apply Re.matchAt_nil
  have hr : commaRule1.1 = .seq (.behind true (.cls ⟨false, false, [.digit]⟩)) (.cls ⟨false, false, [.ch ',']⟩) := rfl
  rw [hr, Re.run, behind_digit]
  simp [h]

theorem comma1_hit {pre rest : Str} (h : ∀ c p, pre = c :: p → db.digit c = false) :
    commaRule1.1.matchAt db pre (',' :: rest) = some ⟨',' :: pre, rest, []⟩ := by
  apply Re.matchAt_eq_some (l := [])
  · have hr : commaRule1.1 = .seq (.behind true (.cls ⟨false, false, [.digit]⟩)) (.cls ⟨false, false, [.ch ',']⟩) := rfl
    rw [hr, Re.run, behind_digit]
    cases pre with
    | nil => simp [Re.run, Cls.test, Item.test]
    | cons c p => simp [h c p rfl, Re.run, Cls.test, Item.test]
  · simp

theorem comma2_none {pre rest : Str} {c : Char} (h : c ≠ ',') : commaRule2.1.matchAt db pre (c :: rest) = none := by
  apply Re.matchAt_nil
  have hr : commaRule2.1 = .seq (.cls ⟨false, false, [.ch ',']⟩) (.ahead true (.cls ⟨false, false, [.digit]⟩)) := rfl
  rw [hr]
  simp [Re.run, Cls.test, Item.test, Ne.symm h]

theorem comma2_hit {pre rest : Str} (h : ∀ c p, rest = c :: p → db.digit c = false) :
    commaRule2.1.matchAt db pre (',' :: rest) = some ⟨',' :: pre, rest, []⟩ := by
  apply Re.matchAt_eq_some (l := [])
  · have hr : commaRule2.1 = .seq (.cls ⟨false, false, [.ch ',']⟩) (.ahead true (.cls ⟨false, false, [.digit]⟩)) := rfl
    rw [hr]
    cases rest with
    | nil => simp [Re.run, Cls.test, Item.test]
    | cons c p => simp [Re.run, Cls.test, Item.test, h c p rfl]
  · simp

/-! ### Contractions -/

def tailRule : SubRule := (rei% r"(n't|'re|'ll|'ve|'m|'d|'s)(?=\s|$)", tpl% r" \g<1> ")

/-- A case-insensitive literal. -/
def litRe : Str → Re
  | [] => .eps
  | [a] => .cls ⟨false, true, [.ch a]⟩
  | a :: b :: l => .seq (.cls ⟨false, true, [.ch a]⟩) (litRe (b :: l))

theorem litRe_run {l : Str} : ∀ {s t : St}, t ∈ (litRe l).run db s →
    ∃ w, w.map foldCase = l.map foldCase ∧ s.rest = w ++ t.rest ∧ t = ⟨w.reverse ++ s.pre, t.rest, s.caps⟩ := by
  induction l with
  | nil =>
    intro s t h
    have := Re.run_zero (by trivial) h
    subst this
    exact ⟨[], rfl, rfl, rfl⟩
  | cons a l ih =>
    intro s t h
    cases l with
    | nil =>
      obtain ⟨c, cs, h1, h2, rfl⟩ := run_lit_ic h
      exact ⟨[c], by simp [h2], h1, rfl⟩
    | cons b l =>
      rw [litRe, Re.run, List.mem_flatMap] at h
      obtain ⟨u, hu, h⟩ := h
      obtain ⟨c, cs, h1, h2, rfl⟩ := run_lit_ic hu
      obtain ⟨w, h3, h4, h5⟩ := ih h
      refine ⟨c :: w, by simp [h2, h3], by rw [h1]; simpa using h4, ?_⟩
      rw [h5]
      simp

theorem litRe_hit {l : Str} (hl : l ≠ []) : ∀ {w pre rest : Str} {caps : List (Nat × Str)}, w.map foldCase = l.map foldCase →
    (litRe l).run db ⟨pre, w ++ rest, caps⟩ = [⟨w.reverse ++ pre, rest, caps⟩] := by
  induction l with
  | nil => exact absurd rfl hl
  | cons a l ih =>
    intro w pre rest caps h
    obtain ⟨c, w, rfl⟩ : ∃ c w', w = c :: w' := by cases w <;> simp at h ⊢
    simp only [List.map_cons, List.cons.injEq] at h
    cases l with
    | nil =>
      have : w = [] := by simpa using h.2
      subst this
      rw [litRe, List.cons_append, run_litI, if_pos h.1.symm]
      rfl
    | cons b l =>
      rw [litRe, Re.run, List.cons_append, run_litI, if_pos h.1.symm]
      simp only [List.flatMap_cons, List.flatMap_nil, List.append_nil]
      rw [ih (by simp) h.2]
      simp

/-- The endings of `__re_segment_off` for contractions. -/
def tails : List Str := [c!"n't", c!"'re", c!"'ll", c!"'ve", c!"'m", c!"'d", c!"'s"]

theorem tailRule_eq : tailRule.1 = .seq (.group 1 (.alt (litRe c!"n't") (.alt (litRe c!"'re") (.alt (litRe c!"'ll")
    (.alt (litRe c!"'ve") (.alt (litRe c!"'m") (.alt (litRe c!"'d") (litRe c!"'s"))))))))
    (.ahead false (.alt (.cls ⟨false, true, [.space]⟩) .eos)) := rfl

theorem tail_run {s t : St} (h : t ∈ tailRule.1.run db s) : ∃ l ∈ tails, ∃ w, w.map foldCase = l ∧ s.rest = w ++ t.rest := by
  rw [tailRule_eq, Re.run, List.mem_flatMap] at h
  obtain ⟨u, hu, h⟩ := h
  have := Re.run_zero (by trivial) h
  subst this
  rw [Re.run, List.mem_map] at hu
  obtain ⟨v, hv, rfl⟩ := hu
  have key : ∀ l ∈ tails, v ∈ (litRe l).run db s → ∃ l ∈ tails, ∃ w, w.map foldCase = l ∧ s.rest = w ++ v.rest := by
    intro l hl h
    obtain ⟨w, h1, h2, -⟩ := litRe_run h
    have hf : ∀ l ∈ tails, l.map foldCase = l := by decide
    exact ⟨l, hl, w, by rw [h1, hf l hl], h2⟩
  simp only [Re.run, List.mem_append] at hv
  rcases hv with hv | hv | hv | hv | hv | hv | hv <;> exact key _ (by decide) hv

theorem tail_lookahead {s : St} (h : AtEdge s.rest) :
    (Re.ahead false (.alt (.cls ⟨false, true, [.space]⟩) .eos)).run db s = [s] := by
  rcases s with ⟨pre, rest, caps⟩
  rcases h with h | ⟨d, u, h, hd⟩
  · simp only at h
    subst h
    simp [Re.run]
  · simp only at h
    subst h
    simp [Re.run, Cls.test, Item.test, hd]

theorem litRe_none {l w rest pre : Str} {caps : List (Nat × Str)} (h : ∀ v r, w ++ rest = v ++ r → v.map foldCase ≠ l.map foldCase) :
    (litRe l).run db ⟨pre, w ++ rest, caps⟩ = [] := by
  rw [List.eq_nil_iff_forall_not_mem]
  intro t ht
  obtain ⟨v, h1, h2, -⟩ := litRe_run ht
  exact h v _ h2 h1

theorem tail_hit {w pre rest : Str} (hw : w.map foldCase ∈ tails) (hr : AtEdge rest) :
    tailRule.1.matchAt db pre (w ++ rest) = some ⟨w.reverse ++ pre, rest, [(1, w)]⟩ := by
  have hf : ∀ l ∈ tails, l.map foldCase = l := by decide
  have hit : ∀ l ∈ tails, w.map foldCase = l → (litRe l).run db ⟨pre, w ++ rest, []⟩ = [⟨w.reverse ++ pre, rest, []⟩] := by
    intro l hl h
    exact litRe_hit (by rintro rfl; revert hl; decide) (by rw [h, hf l hl])
  have miss : ∀ l ∈ tails, w.map foldCase ≠ l → (litRe l).run db ⟨pre, w ++ rest, []⟩ = [] := by
    intro l hl h
    apply litRe_none
    intro v r e hv
    rw [hf l hl] at hv
    have hpre : ∀ a ∈ tails, ∀ b ∈ tails, a <+: b → a = b := by decide
    rcases List.append_eq_append_iff.mp e with ⟨a', e1, e2⟩ | ⟨c', e1, e2⟩
    · exact h (hpre _ hw l hl ⟨a'.map foldCase, by rw [← hv, e1, List.map_append]⟩)
    · exact h (hpre l hl _ hw ⟨c'.map foldCase, by rw [← hv, e1, List.map_append]⟩).symm
  have both : ∀ l ∈ tails, (litRe l).run db ⟨pre, w ++ rest, []⟩ = if w.map foldCase = l then [⟨w.reverse ++ pre, rest, []⟩] else [] := by
    intro l hl
    split
    · exact hit l hl (by assumption)
    · exact miss l hl (by assumption)
  apply Re.matchAt_eq_some (l := [])
  · rw [tailRule_eq, Re.run, Re.run, Re.run, Re.run, Re.run, Re.run, Re.run, Re.run, both _ (by decide), both _ (by decide),
      both _ (by decide), both _ (by decide), both _ (by decide), both _ (by decide), both _ (by decide)]
    have : (if w.map foldCase = c!"n't" then [(⟨w.reverse ++ pre, rest, []⟩ : St)] else []) ++
        ((if w.map foldCase = c!"'re" then [⟨w.reverse ++ pre, rest, []⟩] else []) ++
        ((if w.map foldCase = c!"'ll" then [⟨w.reverse ++ pre, rest, []⟩] else []) ++
        ((if w.map foldCase = c!"'ve" then [⟨w.reverse ++ pre, rest, []⟩] else []) ++
        ((if w.map foldCase = c!"'m" then [⟨w.reverse ++ pre, rest, []⟩] else []) ++
        ((if w.map foldCase = c!"'d" then [⟨w.reverse ++ pre, rest, []⟩] else []) ++
        (if w.map foldCase = c!"'s" then [⟨w.reverse ++ pre, rest, []⟩] else [])))))) = [⟨w.reverse ++ pre, rest, []⟩] := by
      generalize w.map foldCase = m at hw
      simp only [tails, List.mem_cons, List.not_mem_nil, or_false] at hw
      rcases hw with rfl | rfl | rfl | rfl | rfl | rfl | rfl <;> rfl
    rw [this]
    simp only [List.map_cons, List.map_nil, List.flatMap_cons, List.flatMap_nil, List.append_nil]
    rw [tail_lookahead hr]
    simp
  · have : w ≠ [] := by
      rintro rfl
      revert hw
      decide
    have := List.length_pos_of_ne_nil this
    simp only [List.length_append]
    omega

theorem fold_space {c : Char} (hc : isSpace c = true) : foldCase c = c := by
  unfold isSpace at hc
  simp only [Bool.or_eq_true, Bool.and_eq_true, decide_eq_true_eq, beq_iff_eq] at hc
  unfold foldCase lowerLetter
  rw [if_neg (by omega), if_neg (by omega), if_neg (by omega), if_neg (by simp; omega)]

theorem space_fold {c a : Char} (h : foldCase c = a) (ha : isSpace a = false) : isSpace c = false := by
  by_contra hs
  have hs : isSpace c = true := by simpa using hs
  rw [fold_space hs] at h
  rw [h, ha] at hs
  cases hs

theorem tailRule_blank {pre rest : Str} {c : Char} (hc : isSpace c = true) : tailRule.1.matchAt db pre (c :: rest) = none := by
  rcases hm : tailRule.1.matchAt db pre (c :: rest) with _ | t
  · rfl
  · exfalso
    obtain ⟨l, hl, w, h1, h2⟩ := tail_run (Re.matchAt_some hm).1
    cases w with
    | nil =>
      rw [← h1] at hl
      revert hl
      decide
    | cons d w =>
      simp only [List.cons_append, List.cons.injEq] at h2
      rw [h2.1] at hc
      have : ∀ l ∈ tails, ∀ a ∈ l, isSpace a = false := by decide
      have := space_fold (c := d) rfl (this l hl _ (by rw [← h1]; simp))
      rw [this] at hc
      cases hc

end Model

/-! ### The texts that a pattern can consume -/

namespace Py

/-- The texts that a pattern can consume, as far as they do not depend on the context. -/
def Re.den (db : CharDB) : Re → Str → Prop
  | .cls k, w => ∃ c, w = [c] ∧ k.test db c = true
  | .seq a b, w => ∃ u v, w = u ++ v ∧ a.den db u ∧ b.den db v
  | .alt a b, w => a.den db w ∨ b.den db w
  | .rep n _ a, w => ∃ l : List Str, n ≤ l.length ∧ w = l.flatten ∧ ∀ u ∈ l, a.den db u
  | .group _ a, w => a.den db w
  | _, w => w = []

theorem Re.run_den {db : CharDB} : ∀ (r : Re) (s t : St) (w : Str), t ∈ r.run db s → Eats s t w → r.den db w := by
  have zero : ∀ (r : Re) (s t : St) (w : Str), (match r with
      | .eps | .bos | .eos | .wordB | .ahead _ _ | .behind _ _ => True
      | _ => False) → t ∈ r.run db s → Eats s t w → w = [] := by
    intro r s t w hz ht he
    have := Re.run_zero hz ht
    subst this
    exact he.uniq (.refl t)
  intro r
  induction r with
  | eps => intro s t w ht he; exact zero _ s t w trivial ht he
  | bos => intro s t w ht he; exact zero _ s t w trivial ht he
  | eos => intro s t w ht he; exact zero _ s t w trivial ht he
  | wordB => intro s t w ht he; exact zero _ s t w trivial ht he
  | ahead n a _ => intro s t w ht he; exact zero _ s t w trivial ht he
  | behind n a _ => intro s t w ht he; exact zero _ s t w trivial ht he
  | cls k =>
    intro s t w ht he
    obtain ⟨c, cs, e, h, rfl⟩ := Re.run_cls ht
    exact ⟨c, (List.append_cancel_right (show [c] ++ cs = w ++ cs from e.symm.trans he.rest)).symm, h⟩
  | seq a b iha ihb =>
    intro s t w ht he
    obtain ⟨u, x, y, h1, h2, e1, e2⟩ := Re.run_seq ht
    exact ⟨x, y, he.uniq (e1.trans e2), iha s u x h1 e1, ihb u t y h2 e2⟩
  | alt a b iha ihb =>
    intro s t w ht he
    simp only [Re.run, List.mem_append] at ht
    exact ht.imp (fun h => iha s t w h he) fun h => ihb s t w h he
  | group n a ih =>
    intro s t w ht he
    obtain ⟨v, hv, e⟩ := Model.group_run ht he
    exact ih s v w hv e
  | rep n g a ih =>
    have htimes : ∀ (n : Nat) (s t : St) (w : Str), t ∈ times (a.run db) n s → Eats s t w →
        ∃ l : List Str, l.length = n ∧ w = l.flatten ∧ ∀ u ∈ l, a.den db u := by
      intro n
      induction n with
      | zero =>
        intro s t w ht he
        simp only [times, List.mem_singleton] at ht
        subst ht
        exact ⟨[], rfl, he.uniq (.refl t), by simp⟩
      | succ n ihn =>
        intro s t w ht he
        simp only [times, List.mem_flatMap] at ht
        obtain ⟨u, hu, ht⟩ := ht
        obtain ⟨x, ex⟩ := a.run_eats s u hu
        obtain ⟨y, ey⟩ := times_eats a.run_eats n u t ht
        obtain ⟨l, h1, h2, h3⟩ := ihn u t y ht ey
        refine ⟨x :: l, by simp [h1], by rw [he.uniq (ex.trans ey), h2]; rfl, ?_⟩
        intro v hv
        rcases List.mem_cons.mp hv with rfl | hv
        · exact ih s u _ hu ex
        · exact h3 v hv
    have hmany : ∀ (n : Nat) (s t : St) (w : Str), t ∈ many (a.run db) g n s → Eats s t w →
        ∃ l : List Str, w = l.flatten ∧ ∀ u ∈ l, a.den db u := by
      intro n
      induction n with
      | zero =>
        intro s t w ht he
        simp only [many, List.mem_singleton] at ht
        subst ht
        exact ⟨[], he.uniq (.refl t), by simp⟩
      | succ n ihn =>
        intro s t w ht he
        rcases mem_many ht with rfl | ⟨u, hu, -, ht⟩
        · exact ⟨[], he.uniq (.refl t), by simp⟩
        · obtain ⟨x, ex⟩ := a.run_eats s u hu
          obtain ⟨y, ey⟩ := many_eats a.run_eats g n u t ht
          obtain ⟨l, h2, h3⟩ := ihn u t y ht ey
          refine ⟨x :: l, by rw [he.uniq (ex.trans ey), h2]; rfl, ?_⟩
          intro v hv
          rcases List.mem_cons.mp hv with rfl | hv
          · exact ih s u _ hu ex
          · exact h3 v hv
    intro s t w ht he
    rw [Re.run, List.mem_flatMap] at ht
    obtain ⟨u, hu, ht⟩ := ht
    obtain ⟨x, ex⟩ := times_eats a.run_eats n s u hu
    obtain ⟨y, ey⟩ := many_eats a.run_eats g _ u t ht
    obtain ⟨l1, h1, h2, h3⟩ := htimes n s u x hu ex
    obtain ⟨l2, h4, h5⟩ := hmany _ u t y ht ey
    refine ⟨l1 ++ l2, by simp [h1], by rw [he.uniq (ex.trans ey), h2, h4]; simp, ?_⟩
    intro v hv
    rcases List.mem_append.mp hv with hv | hv
    · exact h3 v hv
    · exact h5 v hv

/-- What a match consumes. -/
theorem Re.match_den {db : CharDB} {r : Re} {pre rest : Str} {t : St} (h : r.matchAt db pre rest = some t) :
    ∃ w u, rest = w ++ u ∧ r.den db w := by
  obtain ⟨ht, w, -, he⟩ := Re.matchAt_some h
  exact ⟨w, t.rest, he.rest, Re.run_den r _ t w ht he⟩

/-- What a positive lookahead sees. -/
theorem Re.run_ahead {db : CharDB} {a : Re} {s t : St} (h : t ∈ (Re.ahead false a).run db s) :
    t = s ∧ ∃ w u, s.rest = w ++ u ∧ a.den db w := by
  have hts := Re.run_zero (by trivial) h
  refine ⟨hts, ?_⟩
  simp only [Re.run] at h
  split at h
  · rename_i hn
    have hne : a.run db s ≠ [] := by
      intro e
      rw [e] at hn
      cases hn
    obtain ⟨v, l, e⟩ := List.exists_cons_of_ne_nil hne
    have hv : v ∈ a.run db s := by rw [e]; simp
    obtain ⟨w, hw⟩ := a.run_eats s v hv
    exact ⟨w, v.rest, hw.rest, Re.run_den a s v w hv hw⟩
  · cases h

end Py

namespace Model
open Py

variable {db : CharDB}

/-! ### Quotes -/

/-- The four rules for single quotes. -/
def quoteRules : List SubRule := [
  (re% r"(^|\s)'(?!s)", tpl% " ' "),
  (re% r"'(\s|$)", tpl% " ' "),
  (rei% r"(?<=\w\w\w)'(?=\w\w\w)", tpl% " ' "),
  (rei% r"(^|\s)'(?=s\w)", tpl% " ' ")]

theorem lit_test {ic : Bool} {a c : Char} (ha : foldCase a = a) (hl : ¬ (97 ≤ a.toNat ∧ a.toNat ≤ 122))
    (h : (⟨false, ic, [.ch a]⟩ : Cls).test db c = true) : c = a := by
  cases ic
  · have : a = c := by simpa [Cls.test, Item.test] using h
    exact this.symm
  · refine foldCase_of_not_letter ha hl ?_
    simp only [Cls.test, List.any_cons, List.any_nil, Bool.or_false, Item.test, if_true, bne_iff_ne, ne_eq,
      beq_iff_eq, Bool.not_eq_false] at h
    rw [← h, ha]

theorem quote_test {ic : Bool} {c : Char} (h : (⟨false, ic, [.ch '\'']⟩ : Cls).test db c = true) : c = '\'' :=
  lit_test (by decide) (by decide) h

theorem space_test {ic : Bool} {c : Char} (h : (⟨false, ic, [.space]⟩ : Cls).test db c = true) : isSpace c = true := by
  simpa [Cls.test, Item.test] using h

theorem word_test {ic : Bool} {c : Char} (h : (⟨false, ic, [.word]⟩ : Cls).test db c = true) : db.word c = true := by
  simpa [Cls.test, Item.test] using h

/-- Words whose single quotes have something on both sides, and not much after them. -/
def Quotable (w : Str) : Prop := ∀ a b, w = a ++ '\'' :: b → a ≠ [] ∧ b ≠ [] ∧ b.length ≤ 2

theorem quoteRules_none {text : Str} (h : ∀ w ∈ splitWs text, Quotable w) : subAll db quoteRules text = text := by
  have hq : ∀ x y, text = x ++ '\'' :: y → (∃ x' c, x = x' ++ [c] ∧ isSpace c = false) ∧ (∃ c y', y = c :: y' ∧ isSpace c = false) ∧
      ∀ a b c u, y = a :: b :: c :: u → isSpace a = true ∨ isSpace b = true ∨ isSpace c = true := by
    intro x y e
    obtain ⟨A, a, b, B, x', y', h1, rfl, rfl, -, hy, -, -⟩ := word_around (c := '\'') (by decide) x y
    rw [← e] at h1
    have hmem : a ++ '\'' :: b ∈ splitWs text := by rw [h1]; simp
    obtain ⟨h2, h3, h4⟩ := h _ hmem a b rfl
    have hnb := splitWs_noBlank text _ hmem
    refine ⟨?_, ?_, ?_⟩
    · obtain ⟨a', c, rfl⟩ := (List.eq_nil_or_concat a).resolve_left h2
      exact ⟨x' ++ a', c, by simp, hnb.2 c (by simp)⟩
    · obtain ⟨c, b', rfl⟩ := List.exists_cons_of_ne_nil h3
      exact ⟨c, b' ++ y', rfl, hnb.2 c (by simp)⟩
    · intro p q r u e
      match b, h3, h4 with
      | [_], _, _ =>
        rcases hy with rfl | ⟨d, v, rfl, hd⟩
        · simp at e
        · simp only [List.cons_append, List.nil_append, List.cons.injEq] at e
          right; left
          rw [← e.2.1]
          exact hd
      | [_, _], _, _ =>
        rcases hy with rfl | ⟨d, v, rfl, hd⟩
        · simp at e
        · simp only [List.cons_append, List.nil_append, List.cons.injEq] at e
          right; right
          rw [← e.2.2.1]
          exact hd
  have first : ∀ {ic : Bool} {b : Re}, ∀ pre rest, text = pre.reverse ++ rest →
      (Re.seq (.group 1 (.alt .bos (.cls ⟨false, ic, [.space]⟩))) (.seq (.cls ⟨false, ic, [.ch '\'']⟩) b)).matchAt db pre rest =
        none := by
    intro ic b pre rest et
    rcases hm : (Re.seq (.group 1 (.alt .bos (.cls ⟨false, ic, [.space]⟩))) (.seq (.cls ⟨false, ic, [.ch '\'']⟩) b)).matchAt db
      pre rest with _ | t
    · rfl
    · exfalso
      obtain ⟨ht, w, -, he⟩ := Re.matchAt_some hm
      obtain ⟨u, x, y, h1, h2, e1, e2⟩ := Re.run_seq ht
      obtain ⟨v, hv, ev⟩ := group_run h1 e1
      obtain ⟨u2, x2, y2, h3, -, e3, -⟩ := Re.run_seq h2
      obtain ⟨c, rfl, hc⟩ := Re.run_den _ _ _ _ h3 e3
      have := quote_test hc
      subst this
      simp only [Re.run, List.mem_append] at hv
      have er : rest = x ++ '\'' :: u2.rest := by
        have := e1.rest
        simp only at this
        rw [this, e3.rest]
        rfl
      rcases hv with hv | hv
      · split at hv
        · rename_i hp
          rw [List.mem_singleton] at hv
          subst hv
          have hx : x = [] := ev.uniq (.refl _)
          subst hx
          simp only [List.isEmpty_iff] at hp
          subst hp
          obtain ⟨⟨x', d, hx, -⟩, -⟩ := hq [] u2.rest (by rw [et, er]; rfl)
          exact absurd hx (by simp)
        · cases hv
      · obtain ⟨d, rfl, hd⟩ := Re.run_den (.cls ⟨false, ic, [.space]⟩) _ v x (by simpa [Re.run] using hv) ev
        obtain ⟨⟨x', d', hx, hsp⟩, -⟩ := hq (pre.reverse ++ [d]) u2.rest (by rw [et, er]; simp)
        have := List.append_inj_right' hx rfl
        simp only [List.cons.injEq, and_true] at this
        rw [← this, space_test hd] at hsp
        cases hsp
  unfold quoteRules
  rw [subAll_cons, Re.sub_none, subAll_cons, Re.sub_none, subAll_cons, Re.sub_none, subAll_cons, Re.sub_none]
  · rfl
  · exact first
  · intro pre rest et
    rcases hm : (rei% r"(?<=\w\w\w)'(?=\w\w\w)").matchAt db pre rest with _ | t
    · rfl
    · exfalso
      obtain ⟨ht, -⟩ := Re.matchAt_some hm
      obtain ⟨u, x, y, h1, h2, e1, e2⟩ := Re.run_seq ht
      have := Re.run_zero (by trivial) h1
      subst this
      obtain ⟨u2, x2, y2, h3, h4, e3, -⟩ := Re.run_seq h2
      obtain ⟨c, rfl, hc⟩ := Re.run_den _ _ _ _ h3 e3
      have := quote_test hc
      subst this
      obtain ⟨-, w, v, er, p, q, rfl, ⟨a, rfl, ha⟩, p2, q2, rfl, ⟨b, rfl, hb⟩, ⟨d, rfl, hd⟩⟩ := Re.run_ahead h4
      obtain ⟨-, -, h5⟩ := hq pre.reverse u2.rest (by rw [et]; simpa using e3.rest)
      have ha := word_test ha
      have hb := word_test hb
      have hd := word_test hd
      rcases h5 a b d v (by rw [er]; rfl) with h | h | h
      · rw [db.word_space _ h] at ha; cases ha
      · rw [db.word_space _ h] at hb; cases hb
      · rw [db.word_space _ h] at hd; cases hd
  · intro pre rest et
    rcases hm : (re% r"'(\s|$)").matchAt db pre rest with _ | t
    · rfl
    · exfalso
      obtain ⟨ht, w, -, he⟩ := Re.matchAt_some hm
      obtain ⟨u, x, y, h1, h2, e1, e2⟩ := Re.run_seq ht
      obtain ⟨c, rfl, hc⟩ := Re.run_den _ _ _ _ h1 e1
      have := quote_test hc
      subst this
      obtain ⟨-, ⟨c, y', e, hsp⟩, -⟩ := hq pre.reverse u.rest (by rw [et]; simpa using e1.rest)
      obtain ⟨v, hv, ev⟩ := group_run h2 e2
      simp only [Re.run, List.mem_append] at hv
      rcases hv with hv | hv
      · obtain ⟨d, rfl, hd⟩ := Re.run_den (.cls ⟨false, false, [.space]⟩) _ v y (by simpa [Re.run] using hv) ev
        have := ev.rest
        rw [e] at this
        simp only [List.cons_append, List.cons.injEq] at this
        rw [this.1, space_test hd] at hsp
        cases hsp
      · rw [e] at hv
        simp only [List.isEmpty_cons, Bool.false_or, beq_iff_eq, List.cons.injEq] at hv
        split at hv
        · rename_i hn
          rw [hn.1] at hsp
          exact absurd hsp (by decide)
        · cases hv
  · exact first

end Model
