import Verif.Lemmas.StagesProtect

/-! # The sanitized text of the tokenizer -/

namespace Model
open Py

theorem cls_matchAt (db : CharDB) (k : Cls) (pre : Str) (c : Char) (cs : Str) : (Re.cls k).matchAt db pre (c :: cs) =
    if k.test db c then some ⟨c :: pre, cs, []⟩ else none := by
  simp only [Re.matchAt, Re.run]
  by_cases h : k.test db c = true <;> simp [h]

/-- Replacing single characters. -/
theorem cls_sub (db : CharDB) (k : Cls) (new text : Str) : (Re.cls k).sub db (new.map Tp.lit) text =
    text.flatMap fun c => if k.test db c then new else [c] := by
  have := Re.sub_induct (db := db) (r := .cls k) (tpl := new.map Tp.lit)
    (P := fun _ rest out => out = rest.flatMap fun c => if k.test db c then new else [c]) (fun _ => rfl) ?_ ?_ text
  · exact this
  · intro pre c cs out hm ih
    rw [cls_matchAt] at hm
    split at hm
    · cases hm
    · rename_i h
      rw [List.flatMap_cons, if_neg h, ih]
      rfl
  · intro pre w t out hm ht hw he ih
    obtain ⟨c, cs, h1, h2, h3⟩ := Re.run_cls ht
    have e : w = [c] := by
      have e2 : t.rest = cs := by rw [h3]
      simp only [e2] at h1
      exact List.append_cancel_right (bs := cs) h1
    subst e
    rw [List.flatMap_append, ih, expand_lits]
    simp [h2]

theorem many_cls_head (db : CharDB) (k : Cls) : ∀ (n : Nat) (pre rest : Str) (caps : List (Nat × Str)), rest.length ≤ n →
    (many ((Re.cls k).run db) true n ⟨pre, rest, caps⟩).head? =
      some ⟨(rest.takeWhile (k.test db)).reverse ++ pre, rest.dropWhile (k.test db), caps⟩
  | 0, pre, rest, caps, h => by
    obtain rfl : rest = [] := List.length_eq_zero_iff.mp (by omega)
    rfl
  | n + 1, pre, [], caps, h => by simp [many, Re.run]
  | n + 1, pre, c :: cs, caps, h => by
    rw [many]
    simp only [if_true]
    by_cases hc : k.test db c = true
    · have e : (Re.cls k).run db ⟨pre, c :: cs, caps⟩ = [⟨c :: pre, cs, caps⟩] := by simp [Re.run, hc]
      rw [e]
      have ih := many_cls_head db k n (c :: pre) cs caps (by simpa using h)
      simp only [List.length_cons, List.filter_cons, Nat.lt_succ_self, decide_true, if_true, List.filter_nil,
        List.flatMap_cons, List.flatMap_nil, List.append_nil]
      rw [List.head?_append, ih, List.takeWhile_cons_of_pos hc, List.dropWhile_cons_of_pos hc]
      simp
    · have e : (Re.cls k).run db ⟨pre, c :: cs, caps⟩ = [] := by simp [Re.run, hc]
      rw [e, List.takeWhile_cons_of_neg hc, List.dropWhile_cons_of_neg hc]
      simp

/-- A greedy run of a class. -/
theorem plus_matchAt (db : CharDB) (k : Cls) (pre : Str) (c : Char) (cs : Str) :
    (Re.rep 1 true (.cls k)).matchAt db pre (c :: cs) =
    if k.test db c then some ⟨(cs.takeWhile (k.test db)).reverse ++ c :: pre, cs.dropWhile (k.test db), []⟩ else none := by
  simp only [Re.matchAt]
  rw [Re.run]
  by_cases hc : k.test db c = true
  · have e : times ((Re.cls k).run db) 1 ⟨pre, c :: cs, []⟩ = [⟨c :: pre, cs, []⟩] := by simp [times, Re.run, hc]
    rw [e, List.flatMap_cons, List.flatMap_nil, List.append_nil, many_cls_head db k _ _ _ _ (Nat.le_refl _), if_pos hc]
    have hl : (cs.dropWhile (k.test db)).length ≤ cs.length := (List.dropWhile_suffix _).length_le
    simp only [List.length_cons]
    rw [if_pos (by omega)]
  · have e : times ((Re.cls k).run db) 1 ⟨pre, c :: cs, []⟩ = [] := by simp [times, Re.run, hc]
    rw [e, if_neg hc]
    rfl

theorem undash_run {w rest : Str} (hw : w ≠ []) (hd : ∀ c ∈ w, Spec.isDash c = true) (hr : rest.head?.any Spec.isDash = false) :
    Spec.undash (w ++ rest) = [' ', '-', ' '] ++ Spec.undash rest := by
  induction w with
  | nil => exact absurd rfl hw
  | cons c w ih =>
    rw [List.cons_append, Spec.undash, if_pos (hd c (by simp))]
    cases w with
    | nil => simp only [List.nil_append, hr, Bool.false_eq_true, if_false]
    | cons d w =>
      have : ((d :: w ++ rest).head?.any Spec.isDash) = true := by simp [hd d (by simp)]
      rw [if_pos this]
      exact ih (by simp) fun c hc => hd c (by simp [hc])

/-- Replacing runs of dashes. -/
theorem dashes_sub (db : CharDB) {k : Cls} (hk : ∀ c, k.test db c = Spec.isDash c) (text : Str) :
    (Re.rep 1 true (.cls k)).sub db (c!" - ".map Tp.lit) text = Spec.undash text := by
  have hk' : k.test db = Spec.isDash := funext hk
  have := Re.sub_induct (db := db) (r := .rep 1 true (.cls k)) (tpl := c!" - ".map Tp.lit)
    (P := fun _ rest out => out = Spec.undash rest) (fun _ => rfl) ?_ ?_ text
  · exact this
  · intro pre c cs out hm ih
    rw [plus_matchAt] at hm
    split at hm
    · cases hm
    · rename_i h
      rw [hk] at h
      rw [Spec.undash, if_neg h, ih]
  · intro pre w t out hm ht hw he ih
    obtain ⟨c, w', rfl⟩ := List.exists_cons_of_ne_nil hw
    rw [List.cons_append, plus_matchAt] at hm
    split at hm
    · rename_i hc
      simp only [Option.some.injEq] at hm
      have e1 : (w' ++ t.rest).dropWhile Spec.isDash = t.rest := by rw [← hk']; exact congrArg St.rest hm
      have e2 : (w' ++ t.rest).takeWhile Spec.isDash = w' := by
        have := List.takeWhile_append_dropWhile (p := Spec.isDash) (l := w' ++ t.rest)
        rw [e1] at this
        exact List.append_cancel_right this
      rw [undash_run (w := c :: w') (by simp), ih, expand_lits]
      · intro d hd
        rcases List.mem_cons.mp hd with rfl | hd
        · rw [← hk]; exact hc
        · rw [← e2] at hd
          exact List.all_eq_true.mp List.all_takeWhile d hd
      · cases hr : t.rest with
        | nil => rfl
        | cons d r =>
          rw [hr] at e1
          simp only [List.head?_cons, Option.any_some]
          rcases hd : Spec.isDash d with _ | _
          · rfl
          · exfalso
            have := List.head?_dropWhile_not Spec.isDash (w' ++ d :: r)
            rw [e1] at this
            simp [hd] at this
    · cases hm

/-! ### The rules of the tokenizer -/

theorem single_test (db : CharDB) (l : List Char) (c : Char) : (Cls.mk false false (l.map Item.ch)).test db c = decide (c ∈ l) := by
  have : (Cls.mk false false (l.map Item.ch)).test db c = (l.map Item.ch).any fun i => i.test db false c := by
    simp [Cls.test]
  rw [this, List.any_map, Bool.eq_iff_iff, List.any_eq_true, decide_eq_true_eq]
  simp [Item.test]

theorem tokSanitization_eq : tokSanitization = [
    (.cls ⟨false, false, ['‘', '’', '′'].map Item.ch⟩, c!"'".map Tp.lit),
    (.cls ⟨false, false, ['“', '”', '″'].map Item.ch⟩, c!"\"".map Tp.lit),
    (.rep 1 true (.cls ⟨false, false, ['–', '—'].map Item.ch⟩), c!" - ".map Tp.lit)] := rfl

theorem subAll_tidy (db : CharDB) (text : Str) : subAll db tokSanitization text = Spec.undash (text.map Spec.straight) := by
  rw [tokSanitization_eq, subAll_cons, subAll_cons, subAll_cons, cls_sub, cls_sub, dashes_sub]
  · have : ∀ c : Char, ((if (Cls.mk false false (['‘', '’', '′'].map Item.ch)).test db c = true then c!"'" else [c]).flatMap
        fun c => if (Cls.mk false false (['“', '”', '″'].map Item.ch)).test db c = true then c!"\"" else [c]) =
        [Spec.straight c] := by
      intro c
      simp only [single_test, decide_eq_true_eq, Spec.straight]
      split
      · simp
      · simp only [List.flatMap_cons, List.flatMap_nil, List.append_nil]
        split <;> rfl
    rw [List.flatMap_assoc]
    simp only [this]
    rw [show (text.flatMap fun x => [Spec.straight x]) = text.map Spec.straight from by
      rw [List.map_eq_flatMap]]
    rfl
  · intro c
    rw [single_test]
    simp only [Spec.isDash, List.mem_cons, List.not_mem_nil, or_false, Bool.beq_eq_decide_eq, Bool.decide_or]

theorem straight_space {c : Char} (h : isSpace c = true) : Spec.straight c = c := by
  unfold Spec.straight
  have : ∀ d ∈ ['‘', '’', '′'] ++ ['“', '”', '″'], isSpace d = false := by decide
  rw [if_neg, if_neg]
  · intro hc
    rw [this c (List.mem_append_right _ hc)] at h; cases h
  · intro hc
    rw [this c (List.mem_append_left _ hc)] at h; cases h

theorem space_not_dash {c : Char} (h : isSpace c = true) : Spec.isDash c = false := by
  rcases hb : Spec.isDash c with _ | _
  · rfl
  · simp only [Spec.isDash, Bool.or_eq_true, beq_iff_eq] at hb
    rcases hb with rfl | rfl <;> exact absurd h (by decide)

theorem undash_append {a b : Str} (h : b.head?.any Spec.isDash = false) :
    Spec.undash (a ++ b) = Spec.undash a ++ Spec.undash b := by
  induction a with
  | nil => rfl
  | cons c a ih =>
    have hh : (a ++ b).head?.any Spec.isDash = a.head?.any Spec.isDash := by
      cases a with
      | nil => simpa using h
      | cons d a => rfl
    rw [List.cons_append, Spec.undash, Spec.undash, hh, ih]
    split
    · split <;> simp
    · simp

theorem undash_spaces {w : Str} (h : ∀ c ∈ w, isSpace c = true) : Spec.undash w = w := by
  induction w with
  | nil => rfl
  | cons c w ih =>
    rw [Spec.undash, space_not_dash (h c (by simp)), ih fun c hc => h c (by simp [hc])]
    rfl

/-- The sanitized text. -/
theorem sanitize_tidy (db : CharDB) (text : Str) : sanitize db tokSanitization text = Spec.tidy text := by
  unfold sanitize Spec.tidy
  rw [subAll_tidy]
  congr 1
  obtain ⟨a, b, ha, hb, e⟩ : ∃ a b, (∀ c ∈ a, isSpace c = true) ∧ (∀ c ∈ b, isSpace c = true) ∧
      text = a ++ (Py.strip text ++ b) := by
    refine ⟨text.takeWhile isSpace, ((text.dropWhile isSpace).reverse.takeWhile isSpace).reverse,
      fun c hc => takeWhile_isSpace hc, fun c hc => takeWhile_isSpace (List.mem_reverse.mp hc), ?_⟩
    unfold Py.strip
    rw [← List.reverse_append, List.takeWhile_append_dropWhile, List.reverse_reverse, List.takeWhile_append_dropWhile]
  have hmap : ∀ {w : Str}, (∀ c ∈ w, isSpace c = true) → w.map Spec.straight = w := by
    intro w hw
    conv_rhs => rw [← List.map_id w]
    exact List.map_congr_left fun c hc => straight_space (hw c hc)
  have hb' : ∀ b : Str, (∀ c ∈ b, isSpace c = true) → b.head?.any Spec.isDash = false := by
    intro b hb
    cases b with
    | nil => rfl
    | cons c b => simpa using space_not_dash (hb c (by simp))
  have key : ∀ (a t : Str), (∀ c ∈ a, isSpace c = true) → Spec.undash (a ++ t) = a ++ Spec.undash t := by
    intro a t ha
    induction a with
    | nil => rfl
    | cons c a ih =>
      rw [List.cons_append, Spec.undash, space_not_dash (ha c (by simp)), ih fun c hc => ha c (by simp [hc])]
      rfl
  conv_rhs => rw [e, List.map_append, List.map_append, hmap ha, hmap hb, key a _ ha, undash_append (hb' b hb),
    undash_spaces hb, splitWs_spaces_append _ ha, splitWs_append_spaces _ hb]

/-! ### Neighbouring characters of the sanitized text -/

theorem infix_sep {w a b : Str} {c : Char} (hc : c ∉ w) (h : w <:+: a ++ c :: b) : w <:+: a ∨ w <:+: b := by
  obtain ⟨x, y, e⟩ := h
  rw [List.append_assoc] at e
  rcases List.append_eq_append_iff.mp e with ⟨a', h1, h2⟩ | ⟨c', h1, h2⟩
  · -- `x` ends inside `a`
    rcases List.append_eq_append_iff.mp h2 with ⟨b', h3, h4⟩ | ⟨d', h3, h4⟩
    · exact .inl ⟨x, b', by rw [h1, h3]; simp⟩
    · cases d' with
      | nil => exact .inl ⟨x, [], by rw [h1, h3]; simp⟩
      | cons d d' =>
        simp only [List.cons_append, List.cons.injEq] at h4
        exact absurd (by rw [h3, h4.1]; simp) hc
  · cases c' with
    | nil =>
      simp only [List.nil_append] at h2
      cases w with
      | nil => exact .inl List.nil_infix
      | cons d w =>
        simp only [List.cons_append, List.cons.injEq] at h2
        exact absurd (by rw [h2.1]; simp) hc
    | cons d c' =>
      simp only [List.cons_append, List.cons.injEq] at h2
      exact .inr ⟨c', y, by rw [h2.2]; simp⟩

theorem infix_join {w : Str} (hw : ' ' ∉ w) (hne : w ≠ []) : ∀ (ws : List Str), w <:+: join [' '] ws → ∃ v ∈ ws, w <:+: v
  | [], h => by
    exact absurd (List.infix_nil.mp h) hne
  | [v], h => ⟨v, by simp, by simpa [join] using h⟩
  | v :: u :: ws, h => by
    rw [join_cons (by simp)] at h
    rcases infix_sep hw (show w <:+: v ++ ' ' :: join [' '] (u :: ws) by simpa using h) with h | h
    · exact ⟨v, by simp, h⟩
    · obtain ⟨x, hx, h⟩ := infix_join hw hne (u :: ws) h
      exact ⟨x, List.mem_cons_of_mem _ hx, h⟩

theorem splitWsAux_infix : ∀ (t cur : Str), ∀ w ∈ splitWsAux t cur, w <:+: cur.reverse ++ t
  | [], cur, w, h => by
    rw [splitWsAux] at h
    split at h
    · cases h
    · rw [List.mem_singleton] at h
      rw [h]
      simp
  | c :: cs, cur, w, h => by
    rw [splitWsAux] at h
    split at h
    · have key : w ∈ splitWsAux cs [] → w <:+: cur.reverse ++ c :: cs := fun h => by
        have := splitWsAux_infix cs [] w h
        simp only [List.reverse_nil, List.nil_append] at this
        exact this.trans ⟨cur.reverse ++ [c], [], by simp⟩
      split at h
      · exact key h
      · rcases List.mem_cons.mp h with rfl | h
        · exact (List.prefix_append _ _).isInfix
        · exact key h
    · have := splitWsAux_infix cs (c :: cur) w h
      simpa using this

theorem splitWs_infix {t w : Str} (h : w ∈ splitWs t) : w <:+: t := by
  simpa using splitWsAux_infix t [] w h

theorem infix_undash {w : Str} (h1 : ' ' ∉ w) (h2 : '-' ∉ w) (hne : w ≠ []) : ∀ t : Str, w <:+: Spec.undash t → w <:+: t
  | [], h => h
  | c :: cs, h => by
    rw [Spec.undash] at h
    split at h
    · have ih := infix_undash h1 h2 hne cs
      have up : w <:+: cs → w <:+: c :: cs := fun h => h.trans (List.suffix_cons c cs).isInfix
      split at h
      · exact up (ih h)
      · rcases infix_sep (a := []) (b := '-' :: ' ' :: Spec.undash cs) h1 (by simpa using h) with h | h
        · exact absurd (List.infix_nil.mp h) hne
        · rcases infix_sep (a := ['-']) (b := Spec.undash cs) h1 (by simpa using h) with h | h
          · exfalso
            obtain ⟨d, w', rfl⟩ := List.exists_cons_of_ne_nil hne
            have := h.subset (show d ∈ d :: w' by simp)
            rw [List.mem_singleton] at this
            exact h2 (by simp [this])
          · exact up (ih h)
    · rename_i hc
      -- a match that starts at the character, or later
      obtain ⟨x, y, e⟩ := h
      cases x with
      | cons d x =>
        simp only [List.cons_append, List.cons.injEq] at e
        exact (infix_undash h1 h2 hne cs ⟨x, y, e.2⟩).trans (List.suffix_cons c cs).isInfix
      | nil =>
        simp only [List.nil_append] at e
        -- the match is a prefix
        have pre : ∀ (w t : Str), ' ' ∉ w → w <+: Spec.undash t → w <+: t := by
          clear * -
          intro w t
          induction t generalizing w with
          | nil => exact fun _ h => h
          | cons c cs ih =>
            intro hw h
            cases w with
            | nil => exact List.nil_prefix
            | cons d w =>
              have hrun : ∀ cs : Str, cs.head?.any Spec.isDash = true → (Spec.undash cs).head? = some ' ' := by
                clear * -
                intro cs
                induction cs with
                | nil => intro h; cases h
                | cons e cs ih =>
                  intro h
                  simp only [List.head?_cons, Option.any_some] at h
                  rw [Spec.undash, if_pos h]
                  split
                  · rename_i h'
                    exact ih h'
                  · rfl
              rw [Spec.undash] at h
              split at h
              · exfalso
                split at h
                · rename_i h'
                  have := hrun cs h'
                  obtain ⟨y, e⟩ := h
                  rw [← e] at this
                  simp only [List.cons_append, List.head?_cons, Option.some.injEq] at this
                  exact hw (by simp [this])
                · obtain ⟨y, e⟩ := h
                  simp only [List.cons_append, List.cons.injEq] at e
                  exact hw (by simp [e.1])
              · rw [List.cons_prefix_cons] at h ⊢
                exact ⟨h.1, ih w (fun hh => hw (by simp [hh])) h.2⟩
        have := pre w (c :: cs) h1 ⟨y, by rw [e, Spec.undash, if_neg hc]⟩
        exact this.isInfix

/-- Neighbouring characters of the sanitized text were neighbours in the text. -/
theorem infix_tidy {w text : Str} (h1 : ' ' ∉ w) (h2 : '-' ∉ w) (hne : w ≠ []) (h : w <:+: Spec.tidy text) :
    ∃ w', w' <:+: text ∧ w'.map Spec.straight = w := by
  obtain ⟨v, hv, h⟩ := infix_join h1 hne _ h
  have h := infix_undash h1 h2 hne _ (h.trans (splitWs_infix hv))
  obtain ⟨x, y, e⟩ := h
  rw [List.append_assoc] at e
  have h3 := (List.map_eq_append_iff.mp e.symm)
  obtain ⟨l1, l2, rfl, h4, h5⟩ := h3
  obtain ⟨l3, l4, rfl, h6, h7⟩ := List.map_eq_append_iff.mp h5
  exact ⟨l3, ⟨l1, l4, by simp⟩, h6⟩

end Model
