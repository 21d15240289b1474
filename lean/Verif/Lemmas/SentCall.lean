import Verif.Lemmas.Blocks

/-! # The sentencizer as a whole -/

namespace Model
open Py

/-! ### Numbers of markers -/

theorem parseDigits_digits (db : CharDB) : ∀ (t : Str) (ok : Bool) (acc : Nat), (∀ c ∈ t, c.isDigit = true) →
    (t = [] → ok = true) → parseDigits db ok acc t = some (Nat.ofDigitChars 10 t acc)
  | [], ok, acc, _, h => by
    rw [parseDigits, h rfl]
    rfl
  | c :: t, ok, acc, h, _ => by
    have hc := h c (by simp)
    have hlt : c.toNat < 128 := by
      simp only [Char.isDigit, Bool.and_eq_true, decide_eq_true_eq] at hc
      have : c.toNat ≤ 57 := hc.2
      omega
    rw [parseDigits.eq_def]
    simp only
    rw [if_pos (by rw [db.digit_ascii c hlt]; exact hc), db.digitVal_ascii c hc,
      parseDigits_digits db t true _ (fun d hd => h d (by simp [hd])) (fun _ => rfl)]
    rfl

theorem intOf_natRepr (db : CharDB) (n : Nat) : intOf db (natRepr n) = .ok (n : Int) := by
  have hd := natRepr_isDigit n
  have hs : strip (natRepr n) = natRepr n := by
    have := strip_eq (t := natRepr n) (w := []) (natRepr_ne_nil n)
      (fun c h => (isDigit_ne (hd c (List.mem_of_mem_head? h))).2.2.2.2.2.2)
      (fun c h => (isDigit_ne (hd c (List.mem_of_getLast? h))).2.2.2.2.2.2) (by simp)
    simpa using this
  have hp := parseDigits_digits db (natRepr n) false 0 hd fun h => absurd h (natRepr_ne_nil n)
  rw [ofDigitChars_natRepr] at hp
  obtain ⟨c, t, hc⟩ := List.exists_cons_of_ne_nil (natRepr_ne_nil n)
  have h1 : c ≠ '-' := (isDigit_ne (hd c (by rw [hc]; simp))).2.2.2.2.1
  have h2 : c ≠ '+' := (isDigit_ne (hd c (by rw [hc]; simp))).2.2.2.2.2.1
  unfold intOf
  simp only [hs]
  rw [hc] at hp ⊢
  split
  · rename_i r hr
    split at hr
    · rename_i h; injection h with h; exact absurd h h1
    · rename_i h; injection h with h; exact absurd h h2
    · rw [hp] at hr
      have hr : some (n : Int) = some r := hr
      rw [Option.some.inj hr]
  · rename_i hr
    split at hr
    · rename_i h; injection h with h; exact absurd h h1
    · rename_i h; injection h with h; exact absurd h h2
    · rw [hp] at hr
      cases hr

theorem block_index {α : Type} {l : List α} {n : Nat} (h : n < l.length) : index l (n : Int) = .ok l[n] := by
  have h0 : ¬ ((n : Int) < 0) := by omega
  simp only [index, h0, if_false, Int.toNat_natCast, List.getElem?_eq_getElem h]

/-- The text that a marker stands for. -/
def lookupMark (db : CharDB) (l : List Str) (w : Str) : Str :=
  match intOf db (slice w 1 (-1)) with
  | .ok i => (match index l i with
    | .ok q => q
    | .error _ => [])
  | .error _ => []

theorem lookupMark_mk (db : CharDB) {l : List Str} {n : Nat} (h : n < l.length) (st en : Char) :
    lookupMark db l (mk st en n) = l[n] := by
  unfold lookupMark mk
  simp only [slice_inner, intOf_natRepr, block_index h]

/-! ### Rewriting at the ends of quotes -/

/-- A pilcrow after a dot and a quote, at some places. -/
inductive Pil : Str → Str → Prop
  | nil : Pil [] []
  | keep (c : Char) {a b : Str} : Pil a b → Pil (c :: a) (c :: b)
  | add {a b : Str} : Pil a b → Pil ('.' :: '"' :: a) ('.' :: '"' :: '¶' :: b)

theorem sent_pil (db : CharDB) (t : Str) : Pil t (subAll db sentSanitization t) := by
  have hr : (re% r#"\.""#) = lits c!".\"" := rfl
  refine Re.sub_induct (P := fun _ rest out => Pil rest out) (fun _ => .nil) ?_ ?_ t
  · intro pre c cs out _ h
    exact .keep c h
  · intro pre w u out _ hu hw he h
    have hlit : w = c!".\"" := by
      rw [hr, lits_run] at hu
      split at hu
      · rename_i hp
        rw [List.mem_singleton] at hu
        obtain ⟨rest, hrest⟩ := List.isPrefixOf_iff_prefix.mp hp
        have h1 : u.rest = (w ++ u.rest).drop 2 := congrArg St.rest hu
        have h2 : w.length = 2 := by
          have := congrArg List.length h1
          have h3 : 2 ≤ (w ++ u.rest).length := by
            have := congrArg List.length hrest
            simp at this ⊢
            omega
          simp at this h3
          omega
        have h3 : c!".\"" <+: w ++ u.rest := ⟨rest, hrest⟩
        have h4 := List.prefix_of_prefix_length_le h3 (List.prefix_append w u.rest) (by simp [h2])
        exact (h4.eq_of_length (by simp [h2])).symm
      · cases hu
    subst hlit
    exact .add h

theorem Pil.infix {a b : Str} (h : Pil a b) {w : Str} (hw : '¶' ∉ w) (hi : w <:+: b) : w <:+: a := by
  have hpre : ∀ {a b : Str}, Pil a b → ∀ w : Str, '¶' ∉ w → w <+: b → w <+: a := by
    intro a b h
    induction h with
    | nil => intro w _ h; exact h
    | keep c _ ih =>
      intro w hw h
      cases w with
      | nil => exact List.nil_prefix
      | cons d w =>
        obtain ⟨e, h1⟩ := List.cons_prefix_cons.mp h
        exact List.cons_prefix_cons.mpr ⟨e, ih w (fun h => hw (by simp [h])) h1⟩
    | add _ ih =>
      intro w hw h
      match w, hw, h with
      | [], _, _ => exact List.nil_prefix
      | [d], _, h =>
        obtain ⟨e, -⟩ := List.cons_prefix_cons.mp h
        exact List.cons_prefix_cons.mpr ⟨e, List.nil_prefix⟩
      | [d, d'], _, h =>
        obtain ⟨e, h1⟩ := List.cons_prefix_cons.mp h
        obtain ⟨e', -⟩ := List.cons_prefix_cons.mp h1
        exact List.cons_prefix_cons.mpr ⟨e, List.cons_prefix_cons.mpr ⟨e', List.nil_prefix⟩⟩
      | d :: d' :: d'' :: w, hw, h =>
        obtain ⟨-, h1⟩ := List.cons_prefix_cons.mp h
        obtain ⟨-, h2⟩ := List.cons_prefix_cons.mp h1
        obtain ⟨e, -⟩ := List.cons_prefix_cons.mp h2
        exact absurd (by simp [e]) hw
  induction h with
  | nil => exact hi
  | keep c h ih =>
    rcases List.infix_cons_iff.mp hi with h' | h'
    · exact (hpre (.keep c h) w hw h').isInfix
    · exact (ih h').trans (List.suffix_cons _ _).isInfix
  | add h ih =>
    rename_i a b
    rcases List.infix_cons_iff.mp hi with h' | h'
    · exact (hpre (.add h) w hw h').isInfix
    · rcases List.infix_cons_iff.mp h' with h' | h'
      · have h' : w <+: '"' :: a := by
          cases w with
          | nil => exact List.nil_prefix
          | cons d w =>
            obtain ⟨e1, h1⟩ := List.cons_prefix_cons.mp h'
            cases w with
            | nil => exact List.cons_prefix_cons.mpr ⟨e1, List.nil_prefix⟩
            | cons e w =>
              obtain ⟨e2, -⟩ := List.cons_prefix_cons.mp h1
              exact absurd (by simp [e2]) hw
        exact h'.isInfix.trans (List.suffix_cons _ _).isInfix
      · rcases List.infix_cons_iff.mp h' with h' | h'
        · cases w with
          | nil => exact List.nil_infix
          | cons d w =>
            obtain ⟨rfl, -⟩ := List.cons_prefix_cons.mp h'
            exact absurd (by simp) hw
        · exact (ih h').trans ((List.suffix_cons _ _).trans (List.suffix_cons _ _)).isInfix

theorem Pil.mem {a b : Str} (h : Pil a b) {c : Char} (hc : c ∈ b) : c ∈ a ∨ c = '¶' := by
  induction h with
  | nil => cases hc
  | keep d _ ih =>
    rcases List.mem_cons.mp hc with rfl | hc
    · simp
    · exact (ih hc).imp (List.mem_cons_of_mem _) id
  | add _ ih =>
    simp only [List.mem_cons] at hc ⊢
    rcases hc with rfl | rfl | rfl | hc
    · simp
    · simp
    · simp
    · rcases ih hc with h | h <;> simp [h]

theorem Pil.none {a b : Str} (h : Pil a b) (hn : ¬ c!".\"" <:+: a) : b = a := by
  induction h with
  | nil => rfl
  | keep c _ ih => rw [ih fun h => hn (h.trans (List.suffix_cons _ _).isInfix)]
  | add _ _ => exact absurd ⟨[], _, rfl⟩ hn

theorem Pil.ins {a b : Str} (h : Pil a b) : Ins a b := by
  induction h with
  | nil => exact .nil
  | keep c _ ih => exact .keep c ih
  | add _ ih => exact .keep _ (.keep _ (.add ih))

/-- Everything but the pilcrows. -/
def unpil (t : Str) : Str := t.filter fun c => c ≠ '¶'

theorem unpil_append (a b : Str) : unpil (a ++ b) = unpil a ++ unpil b := by simp [unpil]

theorem Pil.ink {a b : Str} (h : Pil a b) (pre : Str) : unpil (inkP (pre ++ b)) = unpil (inkP (pre ++ a)) := by
  have hdot : Sep '.' := ⟨by decide, by decide, by decide⟩
  have hquo : Sep '"' := ⟨by decide, by decide, by decide⟩
  have hpil : Sep '¶' := ⟨by decide, by decide, by decide⟩
  induction h generalizing pre with
  | nil => rfl
  | keep c _ ih =>
    have := ih (pre ++ [c])
    simpa using this
  | @add a b _ ih =>
    have e1 := inkP_cut pre ('"' :: '¶' :: b) hdot
    have e2 := inkP_cut [] ('¶' :: b) hquo
    have e3 := inkP_cut [] b hpil
    have e4 := inkP_cut pre ('"' :: a) hdot
    have e5 := inkP_cut [] a hquo
    have e6 := ih []
    simp only [List.nil_append] at e2 e3 e5 e6
    have e0 : inkP [] = [] := rfl
    rw [e1, e2, e3, e4, e5, e0]
    have : ∀ x : Str, unpil ('¶' :: x) = unpil x := by intro x; simp [unpil]
    have h1 : ∀ x : Str, unpil ('.' :: x) = '.' :: unpil x := by intro x; simp [unpil]
    have h2 : ∀ x : Str, unpil ('"' :: x) = '"' :: unpil x := by intro x; simp [unpil]
    simp only [List.nil_append, unpil_append, h1, h2, this, e6]

theorem inkP_congr {a b : Str} (h : splitWs a = splitWs b) : inkP a = inkP b := by rw [inkP_words, inkP_words, h]

/-- The blocks before quotes are cut out. -/
theorem sent_block (db : CharDB) (t : Str) : '\n' ∉ sanitize db sentSanitization t ∧ Refl (sanitize db sentSanitization t) t ∧
    (∀ c ∈ sanitize db sentSanitization t, c ∈ t ∨ c = '¶' ∨ c = ' ') ∧
    unpil (inkP (sanitize db sentSanitization t)) = unpil (inkP t) ∧
    (¬ c!".\"" <:+: t → inkP (sanitize db sentSanitization t) = inkP t) := by
  have hp := sent_pil db (Py.strip t)
  generalize hx : subAll db sentSanitization (Py.strip t) = x at hp
  have e : sanitize db sentSanitization t = join [' '] (splitWs x) := by rw [← hx]; rfl
  have hws : splitWs (sanitize db sentSanitization t) = splitWs x := by
    rw [e]
    exact splitWs_join _ (splitWs_noBlank x)
  have hmem : ∀ c ∈ sanitize db sentSanitization t, c = ' ' ∨ (isSpace c = false ∧ c ∈ x) := by
    intro c hc
    rw [e] at hc
    have key : ∀ ws : List Str, c ∈ join [' '] ws → c = ' ' ∨ ∃ w ∈ ws, c ∈ w := by
      intro ws
      induction ws with
      | nil => intro h; cases h
      | cons w ws ih =>
        intro h
        cases ws with
        | nil => exact .inr ⟨w, by simp, by simpa [join] using h⟩
        | cons v ws =>
          have e : join [' '] (w :: v :: ws) = w ++ ([' '] ++ join [' '] (v :: ws)) := by simp [join]
          rw [e, List.mem_append, List.mem_append] at h
          rcases h with h | h | h
          · exact .inr ⟨w, by simp, h⟩
          · exact .inl (by simpa using h)
          · rcases ih h with h | ⟨u, hu, h⟩
            · exact .inl h
            · exact .inr ⟨u, by simp at hu ⊢; tauto, h⟩
    rcases key _ hc with h | ⟨w, hw, h⟩
    · exact .inl h
    · exact .inr ⟨(splitWs_noBlank x w hw).2 c h, splitWs_mem hw h⟩
  have hstrip : inkP (Py.strip t) = inkP t := inkP_congr (splitWs_strip t)
  refine ⟨?_, ?_, ?_, ?_, ?_⟩
  · intro h
    rcases hmem _ h with h | ⟨h, -⟩
    · exact absurd h (by decide)
    · exact absurd h (by decide)
  · refine Refl.of_words fun v hv w hw hi => ?_
    rw [hws] at hv
    have h1 := hp.infix (fun h => (hw.chars _ h).2.2 rfl) (hi.trans (splitWs_infix hv))
    obtain ⟨u, hu, h2⟩ := infix_word (fun c hc => (hw.chars c hc).1) hw.ne _ _ (Nat.le_refl _) h1
    rw [splitWs_strip] at hu
    exact h2.trans (splitWs_infix hu)
  · intro c hc
    rcases hmem c hc with h | ⟨-, h⟩
    · exact .inr (.inr h)
    · rcases hp.mem h with h | h
      · exact .inl (strip_mem h)
      · exact .inr (.inl h)
  · rw [inkP_congr hws, ← hstrip]
    simpa using hp.ink []
  · intro hn
    rw [inkP_congr hws, ← hstrip, hp.none]
    intro h
    obtain ⟨u, hu, h2⟩ := infix_word (by decide) (by decide) _ _ (Nat.le_refl _) h
    rw [splitWs_strip] at hu
    exact hn (h2.trans (splitWs_infix hu))

theorem sent_block_part (db : CharDB) (t : Str) : Part (sanitize db sentSanitization t) t := by
  have hp := (sent_pil db (Py.strip t)).ins.part
  refine Part.of_words fun v hv => ?_
  have hws : splitWs (sanitize db sentSanitization t) = splitWs (subAll db sentSanitization (Py.strip t)) :=
    splitWs_join _ (splitWs_noBlank _)
  rw [hws] at hv
  exact (Part.word hv).trans (hp.trans (Part.strip t))

theorem splitSentencesAux_flatten (db : CharDB) : ∀ (ts cur : List Str), (∀ t ∈ cur, t ≠ c!"¶") →
    (splitSentencesAux db ts cur).flatten = cur ++ ts.filter fun t => t ≠ c!"¶"
  | [], cur, h => by
    simp only [splitSentencesAux]
    cases cur <;> simp
  | t :: ts, cur, h => by
    simp only [splitSentencesAux]
    by_cases he : isEnder db t = true
    · rw [if_pos he, List.flatten_cons, splitSentencesAux_flatten db ts [] (by simp)]
      by_cases ht : t = c!"¶" <;> simp [ht]
    · have ht : t ≠ c!"¶" := by
        rintro rfl
        exact he ((isEnder_iff db _).mpr (.inr rfl))
      rw [if_neg he, splitSentencesAux_flatten db ts (cur ++ [t]) (by
        intro x hx
        rcases List.mem_append.mp hx with hx | hx
        · exact h x hx
        · rw [List.mem_singleton] at hx; exact hx ▸ ht)]
      simp [ht]

theorem splitSentences_flatten (db : CharDB) (ts : List Str) :
    (splitSentences db ts).flatten = ts.filter fun t => t ≠ c!"¶" := splitSentencesAux_flatten db ts [] (by simp)

/-! ### Splitting at line breaks -/

theorem cutFrom_matches {db : CharDB} {r : Re} : ∀ (n : Nat) (pre rest cur : Str), ∀ p ∈ (r.cutFrom db n pre rest cur).1,
    ∃ s t : St, t ∈ r.run db s ∧ p.2 ≠ [] ∧ Eats s t p.2
  | 0, _, _, _, p, hp => by cases hp
  | n + 1, pre, rest, cur, p, hp => by
    rcases hm : r.matchAt db pre rest with _ | t
    · cases rest with
      | nil =>
        have e : r.cutFrom db (n + 1) pre [] cur = ([], cur.reverse) := by
          rw [Re.cutFrom.eq_def]
          simp only [hm]
        rw [e] at hp
        cases hp
      | cons c cs =>
        have e : r.cutFrom db (n + 1) pre (c :: cs) cur = r.cutFrom db n (c :: pre) cs (c :: cur) := by
          rw [Re.cutFrom.eq_def]
          simp only [hm]
        rw [e] at hp
        exact cutFrom_matches n _ _ _ p hp
    · obtain ⟨ht, w, hw, he⟩ := Re.matchAt_some hm
      have e2 : rest.take (rest.length - t.rest.length) = w := he.word
      have e : r.cutFrom db (n + 1) pre rest cur =
          ((cur.reverse, w) :: (r.cutFrom db n t.pre t.rest []).1, (r.cutFrom db n t.pre t.rest []).2) := by
        rw [Re.cutFrom.eq_def]
        simp only [hm, e2]
      rw [e] at hp
      rcases List.mem_cons.mp hp with rfl | hp
      · exact ⟨_, t, ht, hw, he⟩
      · exact cutFrom_matches n _ _ _ p hp

theorem rep_cls_chars {db : CharDB} {k : Cls} {g : Bool} {n : Nat} (hn : n ≤ 1) {s t : St} {w : Str}
    (h : t ∈ (Re.rep n g (.cls k)).run db s) (he : Eats s t w) : ∀ c ∈ w, k.test db c = true := by
  rw [Re.run, List.mem_flatMap] at h
  obtain ⟨u, hu, h⟩ := h
  obtain ⟨x, h1, h2, h3⟩ := mem_many_cls _ _ _ h
  obtain ⟨y, h4, h5⟩ : ∃ y, s.rest = y ++ u.rest ∧ ∀ c ∈ y, k.test db c = true := by
    match n, hn with
    | 0, _ =>
      simp only [times, List.mem_singleton] at hu
      subst hu
      exact ⟨[], rfl, by simp⟩
    | 1, _ =>
      simp only [times, List.mem_flatMap, List.mem_singleton] at hu
      obtain ⟨v', hv', rfl⟩ := hu
      obtain ⟨c, cs, h6, h7, rfl⟩ := Re.run_cls hv'
      exact ⟨[c], h6, by simpa using h7⟩
  have : w = y ++ x := by
    have e := he.rest
    rw [h4, h1, ← List.append_assoc] at e
    exact (List.append_cancel_right e).symm
  subst this
  intro c hc
  rcases List.mem_append.mp hc with hc | hc
  · exact h5 c hc
  · exact h3 c hc

theorem newline_space {db : CharDB} {s t : St} {w : Str} (h : t ∈ reNewline.run db s) (he : Eats s t w) :
    ∀ c ∈ w, isSpace c = true := by
  have hr : reNewline = .seq (.rep 0 true (.cls ⟨false, false, [.space]⟩))
    (.seq (.rep 1 true (.cls ⟨false, false, [.ch '\t', .ch '\n', .ch '\r']⟩)) (.rep 0 true (.cls ⟨false, false, [.space]⟩))) := rfl
  rw [hr] at h
  obtain ⟨s1, w1, w2, h1, h2, e1, e2⟩ := Re.run_seq h
  obtain ⟨s2, w3, w4, h3, h4, e3, e4⟩ := Re.run_seq h2
  have ht : ∀ d, (Cls.mk false false [.space]).test db d = isSpace d := by
    intro d
    simp [Cls.test, Item.test]
  have hw : w = w1 ++ (w3 ++ w4) := he.uniq (e1.trans (e3.trans e4))
  subst hw
  intro c hc
  simp only [List.mem_append] at hc
  rcases hc with hc | hc | hc
  · rw [← ht]; exact rep_cls_chars (by omega) h1 e1 c hc
  · have := rep_cls_chars (by omega) h3 e3 c hc
    rw [show [Item.ch '\t', Item.ch '\n', Item.ch '\r'] = ['\t', '\n', '\r'].map Item.ch from rfl, test_lits] at this
    have key : ∀ c ∈ ['\t', '\n', '\r'], isSpace c = true := by decide
    exact key c this
  · rw [← ht]; exact rep_cls_chars (by omega) h4 e4 c hc

theorem newline_split (db : CharDB) (text : Str) : (∀ b ∈ reNewline.split db text, b <:+: text) ∧
    (reNewline.split db text).flatMap inkP = inkP text := by
  have h1 := cutFrom_text (db := db) (r := reNewline) text.length [] text []
  have h2 := cutFrom_matches (db := db) (r := reNewline) text.length [] text []
  have e : reNewline.split db text = (reNewline.cutFrom db text.length [] text []).1.map Prod.fst ++
      [(reNewline.cutFrom db text.length [] text []).2] := rfl
  rw [e]
  generalize (reNewline.cutFrom db text.length [] text []).1 = ms at h1 h2
  generalize (reNewline.cutFrom db text.length [] text []).2 = last at h1
  replace h2 : ∀ p ∈ ms, p.2 ≠ [] ∧ ∀ c ∈ p.2, isSpace c = true := by
    intro p hp
    obtain ⟨s, t, a, b, c⟩ := h2 p hp
    exact ⟨b, newline_space a c⟩
  simp only [List.reverse_nil, List.nil_append] at h1
  subst h1
  clear e
  induction ms with
  | nil => exact ⟨by simp [piecesText], by simp [piecesText]⟩
  | cons p ms ih =>
    obtain ⟨b, m⟩ := p
    obtain ⟨i1, i2⟩ := ih fun p hp => h2 p (by simp [hp])
    obtain ⟨hm, hs⟩ := h2 (b, m) (by simp)
    simp only at hm hs
    constructor
    · intro x hx
      simp only [List.map_cons, List.cons_append, List.mem_cons] at hx
      rcases hx with rfl | hx
      · exact ⟨[], m ++ piecesText ms last, by simp [piecesText]⟩
      · exact (i1 x hx).trans ⟨b ++ m, [], by simp [piecesText]⟩
    · rw [List.map_cons, List.cons_append, List.flatMap_cons, i2]
      have hlead : ∀ (m : Str) (r : Str), (∀ c ∈ m, isSpace c = true) → splitWs (m ++ r) = splitWs r := by
        intro m
        induction m with
        | nil => intro r _; rfl
        | cons c m ih =>
          intro r h
          have := splitWs_sep (h c (by simp)) [] (m ++ r)
          rw [List.cons_append, show c :: (m ++ r) = [] ++ c :: (m ++ r) from rfl, this, ih r fun d hd => h d (by simp [hd])]
          rfl
      obtain ⟨d, m', rfl⟩ := List.exists_cons_of_ne_nil hm
      have : splitWs (piecesText ((b, d :: m') :: ms) last) = splitWs b ++ splitWs (piecesText ms last) := by
        have e : piecesText ((b, d :: m') :: ms) last = b ++ d :: (m' ++ piecesText ms last) := by simp [piecesText]
        rw [e, splitWs_sep (hs d (by simp)), hlead m' _ fun c hc => hs c (by simp [hc])]
      rw [inkP_words (piecesText ((b, d :: m') :: ms) last), this, List.flatMap_append, ← inkP_words, ← inkP_words]

theorem newline_part (db : CharDB) (text : Str) : ∀ b ∈ reNewline.split db text, Part b text := by
  have h1 := cutFrom_text (db := db) (r := reNewline) text.length [] text []
  have h2 := cutFrom_matches (db := db) (r := reNewline) text.length [] text []
  have e : reNewline.split db text = (reNewline.cutFrom db text.length [] text []).1.map Prod.fst ++
      [(reNewline.cutFrom db text.length [] text []).2] := rfl
  rw [e]
  generalize (reNewline.cutFrom db text.length [] text []).1 = ms at h1 h2
  generalize (reNewline.cutFrom db text.length [] text []).2 = last at h1
  replace h2 : ∀ p ∈ ms, p.2 ≠ [] ∧ ∀ c ∈ p.2, isSpace c = true := by
    intro p hp
    obtain ⟨s, t, a, b, c⟩ := h2 p hp
    exact ⟨b, newline_space a c⟩
  simp only [List.reverse_nil, List.nil_append] at h1
  subst h1
  clear e
  induction ms with
  | nil => simpa [piecesText] using Part.self
  | cons p ms ih =>
    obtain ⟨b, m⟩ := p
    have ih := ih fun p hp => h2 p (by simp [hp])
    obtain ⟨hm, hs⟩ := h2 (b, m) (by simp)
    simp only at hm hs
    intro x hx
    simp only [List.map_cons, List.cons_append, List.mem_cons] at hx
    rcases hx with rfl | hx
    · obtain ⟨d, m', rfl⟩ := List.exists_cons_of_ne_nil hm
      have := Part.cut (b := x) (x := []) (y := d :: m' ++ piecesText ms last) rfl
        (by simpa using edge_space (hs d (by simp)))
      simpa [piecesText] using this
    · refine (ih x hx).trans ?_
      rcases List.eq_nil_or_concat m with rfl | ⟨m', d, rfl⟩
      · exact absurd rfl hm
      · rw [List.concat_eq_append] at hs ⊢
        have := Part.cut (b := piecesText ms last) (x := b ++ m' ++ [d]) (y := [])
          (by rw [List.getLast?_append]; exact edge_space (hs d (by simp))) rfl
        simpa [piecesText] using this

end Model
