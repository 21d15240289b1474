import Verif.Lemmas.Words

/-! # Parts of a text that are cut out between words -/

namespace Model
open Py

/-- A slash after a dot without white space between them. -/
def Path (t : Str) : Prop := ∃ u : Str, (∀ c ∈ u, isSpace c = false) ∧ '.' :: (u ++ ['/']) <:+: t

/-- Abbreviations of "and" by an apostrophe. -/
def Abbr (w : Str) : Prop := (w.map fun c => (Spec.straight c).toLower) ∈ [c!"'n'", c!"'n", c!"n'"]

/-- Paths and abbreviations of the first text are in the second. -/
structure Part (b text : Str) : Prop where
  path : Path b → Path text
  alone : ∀ w, Abbr w → Spec.Alone w b → Spec.Alone w text

theorem Part.self {a : Str} : Part a a := ⟨id, fun _ _ h => h⟩

theorem Part.trans {a b c : Str} (h : Part a b) (h' : Part b c) : Part a c :=
  ⟨fun p => h'.path (h.path p), fun w hw ha => h'.alone w hw (h.alone w hw ha)⟩

theorem all_getLast {p : Char → Bool} {a b : Str} (ha : a.getLast?.all p) (hb : b.getLast?.all p) : (a ++ b).getLast?.all p := by
  rw [List.getLast?_append]
  cases h : b.getLast? with
  | none => simpa using ha
  | some c => simpa [h] using hb

theorem all_head {p : Char → Bool} {a b : Str} (ha : a.head?.all p) (hb : b.head?.all p) : (a ++ b).head?.all p := by
  rw [List.head?_append]
  cases h : a.head? with
  | none => simpa using hb
  | some c => simpa [h] using ha

theorem Part.cut {b x y : Str} (hx : x.getLast?.all Spec.edge) (hy : y.head?.all Spec.edge) : Part b (x ++ b ++ y) where
  path := fun ⟨u, h1, h2⟩ => ⟨u, h1, h2.trans ⟨x, y, by simp⟩⟩
  alone := by
    rintro w - ⟨x', y', rfl, h1, h2⟩
    exact ⟨x ++ x', y' ++ y, by simp, all_getLast hx h1, all_head h2 hy⟩

/-- A word of a text is surrounded by white space. -/
theorem word_bounds : ∀ (n : Nat) (t w : Str), t.length ≤ n → w ∈ splitWs t →
    ∃ x y, t = x ++ w ++ y ∧ x.getLast?.all isSpace ∧ y.head?.all isSpace
  | n, t, w, hn, h => by
    rcases first_word t with ht | ⟨y, d, b, rfl, hd, hy⟩
    · rw [splitWs_word ht] at h
      split at h
      · cases h
      · rw [List.mem_singleton] at h
        subst h
        exact ⟨[], [], by simp, by simp, by simp⟩
    · cases n with
      | zero => simp at hn
      | succ n =>
        rw [splitWs_sep hd, List.mem_append] at h
        rcases h with h | h
        · rw [splitWs_word hy] at h
          split at h
          · cases h
          · rw [List.mem_singleton] at h
            subst h
            exact ⟨[], d :: b, by simp, by simp, by simpa using hd⟩
        · obtain ⟨x', y', rfl, h1, h2⟩ := word_bounds n b w (by simp at hn; omega) h
          refine ⟨(y ++ [d]) ++ x', y', by simp, all_getLast (by simpa using hd) h1, h2⟩

theorem edge_space {c : Char} (h : isSpace c = true) : Spec.edge c = true := by simp [Spec.edge, h]

theorem all_mono {p q : Char → Bool} (h : ∀ c, p c = true → q c = true) {o : Option Char} (ho : o.all p) : o.all q := by
  cases o with
  | none => rfl
  | some c => exact h c ho

theorem Part.word {t w : Str} (h : w ∈ splitWs t) : Part w t := by
  obtain ⟨x, y, rfl, hx, hy⟩ := word_bounds _ t w (Nat.le_refl _) h
  exact .cut (all_mono (fun _ => edge_space) hx) (all_mono (fun _ => edge_space) hy)

theorem straight_lower {c d : Char} (h : (Spec.straight c).toLower = d) (hd : d ∈ ['\'', 'n']) : c ∈ ['‘', '’', '′', '\'', 'n', 'N'] := by
  unfold Spec.straight at h
  split at h
  · rename_i hc
    simp only [List.mem_cons, List.not_mem_nil, or_false] at hc ⊢
    tauto
  · split at h
    · subst h
      exact absurd hd (by decide)
    · have hn : c.toLower = c ∨ (c.toNat + 32 = c.toLower.toNat) := by
        unfold Char.toLower
        split
        · rename_i hc
          right
          have h2 : c.toNat ≤ 90 := hc.2
          simp only [Char.toNat, UInt32.toNat_add]
          have : c.val.toNat ≤ 90 := h2
          have e : ('a'.val - 'A'.val).toNat = 32 := by decide
          rw [e]
          omega
        · exact .inl rfl
      have inj : ∀ d : Char, c.toNat = d.toNat → c = d := fun d hd => Char.ext (UInt32.toNat_inj.mp hd)
      simp only [List.mem_cons, List.not_mem_nil, or_false] at hd ⊢
      rcases hn with e | e
      · rw [e] at h; subst h; tauto
      · rw [h] at e
        rcases hd with rfl | rfl
        · have h1 : ('\'' : Char).toNat = 39 := rfl
          have : c = Char.ofNat 7 := inj _ (by rw [show (Char.ofNat 7).toNat = 7 from rfl]; omega)
          subst this
          exact absurd h (by decide)
        · have h1 : ('n' : Char).toNat = 110 := rfl
          have : c = 'N' := inj _ (by rw [show ('N' : Char).toNat = 78 from rfl]; omega)
          simp [this]

theorem Abbr.chars {w : Str} (h : Abbr w) : ∀ c ∈ w, c ∈ ['‘', '’', '′', '\'', 'n', 'N'] := by
  intro c hc
  have hm : (Spec.straight c).toLower ∈ w.map fun c => (Spec.straight c).toLower := List.mem_map_of_mem hc
  refine straight_lower rfl ?_
  unfold Abbr at h
  simp only [List.mem_cons, List.not_mem_nil, or_false] at h
  rcases h with e | e | e <;> rw [e] at hm <;> simp at hm ⊢ <;> tauto

theorem Abbr.ne_nil {w : Str} (h : Abbr w) : w ≠ [] := by
  rintro rfl
  simp [Abbr] at h

theorem Abbr.not_space {w : Str} (h : Abbr w) : ∀ c ∈ w, isSpace c = false := by
  intro c hc
  have key : ∀ c ∈ ['‘', '’', '′', '\'', 'n', 'N'], isSpace c = false := by decide
  exact key c (h.chars c hc)

theorem Part.of_words {a b : Str} (h : ∀ v ∈ splitWs a, Part v b) : Part a b where
  path := by
    rintro ⟨u, h1, h2⟩
    obtain ⟨v, hv, hi⟩ := infix_word (w := '.' :: (u ++ ['/'])) (by
      intro c hc
      simp only [List.mem_cons, List.mem_append, List.not_mem_nil, or_false] at hc
      rcases hc with rfl | hc | rfl
      · decide
      · exact h1 c hc
      · decide) (by simp) _ a (Nat.le_refl _) h2
    exact (h v hv).path ⟨u, h1, hi⟩
  alone := by
    rintro w hw ⟨x, y, rfl, h1, h2⟩
    have hns := hw.not_space
    obtain ⟨c, w', e⟩ := List.exists_cons_of_ne_nil hw.ne_nil
    have key : ∀ (x y : Str), x.getLast?.all Spec.edge → y.head?.all Spec.edge → ∃ v ∈ splitWs (x ++ w ++ y), Spec.Alone w v := by
      intro x y h1 h2
      obtain ⟨A, x1, hx1, hxe, hA⟩ : ∃ (A : List Str) (x1 : Str), (∀ c ∈ x1, isSpace c = false) ∧ x1.getLast?.all Spec.edge ∧
          ∀ r, splitWs (x ++ r) = A ++ splitWs (x1 ++ r) := by
        rcases last_word x with hx | ⟨x0, d, x1, rfl, hd, hx⟩
        · exact ⟨[], x, hx, h1, fun r => rfl⟩
        · refine ⟨splitWs x0, x1, hx, ?_, fun r => ?_⟩
          · cases hl : x1.getLast? with
            | none => simp
            | some c =>
              have : (x0 ++ d :: x1).getLast? = some c := by
                rw [show x0 ++ d :: x1 = (x0 ++ [d]) ++ x1 by simp, List.getLast?_append, hl]
                rfl
              rw [this] at h1
              exact h1
          · rw [List.append_assoc, List.cons_append]
            exact splitWs_sep hd x0 _
      obtain ⟨B, y1, hy1, hye, hB⟩ : ∃ (B : List Str) (y1 : Str), (∀ c ∈ y1, isSpace c = false) ∧ y1.head?.all Spec.edge ∧
          ∀ r, splitWs (r ++ y) = splitWs (r ++ y1) ++ B := by
        rcases first_word y with hy | ⟨y1, d, y0, rfl, hd, hy⟩
        · exact ⟨[], y, hy, h2, fun r => by simp⟩
        · refine ⟨splitWs y0, y1, hy, ?_, fun r => ?_⟩
          · cases y1 with
            | nil => simp
            | cons c y1 => simpa using h2
          · rw [← List.append_assoc]
            exact splitWs_sep hd _ _
      refine ⟨x1 ++ w ++ y1, ?_, x1, y1, rfl, hxe, hye⟩
      rw [hB, List.append_assoc, hA, ← List.append_assoc, splitWs_word (w := x1 ++ w ++ y1), if_neg (by simp [e])]
      · simp
      · intro c hc
        simp only [List.mem_append] at hc
        rcases hc with (hc | hc) | hc
        · exact hx1 c hc
        · exact hns c hc
        · exact hy1 c hc
    obtain ⟨v, hv, ha⟩ := key x y h1 h2
    exact (h v hv).alone w hw ha

theorem Part.strip (t : Str) : Part (Py.strip t) t := .of_words fun _ hv => .word (splitWs_strip t ▸ hv)

/-! ### Inserted pilcrows -/

/-- The second text is the first one with pilcrows inserted. -/
inductive Ins : Str → Str → Prop
  | nil : Ins [] []
  | keep (c : Char) {a b : Str} : Ins a b → Ins (c :: a) (c :: b)
  | add {a b : Str} : Ins a b → Ins a ('¶' :: b)

theorem Ins.split : ∀ {x q a : Str}, Ins a (x ++ q) → ∃ x' q', a = x' ++ q' ∧ Ins x' x ∧ Ins q' q
  | [], q, a, h => ⟨[], a, rfl, .nil, h⟩
  | c :: x, q, a, h => by
    cases h with
    | keep _ h =>
      obtain ⟨x', q', rfl, h1, h2⟩ := Ins.split h
      exact ⟨c :: x', q', rfl, .keep c h1, h2⟩
    | add h =>
      obtain ⟨x', q', rfl, h1, h2⟩ := Ins.split h
      exact ⟨x', q', rfl, .add h1, h2⟩

theorem Ins.same {a b : Str} (h : Ins a b) (hb : '¶' ∉ b) : a = b := by
  induction h with
  | nil => rfl
  | keep c _ ih => rw [ih fun h => hb (by simp [h])]
  | add _ _ => exact absurd (by simp) hb

theorem Ins.mem {a b : Str} (h : Ins a b) {c : Char} (hc : c ∈ a) : c ∈ b := by
  induction h with
  | nil => exact hc
  | keep d _ ih =>
    rcases List.mem_cons.mp hc with rfl | hc
    · simp
    · simp [ih hc]
  | add _ ih => simp [ih hc]

theorem Ins.part {a b : Str} (h : Ins a b) : Part b a where
  path := by
    rintro ⟨u, hu, x, y, rfl⟩
    obtain ⟨p, y', rfl, hp, -⟩ := h.split
    obtain ⟨x', m, rfl, -, hm⟩ := hp.split
    cases hm with
    | keep _ hm =>
      obtain ⟨u', z, rfl, h1, h2⟩ := hm.split
      obtain rfl := h2.same (by decide)
      exact ⟨u', fun c hc => hu c (h1.mem hc), x', y', by simp⟩
  alone := by
    rintro w hw ⟨x, y, rfl, hx, hy⟩
    obtain ⟨p, y', rfl, hp, h3⟩ := h.split
    obtain ⟨x', m, rfl, h1, hm⟩ := hp.split
    have hnp : '¶' ∉ w := fun h => absurd (hw.chars _ h) (by decide)
    obtain rfl := hm.same hnp
    have hpe : Spec.edge '¶' = false := by decide
    refine ⟨x', y', rfl, ?_, ?_⟩
    · rcases List.eq_nil_or_concat x with rfl | ⟨x0, c, rfl⟩
      · cases h1
        simp
      · rw [List.concat_eq_append] at h1 hx
        obtain ⟨x0', z, rfl, -, h2⟩ := h1.split
        have hc : Spec.edge c = true := by simpa using hx
        obtain rfl := h2.same (by
          intro h
          rw [List.mem_singleton] at h
          rw [← h, hpe] at hc
          cases hc)
        simpa using hc
    · cases y with
      | nil =>
        cases h3
        simp
      | cons c y =>
        have hc : Spec.edge c = true := by simpa using hy
        cases h3 with
        | keep _ _ => simpa using hc
        | add _ => rw [hpe] at hc; cases hc

/-! ### Words after sanitization -/

theorem undash_plain : ∀ (y r : Str), (∀ c ∈ y, Spec.isDash c = false) → Spec.undash (y ++ r) = y ++ Spec.undash r
  | [], _, _ => rfl
  | c :: y, r, h => by
    rw [List.cons_append, Spec.undash, if_neg (by simp [h c (by simp)]), undash_plain y r fun d hd => h d (by simp [hd])]
    rfl

theorem undash_dashes : ∀ (b : Str) (d : Char), Spec.isDash d = true → ∃ ds b', b = ds ++ b' ∧ (∀ c ∈ ds, Spec.isDash c = true) ∧
    Spec.undash (d :: b) = [' ', '-', ' '] ++ Spec.undash b'
  | [], d, hd => ⟨[], [], rfl, by simp, by simp [Spec.undash, hd]⟩
  | e :: b, d, hd => by
    by_cases he : Spec.isDash e = true
    · obtain ⟨ds, b', rfl, h1, h2⟩ := undash_dashes b e he
      refine ⟨e :: ds, b', rfl, by simpa [he] using h1, ?_⟩
      rw [Spec.undash, if_pos hd, if_pos (by simpa using he)]
      exact h2
    · exact ⟨[], e :: b, rfl, by simp, by rw [Spec.undash, if_pos hd, if_neg (by simpa using he)]⟩

/-- White space or a dash. -/
def gap (c : Char) : Bool := isSpace c || Spec.isDash c

theorem first_gap (t : Str) : (∀ c ∈ t, gap c = false) ∨ ∃ y d b, t = y ++ d :: b ∧ gap d = true ∧ ∀ c ∈ y, gap c = false := by
  induction t with
  | nil => exact .inl (by simp)
  | cons c t ih =>
    by_cases hc : gap c = true
    · exact .inr ⟨[], c, t, rfl, hc, by simp⟩
    · rcases ih with h | ⟨y, d, b, rfl, hd, hy⟩
      · exact .inl (by simpa [hc] using h)
      · exact .inr ⟨c :: y, d, b, rfl, hd, by simpa [hc] using hy⟩

/-- Words of a text without dashes: hyphens and the text between white space and dashes. -/
theorem undash_words : ∀ (n : Nat) (t w : Str), t.length ≤ n → w ∈ splitWs (Spec.undash t) →
    w = ['-'] ∨ ∃ x y, t = x ++ w ++ y ∧ x.getLast?.all gap ∧ y.head?.all gap
  | n, t, w, hn, h => by
    have hg : ∀ {y : Str}, (∀ c ∈ y, gap c = false) → (∀ c ∈ y, isSpace c = false) ∧ ∀ c ∈ y, Spec.isDash c = false := by
      intro y hy
      constructor <;> intro c hc <;> have := hy c hc <;> simp only [gap, Bool.or_eq_false_iff] at this
      · exact this.1
      · exact this.2
    rcases first_gap t with ht | ⟨y, d, b, rfl, hd, hy⟩
    · obtain ⟨h1, h2⟩ := hg ht
      have e : Spec.undash t = t := by simpa [Spec.undash] using undash_plain t [] h2
      rw [e, splitWs_word h1] at h
      split at h
      · cases h
      · rw [List.mem_singleton] at h
        subst h
        exact .inr ⟨[], [], by simp, by simp, by simp⟩
    · obtain ⟨h1, h2⟩ := hg hy
      cases n with
      | zero => simp at hn
      | succ n =>
        rw [undash_plain y _ h2] at h
        have hfirst : w ∈ splitWs y → ∃ x z, y ++ d :: b = x ++ w ++ z ∧ x.getLast?.all gap ∧ z.head?.all gap := by
          intro h
          rw [splitWs_word h1] at h
          split at h
          · cases h
          · rw [List.mem_singleton] at h
            subst h
            exact ⟨[], d :: b, by simp, by simp, by simpa using hd⟩
        have hrest : ∀ ds b', b = ds ++ b' → (∀ c ∈ ds, gap c = true) → w ∈ splitWs (Spec.undash b') →
            w = ['-'] ∨ ∃ x z, y ++ d :: b = x ++ w ++ z ∧ x.getLast?.all gap ∧ z.head?.all gap := by
          intro ds b' e hds h
          rcases undash_words n b' w (by subst e; simp at hn ⊢; omega) h with h | ⟨x, z, rfl, hx, hz⟩
          · exact .inl h
          · refine .inr ⟨(y ++ d :: ds) ++ x, z, by simp [e], all_getLast ?_ hx, hz⟩
            rcases List.eq_nil_or_concat ds with rfl | ⟨ds', c, rfl⟩
            · simpa using hd
            · have := hds c (by simp)
              rw [List.concat_eq_append, show y ++ d :: (ds' ++ [c]) = (y ++ d :: ds') ++ [c] by simp]
              rw [List.getLast?_append]
              exact this
        by_cases hs : Spec.isDash d = true
        · obtain ⟨ds, b', e, hds, hu⟩ := undash_dashes b d hs
          rw [hu, show y ++ ([' ', '-', ' '] ++ Spec.undash b') = y ++ ' ' :: (['-'] ++ ' ' :: Spec.undash b') by simp,
            splitWs_sep (by decide), splitWs_sep (by decide), List.mem_append, List.mem_append] at h
          rcases h with h | h | h
          · exact .inr (hfirst h)
          · rw [splitWs_word (by decide)] at h
            exact .inl (by simpa using h)
          · exact hrest ds b' e (fun c hc => by simp [gap, hds c hc]) h
        · have hsp : isSpace d = true := by
            simp only [gap, Bool.or_eq_true] at hd
            tauto
          rw [Spec.undash, if_neg hs, splitWs_sep hsp, List.mem_append] at h
          rcases h with h | h
          · exact .inr (hfirst h)
          · exact hrest [] b rfl (by simp) h

theorem gap_straight (c : Char) : gap (Spec.straight c) = gap c := by
  rw [gap, gap, isSpace_straight, straight_dash]

theorem edge_gap {c : Char} (h : gap c = true) : Spec.edge c = true := by
  simp only [gap, Bool.or_eq_true] at h
  rcases h with h | h <;> simp [Spec.edge, h]

/-- Words of the sanitized text. -/
theorem tidy_words {b w : Str} (h : w ∈ splitWs (Spec.tidy b)) :
    w = ['-'] ∨ ∃ x v y, b = x ++ v ++ y ∧ v.map Spec.straight = w ∧ x.getLast?.all gap ∧ y.head?.all gap := by
  rw [Spec.tidy, splitWs_join _ (splitWs_noBlank _)] at h
  rcases undash_words _ _ w (Nat.le_refl _) h with h | ⟨x, y, e, hx, hy⟩
  · exact .inl h
  · obtain ⟨p, y', rfl, hp, rfl⟩ := List.map_eq_append_iff.mp e
    obtain ⟨x', v, rfl, rfl, hv⟩ := List.map_eq_append_iff.mp hp
    refine .inr ⟨x', v, y', rfl, hv, ?_, ?_⟩
    · rw [List.getLast?_map] at hx
      cases hl : x'.getLast? with
      | none => simp
      | some c =>
        rw [hl] at hx
        simpa [gap_straight] using hx
    · rw [List.head?_map] at hy
      cases hl : y'.head? with
      | none => simp
      | some c =>
        rw [hl] at hy
        simpa [gap_straight] using hy

/-- A text without paths and abbreviations: the slashes in the words that the tokenizer sees. -/
theorem words_slash {b : Str} (h1 : ¬ ['/', '/'] <:+: b) (h2 : ¬ Path b) (h3 : ∀ w, Abbr w → ¬ Spec.Alone w b) :
    ∀ w ∈ splitWs (Spec.tidy b), (¬ ['/', '/'] <:+: w) ∧ '/' ∉ w.dropWhile (· ≠ '.') ∧
      w.map Char.toLower ∉ [c!"'n'", c!"'n", c!"n'"] := by
  intro w hw
  have hns := (splitWs_noBlank _ w hw).2
  rcases tidy_words hw with rfl | ⟨x, v, y, rfl, rfl, hx, hy⟩
  · decide
  · have hsp : ∀ c ∈ v, isSpace c = false := by
      intro c hc
      have := hns (Spec.straight c) (List.mem_map_of_mem hc)
      rwa [isSpace_straight] at this
    refine ⟨?_, ?_, ?_⟩
    · rintro ⟨p, q, e⟩
      rw [List.append_assoc] at e
      obtain ⟨l1, l2, rfl, -, h5⟩ := List.map_eq_append_iff.mp e.symm
      obtain ⟨l3, l4, rfl, h6, -⟩ := List.map_eq_append_iff.mp h5
      obtain ⟨c, l5, rfl, hc, h7⟩ := List.map_eq_cons_iff.mp h6
      obtain ⟨d, l6, rfl, hd, h8⟩ := List.map_eq_cons_iff.mp h7
      obtain rfl := List.map_eq_nil_iff.mp h8
      obtain rfl := straight_eq hc (by decide) (by decide)
      obtain rfl := straight_eq hd (by decide) (by decide)
      exact h1 ⟨x ++ l1, l4 ++ y, by simp⟩
    · intro hd
      obtain ⟨p, q, hpq⟩ : ∃ p q, v.map Spec.straight = p ++ q ∧ q = (v.map Spec.straight).dropWhile (· ≠ '.') :=
        ⟨_, _, (List.takeWhile_append_dropWhile (p := fun c => decide (c ≠ '.'))).symm, rfl⟩
      obtain ⟨hpq, hq⟩ := hpq
      rw [← hq] at hd
      have hhead : q.head? = some '.' := by
        have := List.head?_dropWhile_not (fun c : Char => decide (c ≠ '.')) (v.map Spec.straight)
        rw [← hq] at this
        cases q with
        | nil => cases hd
        | cons c q => simpa using this
      cases q with
      | nil => cases hd
      | cons c q =>
        simp only [List.head?_cons, Option.some.injEq] at hhead
        subst hhead
        have hd : '/' ∈ q := by simpa using hd
        obtain ⟨m, r, rfl⟩ := List.append_of_mem hd
        obtain ⟨l1, l2, rfl, -, h5⟩ := List.map_eq_append_iff.mp hpq
        obtain ⟨c, l3, rfl, hc, h6⟩ := List.map_eq_cons_iff.mp h5
        obtain ⟨l4, l5, rfl, -, h7⟩ := List.map_eq_append_iff.mp h6
        obtain ⟨e, l6, rfl, he, -⟩ := List.map_eq_cons_iff.mp h7
        obtain rfl := straight_eq hc (by decide) (by decide)
        obtain rfl := straight_eq he (by decide) (by decide)
        exact h2 ⟨l4, fun c hc => hsp c (by simp [hc]), x ++ l1, l6 ++ y, by simp⟩
    · intro hm
      rw [List.map_map] at hm
      exact h3 v hm ⟨x, y, rfl, all_mono (fun _ => edge_gap) hx, all_mono (fun _ => edge_gap) hy⟩

/-- Texts that are fit for the sentencizer are fit for the tokenizer. -/
theorem writing_prose {text : Str} (h : Spec.Writing text) : Spec.Prose text where
  underscore := h.underscore
  names := h.names
  www := h.www
  slash hs := by
    obtain ⟨h1, h2, h3⟩ := h.slash hs
    exact words_slash h1 (fun ⟨u, h4, h5⟩ => h2 u h4 h5) h3

end Model
