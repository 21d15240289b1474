import Verif.Lemmas.Tidy

/-! # What the tokenizer keeps of a text -/

namespace Model
open Py

theorem splitWsAux_flatten : ∀ (t cur : Str), (∀ c ∈ cur, isSpace c = false) →
    (splitWsAux t cur).flatten = cur.reverse ++ Spec.ink t
  | [], cur, h => by
    rw [splitWsAux]
    split
    · rename_i hc
      rw [List.isEmpty_iff] at hc
      subst hc
      rfl
    · simp [Spec.ink]
  | c :: cs, cur, h => by
    rw [splitWsAux]
    by_cases hc : isSpace c = true
    · rw [if_pos hc]
      have e : Spec.ink (c :: cs) = Spec.ink cs := by simp [Spec.ink, hc]
      have ih := splitWsAux_flatten cs [] (by simp)
      split
      · rename_i hcur
        rw [List.isEmpty_iff] at hcur
        subst hcur
        rw [ih, e]
      · rw [List.flatten_cons, ih, e]
        simp
    · rw [if_neg hc, splitWsAux_flatten cs (c :: cur) (by
        intro d hd
        rcases List.mem_cons.mp hd with rfl | hd
        · simpa using hc
        · exact h d hd)]
      simp [Spec.ink, hc]

theorem splitWs_flatten (t : Str) : (splitWs t).flatten = Spec.ink t := by
  exact splitWsAux_flatten t [] (by simp)

theorem straight_eq {c d : Char} (h : Spec.straight c = d) (h1 : d ≠ '\'') (h2 : d ≠ '"') : c = d := by
  unfold Spec.straight at h
  split at h
  · exact absurd h.symm h1
  · split at h
    · exact absurd h.symm h2
    · exact h

theorem infix_tidy_same {w text : Str} (h1 : ' ' ∉ w) (h2 : '-' ∉ w) (hne : w ≠ []) (h3 : ∀ c ∈ w, c ≠ '\'' ∧ c ≠ '"')
    (h : w <:+: Spec.tidy text) : w <:+: text := by
  obtain ⟨w', h4, h5⟩ := infix_tidy h1 h2 hne h
  have : w' = w := by
    clear h h4 h1 h2 hne
    induction w' generalizing w with
    | nil => simpa using h5
    | cons c w' ih =>
      cases w with
      | nil => simp at h5
      | cons d w =>
        simp only [List.map_cons, List.cons.injEq] at h5
        rw [straight_eq h5.1 (h3 d (by simp)).1 (h3 d (by simp)).2, ih (fun c hc => h3 c (by simp [hc])) h5.2]
  exact this ▸ h4

theorem mem_tidy {c : Char} {text : Str} (h1 : c ≠ ' ') (h2 : c ≠ '-') (h3 : c ≠ '\'' ∧ c ≠ '"') (h : c ∈ Spec.tidy text) :
    c ∈ text := by
  obtain ⟨a, b, e⟩ := List.append_of_mem h
  have := infix_tidy_same (w := [c]) (by simp [h1.symm]) (by simp [h2.symm]) (by simp) (by simpa using h3)
    ⟨a, b, by rw [e]; simp⟩
  exact this.subset (by simp)

theorem ch_infix {w t : Str} (h : w.map U.ch <:+: t.map U.ch) : w <:+: t := by
  obtain ⟨a, b, e⟩ := h
  rw [List.append_assoc] at e
  obtain ⟨l1, l2, rfl, -, h5⟩ := List.map_eq_append_iff.mp e.symm
  obtain ⟨l3, l4, rfl, h6, h7⟩ := List.map_eq_append_iff.mp h5
  have hinj : Function.Injective (List.map U.ch) := List.map_injective_iff.mpr fun a b h => by simpa using h
  rw [← hinj h6]
  exact ⟨l1, l4, by simp⟩

theorem www_chars {w : Str} (h : w.map Char.toLower = c!"www.") : ∀ c ∈ w, c ≠ ' ' ∧ c ≠ '-' ∧ c ≠ '\'' ∧ c ≠ '"' := by
  intro c hc
  have h1 : c.toLower ∈ c!"www." := h ▸ List.mem_map_of_mem hc
  have h2 : ∀ c ∈ [' ', '-', '\'', '"'], c.toLower ∉ c!"www." := by decide
  refine ⟨?_, ?_, ?_, ?_⟩ <;> rintro rfl <;> exact h2 _ (by simp) h1

def isUnderscore (c : Char) : Bool := c == '_'

theorem ch_infix_encode {w : Str} {us : List U} (h : w.map U.ch <:+: us) : w <:+: encode us := by
  obtain ⟨a, b, rfl⟩ := h
  exact ⟨encode a, encode b, by simp⟩

section
variable {text : Str} {us : List U} (e : encode us = Spec.tidy text)
include e

theorem noNames_of (h : Spec.Prose text) : NoNames us := by
  intro n hn hi
  have hi := ch_infix_encode hi
  rw [e] at hi
  have key : ∀ n ∈ [c!"NSD", c!"NSGE", c!"NSLE"], ' ' ∉ n ∧ '-' ∉ n ∧ n ≠ [] ∧ ∀ c ∈ n, c ≠ '\'' ∧ c ≠ '"' := by decide
  obtain ⟨k1, k2, k3, k4⟩ := key n hn
  exact h.names n hn (infix_tidy_same k1 k2 k3 k4 hi)

theorem noUrl_of (h : Spec.Ordinary text) : NoUrl us := by
  constructor
  · intro hu
    have : '/' ∈ encode us := List.mem_flatMap.mpr ⟨_, hu, by simp [U.enc]⟩
    rw [e] at this
    exact h.slash (mem_tidy (by decide) (by decide) (by decide) this)
  · intro w hw hi
    have hi := ch_infix_encode hi
    rw [e] at hi
    have hc := www_chars hw
    refine h.www w hw (infix_tidy_same (fun h => (hc _ h).1 rfl) (fun h => (hc _ h).2.1 rfl) ?_
      (fun c h => (hc c h).2.2) hi)
    rintro rfl
    cases hw

theorem noFeet_of {db : CharDB} (hm : ∀ w, Spec.Measure db.digit w → ¬ w <:+: text) : NoFeet db us := by
  intro d v q hd hv hq hi
  have hi := ch_infix_encode hi
  rw [e] at hi
  have hsp : ∀ c, db.digit c = true ∨ c = ',' ∨ c = '.' → c ≠ ' ' ∧ c ≠ '-' ∧ c ≠ '\'' ∧ c ≠ '"' := by
    intro c hc
    rcases hc with hc | rfl | rfl
    · have hw := db.digit_word c hc
      refine ⟨?_, ?_, ?_, ?_⟩ <;> rintro rfl
      · have := db.word_space ' ' (by decide)
        rw [this] at hw; cases hw
      · rw [db.word_ascii '-' (by decide)] at hw; exact absurd hw (by decide)
      · rw [db.word_ascii '\'' (by decide)] at hw; exact absurd hw (by decide)
      · rw [db.word_ascii '"' (by decide)] at hw; exact absurd hw (by decide)
    · decide
    · decide
  obtain ⟨w', h1, h2⟩ := infix_tidy (w := d :: (v ++ [q])) (by
      intro hc
      rcases List.mem_cons.mp hc with h | h
      · exact (hsp d (.inl hd)).1 h.symm
      · rcases List.mem_append.mp h with h | h
        · exact (hsp _ (hv _ h)).1 rfl
        · rw [List.mem_singleton] at h
          rcases hq with rfl | rfl <;> exact absurd h (by decide)) (by
      intro hc
      rcases List.mem_cons.mp hc with h | h
      · exact (hsp d (.inl hd)).2.1 h.symm
      · rcases List.mem_append.mp h with h | h
        · exact (hsp _ (hv _ h)).2.1 rfl
        · rw [List.mem_singleton] at h
          rcases hq with rfl | rfl <;> exact absurd h (by decide)) (by simp) hi
  refine hm w' ?_ h1
  cases w' with
  | nil => cases h2
  | cons d' w' =>
    simp only [List.map_cons, List.cons.injEq] at h2
    obtain ⟨v', q', rfl, h3, h4⟩ := List.map_eq_append_iff.mp h2.2
    obtain ⟨q'', rfl, h5⟩ : ∃ q'', q' = [q''] ∧ Spec.straight q'' = q := by
      cases q' with
      | nil => cases h4
      | cons a l =>
        simp only [List.map_cons, List.cons.injEq, List.map_eq_nil_iff] at h4
        exact ⟨a, by rw [h4.2], h4.1⟩
    have hd' := straight_eq h2.1 (hsp d (.inl hd)).2.2.1 (hsp d (.inl hd)).2.2.2
    refine ⟨d', v', q'', rfl, hd' ▸ hd, ?_, h5 ▸ hq⟩
    intro c hc
    have hc' := hv (Spec.straight c) (h3 ▸ List.mem_map_of_mem hc)
    have := straight_eq (c := c) rfl (hsp _ hc').2.2.1 (hsp _ hc').2.2.2
    rw [← this] at hc'
    exact hc'

theorem noStars_of (hst : ¬ c!"**" <:+: text) : NoStars us := by
  intro hi
  have hi := ch_infix_encode (w := c!"**") hi
  rw [e] at hi
  exact hst (infix_tidy_same (by decide) (by decide) (by decide) (by decide) hi)

end

theorem solids_ch (t : Str) : solids (t.map U.ch) = (Spec.ink t).map U.ch := by
  rw [solids, Spec.ink, List.filter_map]
  rfl

theorem underscore_delim : ∀ c, isUnderscore c = true → isDelim c = true := by
  intro c hc
  rw [isUnderscore, beq_iff_eq] at hc
  subst hc
  decide

theorem plain_text {text : Str} (h : '_' ∉ text) : PlainU isUnderscore ((Spec.tidy text).map U.ch) := by
  intro u hu
  obtain ⟨c, hc, rfl⟩ := List.mem_map.mp hu
  refine .inl ⟨c, rfl, ?_⟩
  rw [isUnderscore, beq_eq_false_iff_ne]
  rintro rfl
  exact h (mem_tidy (by decide) (by decide) (by decide) hc)

/-- The text after the tokenizer is plain; up to white space it is the sanitized text. -/
theorem tokenize_of_inv (db : CharDB) {text : Str} (ht : text ≠ []) (h : Spec.Prose text)
    (hi : ∀ fuel p, protectText db fuel (Spec.tidy text) = some p → PInv isUnderscore ((Spec.tidy text).map U.ch) p) : ∃ x : Str,
    tokenize db text = splitWs x ∧ '_' ∉ x ∧
    ((∀ w, Spec.Measure db.digit w → ¬ w <:+: text) → ¬ c!"**" <:+: text → Spec.ink x = Spec.ink (Spec.tidy text)) := by
  have hD' : isUnderscore '_' = true := by decide
  obtain ⟨p, hp, -, e⟩ := tokenize_eq db ht
  have hp := hp _ (Nat.lt_succ_self _)
  rw [sanitize_tidy] at hp
  have e0 : encode ((Spec.tidy text).map U.ch) = Spec.tidy text := encode_ch _
  obtain ⟨vs, e1, hv, -, hs⟩ := tok_main underscore_delim hD' db (noNames_of e0 h) (hi _ p hp)
  obtain ⟨x, rfl, hx⟩ : ∃ x : Str, vs = x.map U.ch ∧ '_' ∉ x := by
    clear e1 hs
    induction vs with
    | nil => exact ⟨[], rfl, by simp⟩
    | cons u vs ih =>
      obtain ⟨x, rfl, hx⟩ := ih fun u hu => hv u (by simp [hu])
      rcases hv u (by simp) with ⟨c, rfl, hc⟩ | ⟨s, rfl, ⟨a, mid, b, rfl, ha, -, -⟩, hm⟩
      · refine ⟨c :: x, rfl, ?_⟩
        rw [isUnderscore, beq_eq_false_iff_ne] at hc
        simp [hx, Ne.symm hc]
      · rw [isUnderscore, beq_iff_eq] at ha
        subst ha
        exact absurd (by simp) (mark_no_underscore hm)
  refine ⟨x, by rw [e, e1, encode_ch], hx, ?_⟩
  intro hm hst
  have := hs (noFeet_of e0 hm) (noStars_of e0 hst)
  rw [solids_ch, solids_ch] at this
  have hinj : Function.Injective (List.map U.ch) := List.map_injective_iff.mpr fun a b h => by simpa using h
  exact hinj this

theorem tokenize_ordinary (db : CharDB) {text : Str} (ht : text ≠ []) (h : Spec.Ordinary text) : ∃ x : Str,
    tokenize db text = splitWs x ∧ '_' ∉ x ∧
    ((∀ w, Spec.Measure db.digit w → ¬ w <:+: text) → ¬ c!"**" <:+: text → Spec.ink x = Spec.ink (Spec.tidy text)) := by
  have e0 : encode ((Spec.tidy text).map U.ch) = Spec.tidy text := encode_ch _
  exact tokenize_of_inv db ht h.prose fun fuel p hp => protectText_inv underscore_delim (by decide) (plain_text h.underscore)
    (cleanProt_of_noUrl underscore_delim db (noUrl_of e0 h)) (by rw [e0]; exact hp)

end Model
