import Verif.Lemmas.Conserve
import Verif.Lemmas.Words

/-! # The tokenizer on texts with slashes but without addresses -/

namespace Py

/-- The class contains no white space (sufficient condition). -/
def Cls.inky (k : Cls) : Bool :=
  if k.neg then k.items.contains .space else k.items.all fun
    | .ch a => !isSpace a && decide (foldCase a = a ∧ ¬ (97 ≤ a.toNat ∧ a.toNat ≤ 122))
    | _ => false

/-- No match eats white space (sufficient condition). -/
def Re.inky : Re → Bool
  | .cls k => k.inky
  | .seq a b => a.inky && b.inky
  | .alt a b => a.inky && b.inky
  | .rep _ _ a => a.inky
  | .group _ a => a.inky
  | _ => true

theorem Cls.inky_test {db : CharDB} {k : Cls} (h : k.inky = true) {c : Char} (hc : k.test db c = true) : isSpace c = false := by
  unfold Cls.inky at h
  unfold Cls.test at hc
  split at h
  · rename_i hn
    rw [hn] at hc
    simp only [bne_iff_ne, ne_eq, Bool.not_eq_true, List.any_eq_false] at hc
    rcases hs : isSpace c with _ | _
    · rfl
    · have := hc .space (by simpa using h)
      simp [Item.test, hs] at this
  · rename_i hn
    simp only [Bool.not_eq_true] at hn
    rw [hn] at hc
    simp only [bne_iff_ne, ne_eq, Bool.not_eq_false, List.any_eq_true] at hc
    obtain ⟨i, hi, ht⟩ := hc
    have := List.all_eq_true.mp h i hi
    cases i with
    | ch a =>
      simp only [Bool.and_eq_true, Bool.not_eq_true', decide_eq_true_eq] at this
      have hca : c = a := by
        simp only [Item.test] at ht
        split at ht
        · rw [beq_iff_eq, this.2.1] at ht
          exact foldCase_of_not_letter this.2.1 this.2.2 ht.symm
        · exact (beq_iff_eq.mp ht).symm
      rw [hca]
      exact this.1
    | _ => simp at this

theorem Re.inky_run {db : CharDB} {r : Re} (h : r.inky = true) : ∀ s t w, t ∈ r.run db s → Eats s t w →
    ∀ c ∈ w, isSpace c = false := by
  refine Re.run_all _ Re.inky ?_ ?_ ?_ ?_ ?_ r h
  · intro k hk c hc
    exact Cls.inky_test hk hc
  · intro a b h; simpa [Re.inky] using h
  · intro a b h; simpa [Re.inky] using h
  · intro n g a h; simpa [Re.inky] using h
  · intro n a h; simpa [Re.inky] using h

end Py

namespace Model
open Py

theorem fold_n {c : Char} (h : foldCase c = 'n') : c.toLower = 'n' := by
  have h1 : c.toLower = lowerAscii c := (lowerAscii_eq c).symm
  have h3 : lowerLetter c = c.toLower := by
    rw [h1]
    unfold lowerLetter lowerAscii
    simp only [Bool.and_eq_true, decide_eq_true_eq, Char_le_iff]
    rfl
  unfold foldCase at h
  rw [h3] at h
  split at h
  · exact absurd h (by decide)
  split at h
  · exact absurd h (by decide)
  split at h
  · exact absurd h (by decide)
  · exact h

theorem lit_eats {db : CharDB} {a : Char} {s t : St} {w : Str} (ht : t ∈ (Re.cls ⟨false, true, [.ch a]⟩).run db s)
    (he : Eats s t w) : ∃ c, foldCase c = foldCase a ∧ w = [c] := by
  obtain ⟨c, cs, e, f, rfl⟩ := run_lit_ic ht
  exact ⟨c, f, (List.append_cancel_right (show [c] ++ cs = w ++ cs from e.symm.trans he.rest)).symm⟩

theorem space_eats {db : CharDB} {s t : St} {w : Str} (ht : t ∈ (Re.cls ⟨false, true, [.space]⟩).run db s)
    (he : Eats s t w) : ∃ c, isSpace c = true ∧ w = [c] := by
  obtain ⟨c, cs, e, f, rfl⟩ := Re.run_cls ht
  refine ⟨c, ?_, (List.append_cancel_right (show [c] ++ cs = w ++ cs from e.symm.trans he.rest)).symm⟩
  simpa [Cls.test, Item.test] using f

theorem group_run {db : CharDB} {n : Nat} {a : Re} {s t : St} {w : Str} (ht : t ∈ (Re.group n a).run db s) (he : Eats s t w) :
    ∃ v, v ∈ a.run db s ∧ Eats s v w := by
  simp only [Re.run, List.mem_map] at ht
  obtain ⟨v, hv, rfl⟩ := ht
  obtain ⟨w', hw⟩ := Re.run_eats a s v hv
  have : w' = w := by
    have e := hw.rest.symm.trans he.rest
    exact List.append_cancel_right e
  exact ⟨v, hv, this ▸ hw⟩

theorem quote_fold {c : Char} (h : foldCase c = foldCase '\'') : c = '\'' :=
  foldCase_of_not_letter (by decide) (by decide) (h.trans (by decide))

theorem slash_fold {c : Char} (h : foldCase c = foldCase '/') : c = '/' :=
  foldCase_of_not_letter (by decide) (by decide) (h.trans (by decide))

theorem after_dot {c : Char} {w : Str} : ∀ (u v : Str), c ∈ v → w = u ++ '.' :: v → c ∈ w.dropWhile (· ≠ '.')
  | [], v, h, e => by
    subst e
    simp [List.dropWhile, h]
  | d :: u, v, h, e => by
    subst e
    rw [List.cons_append, List.dropWhile_cons]
    split
    · exact after_dot u v h rfl
    · simp [h]

/-- Between white space, a text without white space is a word. -/
theorem word_between {x y w : Str} {a b : Char} (ha : isSpace a = true) (hb : isSpace b = true) (hw : w ≠ [])
    (hc : ∀ c ∈ w, isSpace c = false) : w ∈ splitWs (x ++ a :: (w ++ b :: y)) := by
  rw [splitWs_sep ha, splitWs_sep hb, splitWs_word hc, if_neg hw]
  simp

section
variable {db : CharDB} {text : Str} (h : Spec.Prose text) (hs : '/' ∈ text)
include h hs

theorem search_abbr {w : Str} (hw : w.map Char.toLower ∈ [c!"'n'", c!"'n", c!"n'"]) {a b : Char} (ha : isSpace a = true)
    (hb : isSpace b = true) (x y : Str) : Spec.tidy text ≠ x ++ a :: (w ++ b :: y) := by
  intro e
  have hl : ∀ c ∈ w, c.toLower = '\'' ∨ c.toLower = 'n' := by
    intro c hc
    have : c.toLower ∈ w.map Char.toLower := List.mem_map_of_mem hc
    simp only [List.mem_cons, List.not_mem_nil, or_false] at hw
    rcases hw with e | e | e <;> rw [e] at this <;> simp at this <;> tauto
  have hsp : ∀ c ∈ w, isSpace c = false := by
    intro c hc
    rcases hsc : isSpace c with _ | _
    · rfl
    · exfalso
      have hlow : c.toLower = c := by
        unfold Char.toLower
        rw [dif_neg]
        rintro ⟨h1, h2⟩
        have h1' : 65 ≤ c.toNat := h1
        have h2' : c.toNat ≤ 90 := h2
        simp only [isSpace, Bool.or_eq_true, Bool.and_eq_true, decide_eq_true_eq, beq_iff_eq] at hsc
        omega
      rcases hl c hc with e | e <;> rw [hlow] at e <;> subst e <;> exact absurd hsc (by decide)
  have hne : w ≠ [] := by
    rintro rfl
    simp at hw
  have hmem : w ∈ splitWs (Spec.tidy text) := by
    rw [e]
    exact word_between ha hb hne hsp
  exact (h.slash hs w hmem).2.2 hw

theorem search_quoted : tokProtect[0]?.bind (fun r => r.search db (Spec.tidy text)) = none := by
  rcases hm : tokProtect[0]?.bind (fun r => r.search db (Spec.tidy text)) with _ | m
  · exact hm
  · exfalso
    have hm : Re.search db _ (Spec.tidy text) = some m := hm
    obtain ⟨-, s, t, hrun, he, -, htext⟩ := Re.search_some hm
    obtain ⟨s1, w1, v1, r1, hrun, a1, b1⟩ := Re.run_seq hrun
    obtain ⟨s2, w2, v2, r2, hrun, a2, b2⟩ := Re.run_seq hrun
    obtain ⟨s3, w3, v3, r3, hrun, a3, b3⟩ := Re.run_seq hrun
    obtain ⟨s4, w4, v4, r4, r5, a4, b4⟩ := Re.run_seq hrun
    obtain ⟨x, hx, rfl⟩ := space_eats r1 a1
    obtain ⟨q, hq, rfl⟩ := lit_eats r2 a2
    obtain ⟨n, hn, rfl⟩ := lit_eats r3 a3
    obtain ⟨q', hq', rfl⟩ := lit_eats r4 a4
    obtain ⟨y, hy, rfl⟩ := space_eats r5 b4
    have e := he.uniq (a1.trans (a2.trans (a3.trans (a4.trans b4))))
    rw [e] at htext
    refine search_abbr h hs (w := [q, n, q']) ?_ hx hy s.pre.reverse t.rest (by rw [htext]; simp)
    rw [quote_fold hq, quote_fold hq']
    simp only [List.map_cons, List.map_nil, fold_n (hn.trans (by decide))]
    decide

theorem search_half : tokProtect[1]?.bind (fun r => r.search db (Spec.tidy text)) = none := by
  rcases hm : tokProtect[1]?.bind (fun r => r.search db (Spec.tidy text)) with _ | m
  · exact hm
  · exfalso
    have hm : Re.search db _ (Spec.tidy text) = some m := hm
    obtain ⟨-, s, t, hrun, he, -, htext⟩ := Re.search_some hm
    obtain ⟨s1, w1, v1, r1, hrun, a1, b1⟩ := Re.run_seq hrun
    obtain ⟨s2, w2, v2, r2, r3, a2, b2⟩ := Re.run_seq hrun
    obtain ⟨x, hx, rfl⟩ := space_eats r1 a1
    obtain ⟨y, hy, rfl⟩ := space_eats r3 b2
    obtain ⟨v, hv, a2'⟩ := group_run r2 a2
    have e := he.uniq (a1.trans (a2.trans b2))
    rw [e] at htext
    refine search_abbr h hs (w := w2) ?_ hx hy s.pre.reverse t.rest (by rw [htext]; simp)
    simp only [Re.run.eq_4, List.mem_append] at hv
    rcases hv with hv | hv
    · obtain ⟨s3, w3, v3, r4, r5, a3, b3⟩ := Re.run_seq hv
      obtain ⟨q, hq, rfl⟩ := lit_eats r4 a3
      obtain ⟨n, hn, rfl⟩ := lit_eats r5 b3
      rw [a2'.uniq (a3.trans b3), quote_fold hq]
      simp only [List.map_cons, List.map_nil, List.cons_append, List.nil_append, fold_n (hn.trans (by decide))]
      decide
    · obtain ⟨s3, w3, v3, r4, r5, a3, b3⟩ := Re.run_seq hv
      obtain ⟨n, hn, rfl⟩ := lit_eats r4 a3
      obtain ⟨q, hq, rfl⟩ := lit_eats r5 b3
      rw [a2'.uniq (a3.trans b3), quote_fold hq]
      simp only [List.map_cons, List.map_nil, List.cons_append, List.nil_append, fold_n (hn.trans (by decide))]
      decide

theorem search_scheme : tokProtect[2]?.bind (fun r => r.search db (Spec.tidy text)) = none := by
  obtain ⟨rest, hr⟩ := urlRe_eq
  rw [hr]
  rcases hm : (Re.seq (.group 1 (.alt httpRe wwwRe)) rest).search db (Spec.tidy text) with _ | m
  · exact hm
  · exfalso
    obtain ⟨-, s, t, hrun, he, -, htext⟩ := Re.search_some hm
    obtain ⟨s1, w1, v1, r1, -, a1, b1⟩ := Re.run_seq hrun
    obtain ⟨v, hv, a1'⟩ := group_run r1 a1
    rw [he.uniq (a1.trans b1)] at htext
    simp only [Re.run.eq_4, List.mem_append] at hv
    rcases hv with hv | hv
    · unfold httpRe at hv
      obtain ⟨_, u1, x1, _, hv, c1, _⟩ := Re.run_seq hv
      obtain ⟨_, u2, x2, _, hv, c2, _⟩ := Re.run_seq hv
      obtain ⟨_, u3, x3, _, hv, c3, _⟩ := Re.run_seq hv
      obtain ⟨_, u4, x4, _, hv, c4, _⟩ := Re.run_seq hv
      obtain ⟨_, u5, x5, _, hv, c5, _⟩ := Re.run_seq hv
      obtain ⟨_, u6, x6, _, hv, c6, _⟩ := Re.run_seq hv
      obtain ⟨_, u7, x7, r7, r8, c7, d7⟩ := Re.run_seq hv
      obtain ⟨p, hp, rfl⟩ := lit_eats r7 c7
      obtain ⟨q, hq, rfl⟩ := lit_eats r8 d7
      obtain rfl := slash_fold hp
      obtain rfl := slash_fold hq
      rw [a1'.uniq (c1.trans (c2.trans (c3.trans (c4.trans (c5.trans (c6.trans (c7.trans d7)))))))] at htext
      obtain ⟨w, hw, hi⟩ := infix_word (w := ['/', '/']) (by decide) (by simp) _ (Spec.tidy text) (Nat.le_refl _)
        ⟨s.pre.reverse ++ u1 ++ u2 ++ u3 ++ u4 ++ u5 ++ u6, v1 ++ t.rest, by rw [htext]; simp⟩
      exact (h.slash hs w hw).1 hi
    · obtain ⟨a, b, d, fa, fb, fd, h3⟩ := www_run hv
      rw [a1'.uniq h3] at htext
      have hl : ([a, b, d, '.'] : Str).map Char.toLower = c!"www." := by
        simp only [List.map_cons, List.map_nil, fold_w fa, fold_w fb, fold_w fd]
        rfl
      have hc := www_chars hl
      exact h.www [a, b, d, '.'] hl (infix_tidy_same (fun h => (hc _ h).1 rfl) (fun h => (hc _ h).2.1 rfl) (by simp)
        (fun c h => (hc c h).2.2) ⟨s.pre.reverse, v1 ++ t.rest, by rw [htext]; simp⟩)

theorem search_path : tokProtect[3]?.bind (fun r => r.search db (Spec.tidy text)) = none := by
  rcases hm : tokProtect[3]?.bind (fun r => r.search db (Spec.tidy text)) with _ | m
  · exact hm
  · exfalso
    have hm : Re.search db _ (Spec.tidy text) = some m := hm
    obtain ⟨-, s, t, hrun, he, -, htext⟩ := Re.search_some hm
    obtain ⟨s1, w1, v1, r1, hrun, a1, b1⟩ := Re.run_seq hrun
    obtain ⟨s2, w2, v2, r2, hrun, a2, b2⟩ := Re.run_seq hrun
    obtain ⟨s3, w3, v3, r3, -, a3, b3⟩ := Re.run_seq hrun
    obtain ⟨p, hp, rfl⟩ := lit_eats r3 a3
    obtain rfl := slash_fold hp
    rw [he.uniq (a1.trans (a2.trans (a3.trans b3)))] at htext
    have hk : ∀ c ∈ w2, isSpace c = false := Re.inky_run (by decide) _ _ _ r2 a2
    obtain ⟨d, hd, hd'⟩ := Re.needs_run (p := (· == '.')) _ (by decide) _ _ _ r2 a2
    rw [beq_iff_eq] at hd'
    subst hd'
    obtain ⟨x, y, rfl⟩ := List.append_of_mem hd
    obtain ⟨w, hw, u, v, e⟩ := infix_word (w := '.' :: (y ++ ['/'])) (by
        intro c hc
        simp only [List.mem_cons, List.mem_append, List.not_mem_nil, or_false] at hc
        rcases hc with rfl | hc | rfl
        · decide
        · exact hk c (by simp [hc])
        · decide) (by simp) _ (Spec.tidy text) (Nat.le_refl _)
      ⟨s.pre.reverse ++ w1 ++ x, v3 ++ t.rest, by rw [htext]; simp⟩
    refine (h.slash hs w hw).2.1 (after_dot u (y ++ ['/'] ++ v) (by simp) ?_)
    rw [← e]
    simp

end

theorem protectLoop_none {db : CharDB} {r : Re} {fuel : Nat} {s p : PState} (hn : r.search db s.text = none)
    (h : protectLoop db r fuel s = some p) : p = s := by
  cases fuel with
  | zero => cases h
  | succ fuel =>
    have : protectStep db r s = none := by
      unfold protectStep
      rw [hn]
    rw [protectLoop, this] at h
    exact (Option.some.inj h).symm

theorem protect_slash {db : CharDB} {text : Str} (h : Spec.Prose text) (hs : '/' ∈ text) {fuel : Nat} {p : PState}
    (hp : protectText db fuel (Spec.tidy text) = some p) :
    ∃ r ∈ tokProtect, r.avoids delims = true ∧ protectLoop db r fuel ⟨[], Spec.tidy text, 1⟩ = some p := by
  obtain ⟨r0, r1, r2, r3, r4, hr, h4⟩ : ∃ r0 r1 r2 r3 r4, tokProtect = [r0, r1, r2, r3, r4] ∧ r4.avoids delims = true :=
    ⟨_, _, _, _, _, rfl, by decide⟩
  have n0 : r0.search db (Spec.tidy text) = none := by simpa [hr] using search_quoted (db := db) h hs
  have n1 : r1.search db (Spec.tidy text) = none := by simpa [hr] using search_half (db := db) h hs
  have n2 : r2.search db (Spec.tidy text) = none := by simpa [hr] using search_scheme (db := db) h hs
  have n3 : r3.search db (Spec.tidy text) = none := by simpa [hr] using search_path (db := db) h hs
  refine ⟨r4, by simp [hr], h4, ?_⟩
  unfold protectText at hp
  rw [hr] at hp
  simp only [List.foldlM_cons, List.foldlM_nil, Option.bind_eq_bind, Option.bind_eq_some_iff, Option.pure_def,
    Option.some.injEq] at hp
  obtain ⟨p0, e0, p1, e1, p2, e2, p3, e3, p4, e4, rfl⟩ := hp
  obtain rfl := protectLoop_none n0 e0
  obtain rfl := protectLoop_none n1 e1
  obtain rfl := protectLoop_none n2 e2
  obtain rfl := protectLoop_none n3 e3
  exact e4

theorem tokenize_prose (db : CharDB) {text : Str} (ht : text ≠ []) (h : Spec.Prose text) : ∃ x : Str,
    tokenize db text = splitWs x ∧ '_' ∉ x ∧
    ((∀ w, Spec.Measure db.digit w → ¬ w <:+: text) → ¬ c!"**" <:+: text → Spec.ink x = Spec.ink (Spec.tidy text)) := by
  by_cases hs : '/' ∈ text
  · refine tokenize_of_inv db ht h fun fuel p hp => ?_
    obtain ⟨r, hr, hav, hl⟩ := protect_slash h hs hp
    have hpl := plain_text h.underscore
    refine PInv.loop underscore_delim (by decide) (cleanRe_of_avoids underscore_delim db hav) hr fuel
      ⟨⟨(Spec.tidy text).map U.ch, (encode_ch _).symm, hpl.good [], hpl.sem⟩, by simp⟩ hl
  · exact tokenize_ordinary db ht ⟨h.underscore, h.names, hs, h.www⟩

end Model
