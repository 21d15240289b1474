import Verif.Lemmas.SentPlain
import Verif.Lemmas.Segments

/-! Pilcrows after full stops in quotation marks. -/

namespace Model
open Py

variable {db : CharDB}

/-- A pilcrow after every full stop with a quotation mark. -/
def pil : Str → Str
  | [] => []
  | [c] => [c]
  | c :: d :: t => if c = '.' ∧ d = '"' then c :: d :: '¶' :: pil t else c :: pil (d :: t)

theorem pil_hit (t : Str) : pil ('.' :: '"' :: t) = '.' :: '"' :: '¶' :: pil t := by
  rw [pil, if_pos ⟨rfl, rfl⟩]

theorem pil_skip {c : Char} {t : Str} (h : c = '.' → t.head? ≠ some '"') : pil (c :: t) = c :: pil t := by
  cases t with
  | nil => rfl
  | cons d t => rw [pil, if_neg fun ⟨h1, h2⟩ => h h1 (by rw [h2]; rfl)]

theorem sent_sub (db : CharDB) (t : Str) : subAll db sentSanitization t = pil t := by
  have hr : (re% r#"\.""#) = lits c!".\"" := rfl
  refine Re.sub_induct (P := fun _ rest out => out = pil rest) (fun _ => rfl) ?_ ?_ t
  · intro pre c cs out hn h
    rw [h, pil_skip]
    rintro rfl he
    cases cs with
    | nil => cases he
    | cons d cs =>
      cases he
      unfold Re.matchAt at hn
      rw [hr, lits_run, if_pos (by rw [List.isPrefixOf_iff_prefix]; exact ⟨cs, rfl⟩)] at hn
      simp only [List.head?_cons, List.length_drop, List.length_cons, List.length_nil] at hn
      rw [if_pos (by omega)] at hn
      cases hn
  · intro pre w u out _ hu hw he h
    have hlit : w = c!".\"" := by
      rw [hr, lits_run] at hu
      split at hu
      · rename_i hp
        rw [List.mem_singleton] at hu
        obtain ⟨rest, hrest⟩ := List.isPrefixOf_iff_prefix.mp hp
        have h1 : u.rest = (w ++ u.rest).drop 2 := congrArg St.rest hu
        have h2 : w.length = 2 := by
          have := congrArg List.length h1
          have h3 : 2 ≤ (w ++ u.rest).length := by
            have := congrArg List.length hrest
            simp at this ⊢
            omega
          simp at this h3
          omega
        have h3 : c!".\"" <+: w ++ u.rest := ⟨rest, hrest⟩
        have h4 := List.prefix_of_prefix_length_le h3 (List.prefix_append w u.rest) (by simp [h2])
        exact (h4.eq_of_length (by simp [h2])).symm
      · cases hu
    subst hlit
    show _ = pil ('.' :: '"' :: u.rest)
    rw [pil_hit, ← h]
    rfl

theorem pil_append {a b : Str} (h : a.getLast? = some '.' → b.head? ≠ some '"') : pil (a ++ b) = pil a ++ pil b := by
  induction a using pil.induct with
  | case1 => rfl
  | case2 c =>
    rw [List.singleton_append, pil_skip]
    · rfl
    · rintro rfl
      exact h rfl
  | case3 c d t hc ih =>
    obtain ⟨rfl, rfl⟩ := hc
    rw [List.cons_append, List.cons_append, pil_hit, pil_hit, ih]
    · rfl
    · intro he
      apply h
      cases t with
      | nil => cases he
      | cons e t => simpa using he
  | case4 c d t hc ih =>
    have hs : c = '.' → d ≠ '"' := fun h1 h2 => hc ⟨h1, h2⟩
    rw [List.cons_append, pil_skip, pil_skip, ih]
    · rfl
    · intro he
      apply h
      simpa using he
    · intro h1
      simpa using hs h1
    · intro h1
      simpa using hs h1

theorem pil_self {a : Str} (h : '"' ∉ a) : pil a = a := by
  induction a using pil.induct with
  | case1 => rfl
  | case2 c => rfl
  | case3 c d t hc ih => exact absurd (by simp [hc.2]) h
  | case4 c d t hc ih =>
    rw [pil, if_neg hc, ih]
    intro hm
    exact h (by simp at hm ⊢; tauto)

theorem pil_sep {a b : Str} {d : Char} (hd : isSpace d = true) : pil (a ++ d :: b) = pil a ++ d :: pil b := by
  have h1 : d ≠ '"' := by
    rintro rfl
    exact absurd hd (by decide)
  have h2 : d ≠ '.' := by
    rintro rfl
    exact absurd hd (by decide)
  rw [pil_append (fun _ => by simpa using h1), pil_skip fun h => absurd h h2]

/-- Words joined by single blanks. -/
def Tidy (t : Str) : Prop := ∃ W : List Str, W ≠ [] ∧ (∀ w ∈ W, NoBlank w) ∧ t = List.intercalate c!" " W

theorem Tidy.join {t : Str} (h : Tidy t) : join c!" " (splitWs t) = t := by
  obtain ⟨W, -, h2, rfl⟩ := h
  rw [← join_eq_intercalate, splitWs_join _ h2]

theorem Tidy.ne {t : Str} (h : Tidy t) : t ≠ [] := by
  obtain ⟨W, h1, h2, rfl⟩ := h
  intro e
  have := splitWs_join W h2
  rw [join_eq_intercalate, e] at this
  exact h1 this.symm

theorem intercalate_cons {x : Str} {xs : List Str} (h : xs ≠ []) :
    List.intercalate c!" " (x :: xs) = x ++ ' ' :: List.intercalate c!" " xs := by
  cases xs with
  | nil => exact absurd rfl h
  | cons y ys =>
    rw [← join_eq_intercalate, ← join_eq_intercalate, join]
    simp

theorem intercalate_append {xs ys : List Str} (hx : xs ≠ []) (hy : ys ≠ []) :
    List.intercalate c!" " (xs ++ ys) = List.intercalate c!" " xs ++ ' ' :: List.intercalate c!" " ys := by
  induction xs with
  | nil => exact absurd rfl hx
  | cons x xs ih =>
    by_cases h : xs = []
    · subst h
      rw [List.singleton_append, intercalate_cons hy]
      simp [List.intercalate]
    · rw [List.cons_append, intercalate_cons (by simp [h]), intercalate_cons h, ih h]
      simp

theorem Tidy.word {w : Str} (h : NoBlank w) : Tidy w := ⟨[w], by simp, by simpa using h, by simp [List.intercalate]⟩

theorem Tidy.cons {t : Str} (h : Tidy t) {c : Char} (hc : isSpace c = false) : Tidy (c :: t) := by
  obtain ⟨W, h1, h2, rfl⟩ := h
  obtain ⟨w, W, rfl⟩ := List.exists_cons_of_ne_nil h1
  refine ⟨(c :: w) :: W, by simp, ?_, ?_⟩
  · intro v hv
    rcases List.mem_cons.mp hv with rfl | hv
    · exact ⟨by simp, fun d hd => by rcases List.mem_cons.mp hd with rfl | hd; exacts [hc, (h2 w (by simp)).2 d hd]⟩
    · exact h2 v (by simp [hv])
  · by_cases hW : W = []
    · subst hW; simp [List.intercalate]
    · rw [intercalate_cons hW, intercalate_cons hW]
      rfl

theorem Tidy.append {t : Str} (h : Tidy t) {s : Str} (hs : ∀ c ∈ s, isSpace c = false) : Tidy (t ++ s) := by
  obtain ⟨W, h1, h2, rfl⟩ := h
  obtain ⟨V, w, rfl⟩ := List.eq_nil_or_concat W |>.resolve_left h1
  rw [List.concat_eq_append] at h2 ⊢
  refine ⟨V ++ [w ++ s], by simp, ?_, ?_⟩
  · intro v hv
    rcases List.mem_append.mp hv with hv | hv
    · exact h2 v (by simp [hv])
    · obtain rfl := List.mem_singleton.mp hv
      have := h2 w (by simp)
      exact ⟨by simp [this.1], fun c hc => by rcases List.mem_append.mp hc with hc | hc; exacts [this.2 c hc, hs c hc]⟩
  · by_cases hV : V = []
    · subst hV; simp [List.intercalate]
    · rw [intercalate_append hV (by simp), intercalate_append hV (by simp)]
      simp [List.intercalate]

theorem Tidy.intercalate {ts : List Str} (hne : ts ≠ []) (h : ∀ t ∈ ts, Tidy t) : Tidy (List.intercalate c!" " ts) := by
  induction ts with
  | nil => exact absurd rfl hne
  | cons t ts ih =>
    have ht := h t (by simp)
    by_cases hts : ts = []
    · subst hts
      simpa [List.intercalate] using ht
    · obtain ⟨V, k1, k2, k3⟩ := ih hts fun u hu => h u (by simp [hu])
      obtain ⟨W, h1, h2, rfl⟩ := ht
      rw [intercalate_cons hts, k3]
      refine ⟨W ++ V, by simp [h1], ?_, by rw [intercalate_append h1 k1]⟩
      intro w hw
      rcases List.mem_append.mp hw with hw | hw
      · exact h2 w hw
      · exact k2 w hw

theorem pil_intercalate (ts : List Str) : pil (List.intercalate c!" " ts) = List.intercalate c!" " (ts.map pil) := by
  induction ts with
  | nil => rfl
  | cons t ts ih =>
    by_cases hts : ts = []
    · subst hts
      simp [List.intercalate]
    · rw [intercalate_cons hts, pil_sep (by decide), ih, List.map_cons, intercalate_cons (by simpa using hts)]

/-- The sanitized line. -/
theorem sent_sanitize (db : CharDB) {line t : Str} (h : splitWs line = splitWs t) (ht : Tidy (pil t)) :
    sanitize db sentSanitization line = pil t := by
  unfold sanitize
  have hw : ∀ u, splitWs (pil u) = (splitWs u).flatMap fun w => splitWs (pil w) := fun u =>
    splitWs_rewrite rfl (fun a d b hd => pil_sep hd) u.length u (Nat.le_refl _)
  rw [sent_sub, hw, splitWs_strip, h, ← hw, ht.join]

end Model
