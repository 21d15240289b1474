import Verif.Lemmas.Tracks

/-! # The tracks of the tokenizer, and rules checked statically -/

namespace Model
open Py

/-! ### Tracks -/

/-- Is the unit a character with `P`? -/
def U.is (P : Char → Bool) : U → Bool
  | .ch c => P c
  | .bk _ => false

/-- Follow the characters with `P`; everything else separates. -/
def Track.on (P : Char → Bool) (h : ∀ c, isSpace c = true → P c = false) : Track where
  p := U.is P
  q u := !U.is P u
  sp c hc := by simp [U.is, h c hc]

theorem not_space_of_mem {l : List Char} (hl : ∀ c ∈ l, isSpace c = false) :
    ∀ c, isSpace c = true → l.contains c = false := by
  intro c hc
  rw [← Bool.not_eq_true, List.contains_iff_mem]
  intro h
  rw [hl c h] at hc
  cases hc

/-- The letters in the names of the symbol blocks that could be taken for a name. -/
def nameLetters : List Char := ['N', 'S', 'D', 'G', 'E', 'L']

def trLetters : Track := .on nameLetters.contains (not_space_of_mem (by decide))

def trStars : Track := .on ['*'].contains (not_space_of_mem (by decide))

/-- Follow the blocks, with the white space around them. -/
def trBlocks : Track where
  p | .bk _ => true | .ch _ => false
  q | .bk _ => false | .ch c => isSpace c
  sp c hc := by simp [hc]

/-- Follow everything but white space. -/
def trSolids : Track where
  p := U.solid
  q _ := true
  sp c hc := by simp [U.solid, hc]

theorem forall₂_split {α β : Type} {R : α → β → Prop} {l : List α} {l1 l2 : List β} (h : List.Forall₂ R l (l1 ++ l2)) :
    ∃ a b, List.Forall₂ R a l1 ∧ List.Forall₂ R b l2 ∧ l = a ++ b :=
  ⟨_, _, List.forall₂_take_append l l1 l2 h, List.forall₂_drop_append l l1 l2 h, (List.take_append_drop _ l).symm⟩

section
variable {P : Char → Bool} {hP : ∀ c, isSpace c = true → P c = false}

theorem on_q (u : U) : (Track.on P hP).q u = !(Track.on P hP).p u := rfl

theorem on_prefix : ∀ (l : List (U × Bool × Bool)) (x : Bool) (a : List U) (l3 : List (U × Bool × Bool)),
    (Track.on P hP).g x a true = l ++ l3 → (∀ i, i + 1 < l.length → ∀ e, l[i]? = some e → e.2.2 = false) →
    (Track.on P hP).s a true = false → l ≠ [] → l.map Prod.fst <+: a
  | [], _, _, _, _, _, _, h => absurd rfl h
  | e :: l, x, a, l3, hg, hf, hs, _ => by
    cases a with
    | nil => simp [Track.s] at hs
    | cons v a =>
      have hq : (Track.on P hP).q v = false := hs
      have hp : (Track.on P hP).p v = true := by rw [on_q] at hq; simpa using hq
      rw [Track.g, if_pos hp, List.cons_append, List.cons.injEq] at hg
      obtain ⟨rfl, hg⟩ := hg
      rw [List.map_cons, List.cons_prefix_cons]
      refine ⟨rfl, ?_⟩
      by_cases hl : l = []
      · subst hl; simp
      · refine on_prefix l _ a l3 hg ?_ ?_ hl
        · intro i hi e he
          exact hf (i + 1) (by simpa using hi) e (by simpa using he)
        · exact hf 0 (by simpa using List.length_pos_of_ne_nil hl) _ rfl

theorem on_skip : ∀ (a : List U) (x : Bool) (l1 l : List (U × Bool × Bool)),
    (Track.on P hP).g x a true = l1 ++ l → l ≠ [] →
    ∃ a0 a1 x', a = a0 ++ a1 ∧ (Track.on P hP).g x' a1 true = l ∧ (Track.on P hP).s a1 true = false
  | [], x, l1, l, h, hl => by simp [Track.g] at h; exact absurd h.2 hl
  | v :: a, x, l1, l, h, hl => by
    by_cases hp : (Track.on P hP).p v = true
    · cases l1 with
      | nil =>
        refine ⟨[], v :: a, x, rfl, by simpa using h, ?_⟩
        show (Track.on P hP).q v = false
        rw [on_q, hp]
        rfl
      | cons e l1 =>
        rw [Track.g, if_pos hp, List.cons_append, List.cons.injEq] at h
        obtain ⟨a0, a1, x', h1, h2, h3⟩ := on_skip a _ l1 l h.2 hl
        exact ⟨v :: a0, a1, x', by rw [h1]; rfl, h2, h3⟩
    · rw [Track.g, if_neg hp] at h
      obtain ⟨a0, a1, x', h1, h2, h3⟩ := on_skip a _ l1 l h hl
      exact ⟨v :: a0, a1, x', by rw [h1]; rfl, h2, h3⟩

theorem on_g_word : ∀ (w : Str) (x y : Bool), (∀ c ∈ w, P c = true) →
    ((Track.on P hP).g x (w.map U.ch) y).map Prod.fst = w.map U.ch ∧
    ∀ i, i + 1 < w.length → ∀ e, ((Track.on P hP).g x (w.map U.ch) y)[i]? = some e → e.2.2 = false
  | [], _, _, _ => by simp [Track.g]
  | c :: w, x, y, h => by
    have hp : (Track.on P hP).p (.ch c) = true := h c (by simp)
    obtain ⟨h1, h2⟩ := on_g_word w ((Track.on P hP).q (.ch c)) y fun d hd => h d (by simp [hd])
    simp only [List.map_cons, Track.g, if_pos hp]
    refine ⟨by rw [h1], ?_⟩
    intro i hi e he
    cases i with
    | succ i => exact h2 i (by simpa using hi) e (by simpa using he)
    | zero =>
      simp only [List.getElem?_cons_zero, Option.some.injEq] at he
      subst he
      cases w with
      | nil => simp at hi
      | cons d w =>
        have hp : (Track.on P hP).p (.ch d) = true := h d (by simp)
        show (Track.on P hP).q (.ch d) = false
        rw [on_q, hp]
        rfl

/-- Followed characters that are next to each other were so before. -/
theorem LeT.infix {a b : List U} (h : LeT (Track.on P hP) a b) {w : Str} (hw : ∀ c ∈ w, P c = true)
    (hb : w.map U.ch <:+: b) : w.map U.ch <:+: a := by
  by_cases hne : w = []
  · subst hne; exact List.nil_infix
  obtain ⟨b1, b3, rfl⟩ := hb
  unfold LeT at h
  rw [Track.g_append, Track.g_append, List.append_assoc] at h
  obtain ⟨l1, l23, h1, h23, e⟩ := forall₂_split h
  obtain ⟨l2, l3, h2, h3, rfl⟩ := forall₂_split h23
  have hfst : ∀ {l l' : List (U × Bool × Bool)}, List.Forall₂ Kept l l' → l.map Prod.fst = l'.map Prod.fst := by
    intro l l' h
    induction h with
    | nil => rfl
    | cons h _ ih => simp [h.1, ih]
  have hl2 : l2.map Prod.fst = w.map U.ch := by rw [hfst h2]; exact (on_g_word w _ _ hw).1
  have hlen : l2.length = w.length := by simpa using congrArg List.length hl2
  have hl2ne : l2 ≠ [] := by
    rintro rfl
    simp at hlen
    exact hne (List.length_eq_zero_iff.mp hlen.symm)
  obtain ⟨a0, a1, x', ea, hga, hsa⟩ := on_skip a true l1 (l2 ++ l3) e (by simp [hl2ne])
  have := on_prefix l2 x' a1 l3 hga ?_ hsa hl2ne
  · rw [hl2] at this
    obtain ⟨r, hr⟩ := this
    exact ⟨a0, r, by rw [ea, ← hr, List.append_assoc]⟩
  · intro i hi e he
    obtain ⟨hlen2, hget⟩ := List.forall₂_iff_get.mp h2
    rw [List.getElem?_eq_some_iff] at he
    obtain ⟨hi', rfl⟩ := he
    have hk := hget i hi' (by omega)
    have hb := (on_g_word (hP := hP) w ((Track.on P hP).e true b1) ((Track.on P hP).s b3 true) hw).2 i (by omega) _
      (List.getElem?_eq_getElem (hlen2 ▸ hi'))
    rcases hx : (l2[i]).2.2 with _ | _
    · rfl
    · have h4 := hk.2.2 hx
      rw [List.get_eq_getElem] at h4
      exact absurd (h4.symm.trans hb) (by decide)
end

theorem LeT.solids {a b : List U} (h : LeT trSolids a b) : solids a = solids b := by
  have key : ∀ (a : List U) x y, (trSolids.g x a y).map Prod.fst = Model.solids a := by
    intro a
    induction a with
    | nil => intros; rfl
    | cons u a ih =>
      intro x y
      simp only [Track.g, Model.solids, List.filter_cons]
      have : trSolids.p u = u.solid := rfl
      rw [this]
      split
      · rw [List.map_cons, ih]; rfl
      · rw [ih]; rfl
  rw [← key a true true, ← key b true true]
  unfold LeT at h
  generalize trSolids.g true a true = l at h
  generalize trSolids.g true b true = l' at h
  induction h with
  | nil => rfl
  | cons h _ ih => simp [h.1, ih]

end Model
