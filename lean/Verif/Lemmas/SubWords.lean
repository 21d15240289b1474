import Verif.Lemmas.PlainWords
import Verif.Lemmas.Words

/-! Substitutions word by word. -/

namespace Py

/-- `re.sub` from a position on. -/
def Re.subGo (db : CharDB) (r : Re) (tpl : List Tp) (pre rest : Str) : Str := r.subFrom db tpl rest.length pre rest

/-- Nothing, or white space next to the position. -/
def AtEdge (t : Str) : Prop := t = [] ∨ ∃ d u, t = d :: u ∧ isSpace d = true

end Py

namespace Model
open Py

variable {db : CharDB} {r : Re} {tpl : List Tp}

theorem sub_eq_go (text : Str) : r.sub db tpl text = r.subGo db tpl [] text := rfl

theorem subGo_nil (pre : Str) : r.subGo db tpl pre [] = [] := rfl

theorem subGo_skip (w : Str) {pre rest : Str}
    (h : ∀ u v, w = u ++ v → v ≠ [] → r.matchAt db (u.reverse ++ pre) (v ++ rest) = none) :
    r.subGo db tpl pre (w ++ rest) = w ++ r.subGo db tpl (w.reverse ++ pre) rest := by
  unfold Re.subGo
  rw [List.length_append]
  exact subFrom_skip _ w pre rest h

theorem subGo_skip_one {c : Char} {pre rest : Str} (h : r.matchAt db pre (c :: rest) = none) :
    r.subGo db tpl pre (c :: rest) = c :: r.subGo db tpl (c :: pre) rest := Re.subFrom_cons_none h

theorem subGo_hit {w pre rest : Str} {t : St} (hw : w ≠ []) (h : r.matchAt db pre (w ++ rest) = some t)
    (hr : t.rest = rest) (hp : t.pre = w.reverse ++ pre) :
    r.subGo db tpl pre (w ++ rest) = expand w t.caps tpl ++ r.subGo db tpl (w.reverse ++ pre) rest := by
  unfold Re.subGo
  obtain ⟨n, hn⟩ : ∃ n, (w ++ rest).length = n + 1 := by
    refine ⟨(w ++ rest).length - 1, ?_⟩
    have := List.length_pos_of_ne_nil hw
    rw [List.length_append]
    omega
  rw [hn, Re.subFrom_some h, hr, hp]
  have hle : rest.length ≤ n := by
    have := List.length_pos_of_ne_nil hw
    rw [List.length_append] at hn
    omega
  rw [subFrom_fuel n rest.length _ rest hle (Nat.le_refl _)]
  congr 2
  simp

/-- What the rule makes of a word between blanks. -/
def OnWord (db : CharDB) (r : Re) (tpl : List Tp) (w o : Str) : Prop :=
  ∀ pre rest, AtEdge pre → AtEdge rest → r.subGo db tpl pre (w ++ rest) = o ++ r.subGo db tpl (w.reverse ++ pre) rest

theorem onWord_self {w : Str} (h : ∀ pre rest u v, AtEdge pre → AtEdge rest → w = u ++ v → v ≠ [] →
    r.matchAt db (u.reverse ++ pre) (v ++ rest) = none) : OnWord db r tpl w w :=
  fun pre rest hp hr => subGo_skip w fun u v => h pre rest u v hp hr

/-- A rule without matches that begin with white space works word by word. -/
theorem sub_words {f : Str → Str} (hblank : ∀ pre c rest, isSpace c = true → r.matchAt db pre (c :: rest) = none) :
    ∀ (n : Nat) (text pre : Str), text.length ≤ n → AtEdge pre → (∀ w ∈ splitWs text, OnWord db r tpl w (f w)) →
      splitWs (r.subGo db tpl pre text) = (splitWs text).flatMap fun w => splitWs (f w)
  | n, [], pre, _, _, _ => by
    rw [subGo_nil]
    rfl
  | 0, c :: t, pre, hn, _, _ => by simp at hn
  | n + 1, c :: t, pre, hn, hp, hw => by
    by_cases hc : isSpace c = true
    · rw [subGo_skip_one (hblank _ _ _ hc)]
      have e : ∀ y, splitWs (c :: y) = splitWs y := fun y => splitWs_spaces_append (u := [c]) y (by simpa using hc)
      rw [e, e] 
      rw [e] at hw
      exact sub_words hblank n t (c :: pre) (by simpa using hn) (.inr ⟨c, pre, rfl, hc⟩) hw
    · have hc' : isSpace c = false := by simpa using hc
      obtain ⟨w, rest, e, hnb, hr⟩ : ∃ w rest, c :: t = w ++ rest ∧ NoBlank w ∧ AtEdge rest := by
        rcases first_word (c :: t) with h | ⟨y, d, b, e, hd, hy⟩
        · exact ⟨c :: t, [], by simp, ⟨by simp, h⟩, .inl rfl⟩
        · refine ⟨y, d :: b, e, ⟨?_, hy⟩, .inr ⟨d, b, rfl, hd⟩⟩
          rintro rfl
          simp only [List.nil_append, List.cons.injEq] at e
          rw [← e.1, hc'] at hd
          cases hd
      rw [e] at hn hw ⊢
      have hpos := List.length_pos_of_ne_nil hnb.1
      rcases hr with rfl | ⟨d, u, rfl, hd⟩
      · rw [List.append_nil] at hw ⊢
        have h1 := splitWs_noBlank_self hnb
        have h2 := hw w (by rw [h1]; simp) pre [] hp (.inl rfl)
        rw [List.append_nil, subGo_nil, List.append_nil] at h2
        rw [h2, h1]
        simp
      · have h1 : splitWs (w ++ d :: u) = w :: splitWs u := by
          rw [splitWs_sep hd, splitWs_noBlank_self hnb]
          rfl
        rw [h1] at hw ⊢
        rw [hw w (by simp) pre (d :: u) hp (.inr ⟨d, u, rfl, hd⟩), subGo_skip_one (hblank _ _ _ hd), splitWs_sep hd,
          sub_words hblank n u _ (by simp at hn; omega) (.inr ⟨d, _, rfl, hd⟩) fun v hv => hw v (by simp [hv])]
        simp

theorem splitWs_sub {f : Str → Str} (hblank : ∀ pre c rest, isSpace c = true → r.matchAt db pre (c :: rest) = none)
    {text : Str} (hw : ∀ w ∈ splitWs text, OnWord db r tpl w (f w)) :
    splitWs (r.sub db tpl text) = (splitWs text).flatMap fun w => splitWs (f w) :=
  sub_words hblank text.length text [] (Nat.le_refl _) (.inl rfl) hw

/-- Where a character that is not a blank stands. -/
theorem word_around {c : Char} (hc : isSpace c = false) (x y : Str) : ∃ A a b B x' y', splitWs (x ++ c :: y) = A ++ (a ++ c :: b) :: B ∧
    x = x' ++ a ∧ y = b ++ y' ∧ AtEdge x'.reverse ∧ AtEdge y' ∧ splitWs y' = B ∧ splitWs x' = A := by
  obtain ⟨b, y', rfl, hb, hy⟩ : ∃ b y', y = b ++ y' ∧ (∀ d ∈ b, isSpace d = false) ∧ AtEdge y' := by
    rcases first_word y with h | ⟨z, d, b, e, hd, hz⟩
    · exact ⟨y, [], by simp, h, .inl rfl⟩
    · exact ⟨z, d :: b, e, hz, .inr ⟨d, b, rfl, hd⟩⟩
  obtain ⟨a, x', rfl, ha, hx⟩ : ∃ a x', x = x' ++ a ∧ (∀ d ∈ a, isSpace d = false) ∧ AtEdge x'.reverse := by
    rcases first_word x.reverse with h | ⟨z, d, b, e, hd, hz⟩
    · exact ⟨x, [], by simp, fun d hd => h d (by simpa using hd), .inl rfl⟩
    · refine ⟨z.reverse, (d :: b).reverse, ?_, fun e he => hz e (by simpa using he), .inr ⟨d, b, by simp, hd⟩⟩
      rw [← List.reverse_append, ← e, List.reverse_reverse]
  have hnb : NoBlank (a ++ c :: b) := by
    refine ⟨by simp, fun d hd => ?_⟩
    rw [List.mem_append, List.mem_cons] at hd
    rcases hd with h | rfl | h
    · exact ha d h
    · exact hc
    · exact hb d h
  refine ⟨splitWs x', a, b, splitWs y', x', y', ?_, rfl, rfl, hx, hy, rfl, rfl⟩
  have h2 : splitWs ((a ++ c :: b) ++ y') = (a ++ c :: b) :: splitWs y' := by
    rcases hy with rfl | ⟨d, u, rfl, hd⟩
    · rw [List.append_nil, splitWs_noBlank_self hnb]
      rfl
    · rw [splitWs_sep hd, splitWs_noBlank_self hnb, show splitWs (d :: u) = splitWs u from
        splitWs_spaces_append (u := [d]) u (by simpa using hd)]
      rfl
  have e : x' ++ a ++ c :: (b ++ y') = x' ++ ((a ++ c :: b) ++ y') := by simp
  rw [e]
  rcases hx with hx | ⟨d, u, hx, hd⟩
  · rw [List.reverse_eq_nil_iff] at hx
    subst hx
    rw [List.nil_append, h2]
    rfl
  · have : x' = u.reverse ++ [d] := by rw [← List.reverse_reverse x', hx]; simp
    subst this
    rw [List.append_assoc, List.singleton_append, splitWs_sep hd, h2]
    congr 1
    have := splitWs_append_spaces u.reverse (u := [d]) (by simpa using hd)
    rw [this]

/-- A character stands in the part of a text that contains it. -/
theorem in_right {α : Type} {d : α} {l1 l2 a y : List α} (h : l1 ++ l2 = a ++ d :: y) (hd : d ∉ l1) :
    ∃ a2, a = l1 ++ a2 ∧ l2 = a2 ++ d :: y := by
  rcases List.append_eq_append_iff.mp h with ⟨a', rfl, e⟩ | ⟨c', rfl, e⟩
  · exact ⟨a', rfl, e⟩
  · cases c' with
    | nil => exact ⟨[], by simp, by simpa using e.symm⟩
    | cons x c' =>
      simp only [List.cons_append, List.cons.injEq] at e
      rw [e.1] at hd
      exact absurd (by simp) hd

theorem in_left {α : Type} {d : α} {l1 l2 a y : List α} (h : l1 ++ l2 = a ++ d :: y) (hd : d ∉ l2) :
    ∃ y1, l1 = a ++ d :: y1 ∧ y = y1 ++ l2 := by
  rcases List.append_eq_append_iff.mp h with ⟨a', rfl, e⟩ | ⟨c', rfl, e⟩
  · rw [e] at hd
    exact absurd (by simp) hd
  · cases c' with
    | nil =>
      simp only [List.nil_append] at e
      rw [← e] at hd
      exact absurd (by simp) hd
    | cons x c' =>
      simp only [List.cons_append, List.cons.injEq] at e
      rw [e.1]
      exact ⟨c', rfl, e.2⟩

end Model
