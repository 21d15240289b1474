import Verif.Py.Regex
import Mathlib.Data.List.Basic
import Mathlib.Tactic.Common
import Mathlib.Tactic.Set

/-! Lemmas about the matcher of `Verif/Py/Regex.lean`. -/

namespace Py

/-- The state `t` is reached from `s` by consuming `w`; the groups closed on the way are parts of `w`. -/
structure Eats (s t : St) (w : Str) : Prop where
  rest : s.rest = w ++ t.rest
  pre : t.pre = w.reverse ++ s.pre
  caps : ∃ new, t.caps = new ++ s.caps ∧ ∀ p ∈ new, p.2 <:+: w

theorem Eats.refl (s : St) : Eats s s [] := ⟨rfl, rfl, [], rfl, by simp⟩

theorem Eats.trans {s t u : St} {w v : Str} (h1 : Eats s t w) (h2 : Eats t u v) : Eats s u (w ++ v) := by
  obtain ⟨n1, e1, p1⟩ := h1.caps
  obtain ⟨n2, e2, p2⟩ := h2.caps
  refine ⟨by rw [h1.rest, h2.rest, List.append_assoc], by rw [h2.pre, h1.pre]; simp, n2 ++ n1, by rw [e2, e1]; simp, ?_⟩
  intro p hp
  rcases List.mem_append.mp hp with h | h
  · exact (p2 p h).trans ((List.suffix_append w v).isInfix)
  · exact (p1 p h).trans ((List.prefix_append w v).isInfix)

theorem times_eats {f : St → List St} (hf : ∀ s t, t ∈ f s → ∃ w, Eats s t w) (n : Nat) (s t : St)
    (h : t ∈ times f n s) : ∃ w, Eats s t w := by
  induction n generalizing s with
  | zero =>
    simp only [times, List.mem_singleton] at h
    subst h
    exact ⟨[], .refl t⟩
  | succ n ih =>
    simp only [times, List.mem_flatMap] at h
    obtain ⟨u, hu, h⟩ := h
    obtain ⟨w, hw⟩ := hf s u hu
    obtain ⟨v, hv⟩ := ih u h
    exact ⟨w ++ v, hw.trans hv⟩

theorem mem_many {f : St → List St} {g : Bool} {n : Nat} {s t : St} (h : t ∈ many f g (n + 1) s) :
    t = s ∨ ∃ u ∈ f s, u.rest.length < s.rest.length ∧ t ∈ many f g n u := by
  unfold many at h
  cases g <;> simp only [if_true, if_false, Bool.false_eq_true, List.mem_append, List.mem_cons, List.mem_flatMap,
    List.mem_filter, List.not_mem_nil, or_false, decide_eq_true_eq] at h
  · rcases h with h | ⟨u, ⟨hu, hl⟩, h⟩
    · exact .inl h
    · exact .inr ⟨u, hu, hl, h⟩
  · rcases h with ⟨u, ⟨hu, hl⟩, h⟩ | h
    · exact .inr ⟨u, hu, hl, h⟩
    · exact .inl h

theorem many_eats {f : St → List St} (hf : ∀ s t, t ∈ f s → ∃ w, Eats s t w) (g : Bool) (n : Nat) (s t : St)
    (h : t ∈ many f g n s) : ∃ w, Eats s t w := by
  induction n generalizing s with
  | zero =>
    simp only [many, List.mem_singleton] at h
    subst h
    exact ⟨[], .refl t⟩
  | succ n ih =>
    rcases mem_many h with rfl | ⟨u, hu, -, h⟩
    · exact ⟨[], .refl t⟩
    · obtain ⟨w, hw⟩ := hf s u hu
      obtain ⟨v, hv⟩ := ih u h
      exact ⟨w ++ v, hw.trans hv⟩

theorem Re.run_cls {db : CharDB} {k : Cls} {s t : St} (h : t ∈ (Re.cls k).run db s) :
    ∃ c cs, s.rest = c :: cs ∧ k.test db c = true ∧ t = ⟨c :: s.pre, cs, s.caps⟩ := by
  unfold Re.run at h
  rcases hs : s.rest with _ | ⟨c, cs⟩
  · rw [hs] at h; simp at h
  · rw [hs] at h
    simp only at h
    split at h
    · rename_i hk
      exact ⟨c, cs, rfl, hk, by simpa using h⟩
    · simp at h

/-- Zero-width patterns leave the state as it is. -/
theorem Re.run_zero {db : CharDB} {r : Re} {s t : St} (hz : match r with
    | .eps | .bos | .eos | .wordB | .ahead _ _ | .behind _ _ => True
    | _ => False) (h : t ∈ r.run db s) : t = s := by
  cases r <;> simp only at hz <;> unfold Re.run at h
  · simpa using h
  all_goals
    try simp only at h
    split at h <;> simp at h <;> exact h

/-- Matching consumes a prefix of the text after the position. -/
theorem Re.run_eats {db : CharDB} (r : Re) : ∀ s t : St, t ∈ r.run db s → ∃ w, Eats s t w := by
  induction r with
  | eps => intro s t h; exact ⟨[], Re.run_zero (by trivial) h ▸ .refl s⟩
  | bos => intro s t h; exact ⟨[], Re.run_zero (by trivial) h ▸ .refl s⟩
  | eos => intro s t h; exact ⟨[], Re.run_zero (by trivial) h ▸ .refl s⟩
  | wordB => intro s t h; exact ⟨[], Re.run_zero (by trivial) h ▸ .refl s⟩
  | ahead n a _ => intro s t h; exact ⟨[], Re.run_zero (by trivial) h ▸ .refl s⟩
  | behind n a _ => intro s t h; exact ⟨[], Re.run_zero (by trivial) h ▸ .refl s⟩
  | cls k =>
    intro s t h
    obtain ⟨c, cs, hs, -, rfl⟩ := Re.run_cls h
    exact ⟨[c], by simpa using hs, by simp, [], rfl, by simp⟩
  | seq a b iha ihb =>
    intro s t h
    simp only [Re.run, List.mem_flatMap] at h
    obtain ⟨u, hu, h⟩ := h
    obtain ⟨w, hw⟩ := iha s u hu
    obtain ⟨v, hv⟩ := ihb u t h
    exact ⟨w ++ v, hw.trans hv⟩
  | alt a b iha ihb =>
    intro s t h
    simp only [Re.run, List.mem_append] at h
    exact h.elim (iha s t) (ihb s t)
  | rep n g a iha =>
    intro s t h
    simp only [Re.run, List.mem_flatMap] at h
    obtain ⟨u, hu, h⟩ := h
    obtain ⟨w, hw⟩ := times_eats iha n s u hu
    obtain ⟨v, hv⟩ := many_eats iha g _ u t h
    exact ⟨w ++ v, hw.trans hv⟩
  | group n a iha =>
    intro s t h
    simp only [Re.run, List.mem_map] at h
    obtain ⟨u, hu, rfl⟩ := h
    obtain ⟨w, hw⟩ := iha s u hu
    refine ⟨w, hw.rest, hw.pre, ?_⟩
    obtain ⟨new, e, p⟩ := hw.caps
    refine ⟨(n, s.rest.take (s.rest.length - u.rest.length)) :: new, by rw [e]; rfl, ?_⟩
    intro q hq
    rcases List.mem_cons.mp hq with rfl | hq
    · have : s.rest.take (s.rest.length - u.rest.length) = w := by rw [hw.rest]; simp
      rw [this]
      exact List.infix_rfl
    · exact p q hq

/-- What was consumed is determined by the two states. -/
theorem Eats.word {s t : St} {w : Str} (h : Eats s t w) : s.rest.take (s.rest.length - t.rest.length) = w := by
  rw [h.rest]; simp

theorem Eats.uniq {s t : St} {w v : Str} (h : Eats s t w) (h' : Eats s t v) : w = v := by
  rw [← h.word, ← h'.word]

/-- Property of the consumed text, by rules for the constructors. -/
theorem Re.run_seq {db : CharDB} {a b : Re} {s t : St} (h : t ∈ (Re.seq a b).run db s) :
    ∃ u w v, u ∈ a.run db s ∧ t ∈ b.run db u ∧ Eats s u w ∧ Eats u t v := by
  simp only [Re.run, List.mem_flatMap] at h
  obtain ⟨u, hu, h⟩ := h
  obtain ⟨w, hw⟩ := a.run_eats s u hu
  obtain ⟨v, hv⟩ := b.run_eats u t h
  exact ⟨u, w, v, hu, h, hw, hv⟩

/-- A match is at least `minLen` characters long. -/
theorem Re.run_minLen {db : CharDB} (r : Re) : ∀ s t : St, t ∈ r.run db s → r.minLen + t.rest.length ≤ s.rest.length := by
  have eats : ∀ (r : Re) (s t : St), t ∈ r.run db s → t.rest.length ≤ s.rest.length := fun r s t h => by
    obtain ⟨w, hw⟩ := r.run_eats s t h
    rw [hw.rest]
    simp
  induction r with
  | eps | bos | eos | wordB | ahead | behind =>
    intro s t h
    have := eats _ s t h
    simpa [Re.minLen] using this
  | cls k =>
    intro s t h
    obtain ⟨c, cs, hs, -, rfl⟩ := Re.run_cls h
    rw [hs]
    simp [Re.minLen, Nat.add_comm]
  | seq a b iha ihb =>
    intro s t h
    simp only [Re.run, List.mem_flatMap] at h
    obtain ⟨u, hu, h⟩ := h
    have h1 := iha s u hu
    have h2 := ihb u t h
    simp only [Re.minLen]
    omega
  | alt a b iha ihb =>
    intro s t h
    simp only [Re.run, List.mem_append] at h
    simp only [Re.minLen]
    rcases h with h | h
    · have := iha s t h; omega
    · have := ihb s t h; omega
  | group n a iha =>
    intro s t h
    simp only [Re.run, List.mem_map] at h
    obtain ⟨u, hu, rfl⟩ := h
    exact iha s u hu
  | rep n g a iha =>
    intro s t h
    simp only [Re.run, List.mem_flatMap] at h
    obtain ⟨u, hu, h⟩ := h
    obtain ⟨v, hv⟩ := many_eats a.run_eats g _ u t h
    have h2 : t.rest.length ≤ u.rest.length := by rw [hv.rest]; simp
    have h1 : n * a.minLen + u.rest.length ≤ s.rest.length := by
      clear h hv h2
      induction n generalizing s with
      | zero =>
        simp only [times, List.mem_singleton] at hu
        subst hu
        simp
      | succ n ih =>
        simp only [times, List.mem_flatMap] at hu
        obtain ⟨x, hx, hu⟩ := hu
        have := ih x hu
        have := iha s x hx
        rw [Nat.succ_mul]
        omega
    simp only [Re.minLen]
    omega

/-! ### Matches, search and substitution -/

/-- For a pattern that consumes something, the head of the list of successes is the match: no empty match is skipped. -/
theorem Re.matchAt_eq_head {db : CharDB} {r : Re} (h : 0 < r.minLen) (pre rest : Str) :
    r.matchAt db pre rest = (r.run db ⟨pre, rest, []⟩).head? := by
  unfold Re.matchAt
  split
  · rename_i t ht
    have := r.run_minLen _ _ (List.mem_of_mem_head? (Option.mem_def.mpr ht))
    simp only at this
    rw [if_pos (by omega), ht]
  · rename_i ht
    rw [ht]

theorem Re.matchAt_some {db : CharDB} {r : Re} {pre rest : Str} {t : St} (h : r.matchAt db pre rest = some t) :
    t ∈ r.run db ⟨pre, rest, []⟩ ∧ ∃ w, w ≠ [] ∧ Eats ⟨pre, rest, []⟩ t w := by
  unfold Re.matchAt at h
  split at h
  · rename_i u hu
    split at h
    · rename_i hl
      have hm := List.mem_of_mem_head? (Option.mem_def.mpr hu)
      obtain rfl : u = t := by simpa using h
      obtain ⟨w, hw⟩ := r.run_eats _ _ hm
      refine ⟨hm, w, ?_, hw⟩
      rintro rfl
      have := hw.rest
      simp only [List.nil_append] at this
      rw [this] at hl
      exact absurd hl (Nat.lt_irrefl _)
    · simp at h
  · simp at h

/-- Without any success there is no match. -/
theorem Re.matchAt_nil {db : CharDB} {r : Re} {pre rest : Str} (h : r.run db ⟨pre, rest, []⟩ = []) :
    r.matchAt db pre rest = none := by
  unfold Re.matchAt
  rw [h]
  rfl

theorem Re.matchAt_eq_some {db : CharDB} {r : Re} {pre rest : Str} {t : St} {l : List St}
    (h : r.run db ⟨pre, rest, []⟩ = t :: l) (hl : t.rest.length < rest.length) : r.matchAt db pre rest = some t := by
  unfold Re.matchAt
  rw [h]
  simp only [List.head?_cons, if_pos hl]

theorem Re.subFrom_cons_none {db : CharDB} {r : Re} {tpl : List Tp} {n : Nat} {pre : Str} {c : Char} {cs : Str}
    (h : r.matchAt db pre (c :: cs) = none) :
    r.subFrom db tpl (n + 1) pre (c :: cs) = c :: r.subFrom db tpl n (c :: pre) cs := by
  rw [Re.subFrom.eq_def]
  simp only [h]

theorem Re.subFrom_some {db : CharDB} {r : Re} {tpl : List Tp} {n : Nat} {pre rest : Str} {t : St}
    (h : r.matchAt db pre rest = some t) :
    r.subFrom db tpl (n + 1) pre rest =
      expand (rest.take (rest.length - t.rest.length)) t.caps tpl ++ r.subFrom db tpl n t.pre t.rest := by
  rw [Re.subFrom.eq_def]
  simp only [h]

/-- Induction along `re.sub`. -/
theorem Re.subFrom_induct {db : CharDB} {r : Re} {tpl : List Tp} {P : Str → Str → Str → Prop}
    (hnil : ∀ pre, P pre [] [])
    (hskip : ∀ pre c cs out, r.matchAt db pre (c :: cs) = none → P (c :: pre) cs out → P pre (c :: cs) (c :: out))
    (hmatch : ∀ pre w t out, r.matchAt db pre (w ++ t.rest) = some t → t ∈ r.run db ⟨pre, w ++ t.rest, []⟩ → w ≠ [] →
      Eats ⟨pre, w ++ t.rest, []⟩ t w → P t.pre t.rest out → P pre (w ++ t.rest) (expand w t.caps tpl ++ out))
    (n : Nat) (pre rest : Str) (hn : rest.length ≤ n) : P pre rest (r.subFrom db tpl n pre rest) := by
  induction n generalizing pre rest with
  | zero =>
    obtain rfl : rest = [] := List.length_eq_zero_iff.mp (by omega)
    simpa [Re.subFrom] using hnil pre
  | succ n ih =>
    unfold Re.subFrom
    rcases hm : r.matchAt db pre rest with _ | t
    · simp only
      cases rest with
      | nil => simpa using hnil pre
      | cons c cs => exact hskip pre c cs _ hm (ih _ _ (by simpa using hn))
    · obtain ⟨ht, w, hw, he⟩ := Re.matchAt_some hm
      simp only
      have e : rest = w ++ t.rest := he.rest
      have e2 : rest.take (rest.length - t.rest.length) = w := he.word
      rw [e2]
      have hl : t.rest.length ≤ n := by
        have := congrArg List.length e
        have hw' := List.length_pos_of_ne_nil hw
        simp at this
        omega
      have := ih t.pre t.rest hl
      generalize r.subFrom db tpl n t.pre t.rest = out at this
      subst e
      exact hmatch pre w t out hm ht hw he this

theorem Re.sub_induct {db : CharDB} {r : Re} {tpl : List Tp} {P : Str → Str → Str → Prop}
    (hnil : ∀ pre, P pre [] [])
    (hskip : ∀ pre c cs out, r.matchAt db pre (c :: cs) = none → P (c :: pre) cs out → P pre (c :: cs) (c :: out))
    (hmatch : ∀ pre w t out, r.matchAt db pre (w ++ t.rest) = some t → t ∈ r.run db ⟨pre, w ++ t.rest, []⟩ → w ≠ [] →
      Eats ⟨pre, w ++ t.rest, []⟩ t w → P t.pre t.rest out → P pre (w ++ t.rest) (expand w t.caps tpl ++ out))
    (text : Str) : P [] text (r.sub db tpl text) :=
  Re.subFrom_induct hnil hskip hmatch _ _ _ (Nat.le_refl _)

theorem capText_mem {caps : List (Nat × Str)} {n : Nat} {c : Char} (h : c ∈ capText caps n) :
    ∃ p ∈ caps, c ∈ p.2 := by
  unfold capText at h
  rcases hf : caps.find? (fun p => p.1 == n) with _ | p
  · rw [hf] at h; simp at h
  · rw [hf] at h
    exact ⟨p, List.mem_of_find?_eq_some hf, by simpa using h⟩

/-- Characters of a replacement come from the match or from the replacement text. -/
theorem expand_mem {w : Str} {caps : List (Nat × Str)} {tpl : List Tp} {c : Char} (hc : ∀ p ∈ caps, p.2 <:+: w)
    (h : c ∈ expand w caps tpl) : c ∈ w ∨ Tp.lit c ∈ tpl := by
  unfold expand at h
  rw [List.mem_flatMap] at h
  obtain ⟨x, hx, h⟩ := h
  cases x with
  | lit d =>
    simp only [List.mem_singleton] at h
    subst h
    exact .inr hx
  | ref n =>
    simp only at h
    split at h
    · exact .inl h
    · obtain ⟨p, hp, h⟩ := capText_mem h
      exact .inl ((hc p hp).subset h)

theorem Eats.caps_infix {pre rest : Str} {t : St} {w : Str} (h : Eats ⟨pre, rest, []⟩ t w) :
    ∀ p ∈ t.caps, p.2 <:+: w := by
  obtain ⟨new, e, hp⟩ := h.caps
  rw [e]
  simpa using hp

/-- Substitution invents no characters beyond those of the replacement text. -/
theorem Re.sub_mem {db : CharDB} {r : Re} {tpl : List Tp} {text : Str} {c : Char} (h : c ∈ r.sub db tpl text) :
    c ∈ text ∨ Tp.lit c ∈ tpl := by
  have := Re.sub_induct (db := db) (r := r) (tpl := tpl)
    (P := fun _ rest out => ∀ c ∈ out, c ∈ rest ∨ Tp.lit c ∈ tpl) (by simp)
    (by
      intro pre d cs out _ ih c hc
      rcases List.mem_cons.mp hc with rfl | hc
      · exact .inl (List.mem_cons_self ..)
      · exact (ih c hc).imp (List.mem_cons_of_mem _) id)
    (by
      intro pre w t out _ _ _ he ih c hc
      rcases List.mem_append.mp hc with hc | hc
      · exact (expand_mem he.caps_infix hc).imp (List.mem_append_left _) id
      · exact (ih c hc).imp (List.mem_append_right _) id) text
  exact this c h

/-- A pattern without matches leaves the text as it is. -/
theorem Re.sub_none {db : CharDB} {r : Re} {tpl : List Tp} {text : Str}
    (h : ∀ pre rest, text = pre.reverse ++ rest → r.matchAt db pre rest = none) : r.sub db tpl text = text := by
  have := Re.sub_induct (db := db) (r := r) (tpl := tpl)
    (P := fun pre rest out => text = pre.reverse ++ rest → out = rest) (by simp)
    (by
      intro pre d cs out _ ih e
      rw [ih (by simpa using e)])
    (by
      intro pre w t out hm _ _ he _ e
      rw [h _ _ e] at hm
      cases hm) text
  exact this rfl

theorem Re.searchFrom_none {db : CharDB} {r : Re} (pre rest : Str)
    (h : ∀ u v, rest = u ++ v → r.matchAt db (u.reverse ++ pre) v = none) : r.searchFrom db pre rest = none := by
  induction rest generalizing pre with
  | nil =>
    unfold Re.searchFrom
    rw [show r.matchAt db pre [] = none from h [] [] rfl]
    rfl
  | cons c cs ih =>
    unfold Re.searchFrom
    rw [show r.matchAt db pre (c :: cs) = none from h [] _ rfl]
    refine ih _ fun u v e => ?_
    have := h (c :: u) v (by rw [e]; rfl)
    simpa using this

theorem Re.searchFrom_some {db : CharDB} {r : Re} {pre rest : Str} {s t : St}
    (h : r.searchFrom db pre rest = some (s, t)) :
    ∃ u, rest = u ++ s.rest ∧ s.pre = u.reverse ++ pre ∧ s.caps = [] ∧ r.matchAt db s.pre s.rest = some t := by
  induction rest generalizing pre with
  | nil =>
    unfold Re.searchFrom at h
    rw [Option.map_eq_some_iff] at h
    obtain ⟨t', ht, e⟩ := h
    simp only [Prod.mk.injEq] at e
    obtain ⟨rfl, rfl⟩ := e
    exact ⟨[], rfl, rfl, rfl, ht⟩
  | cons c cs ih =>
    unfold Re.searchFrom at h
    rcases hm : r.matchAt db pre (c :: cs) with _ | t'
    · rw [hm] at h
      obtain ⟨u, h1, h2, h3, h4⟩ := ih h
      exact ⟨c :: u, by rw [h1]; rfl, by rw [h2]; simp, h3, h4⟩
    · rw [hm] at h
      simp only [Option.some.injEq, Prod.mk.injEq] at h
      obtain ⟨rfl, rfl⟩ := h
      exact ⟨[], rfl, rfl, rfl, hm⟩

/-- A search that succeeds returns a non-empty part of the text matched by the pattern. -/
theorem Re.search_some {db : CharDB} {r : Re} {text m : Str} (h : r.search db text = some m) :
    m ≠ [] ∧ ∃ s t, t ∈ r.run db s ∧ Eats s t m ∧ s.caps = [] ∧ text = s.pre.reverse ++ m ++ t.rest := by
  unfold Re.search at h
  rw [Option.map_eq_some_iff] at h
  obtain ⟨⟨s, t⟩, hs, e⟩ := h
  obtain ⟨u, h1, h2, h3, h4⟩ := Re.searchFrom_some hs
  obtain ⟨hm, w, hw, he⟩ := Re.matchAt_some h4
  have e2 := he.word
  simp only at e e2
  rw [e] at e2
  subst e2
  have hs' : s = ⟨s.pre, s.rest, []⟩ := by rw [← h3]
  refine ⟨hw, s, t, hs' ▸ hm, hs' ▸ he, h3, ?_⟩
  rw [h1, h2, show s.rest = m ++ t.rest from he.rest]
  simp

theorem Re.search_none {db : CharDB} {r : Re} {text : Str}
    (h : ∀ pre rest, text = pre.reverse ++ rest → r.matchAt db pre rest = none) : r.search db text = none := by
  unfold Re.search
  rw [Re.searchFrom_none [] text fun u v e => by simpa using h u.reverse v (by simpa using e)]
  rfl

/-! ### Patterns that need a certain character -/

/-- The class only contains characters with `p` (sufficient condition, by listing). -/
def Cls.only (p : Char → Bool) (k : Cls) : Bool :=
  !k.neg && k.items.all fun
    | .ch c => p c && (!k.ic || decide (foldCase c = c ∧ ¬ (97 ≤ c.toNat ∧ c.toNat ≤ 122)))
    | _ => false

/-- Every match contains a character with `p` (sufficient condition). -/
def Re.needs (p : Char → Bool) : Re → Bool
  | .cls k => k.only p
  | .seq a b => a.needs p || b.needs p
  | .alt a b => a.needs p && b.needs p
  | .rep n _ a => decide (0 < n) && a.needs p
  | .group _ a => a.needs p
  | _ => false

theorem foldCase_of_not_letter {c d : Char} (hc : foldCase c = c) (hl : ¬ (97 ≤ c.toNat ∧ c.toNat ≤ 122))
    (h : foldCase d = c) : d = c := by
  unfold foldCase at h
  split at h
  · subst h; exact absurd (by decide) hl
  · split at h
    · subst h; exact absurd (by decide) hl
    · split at h
      · subst h; exact absurd (by decide) hl
      · unfold lowerLetter at h
        split at h
        · rename_i hd
          simp only [Bool.and_eq_true, decide_eq_true_eq] at hd
          exfalso
          apply hl
          rw [← h]
          have hv : (d.toNat + 32).isValidChar := by left; omega
          have : (Char.ofNat (d.toNat + 32)).toNat = d.toNat + 32 := by
            unfold Char.ofNat
            rw [dif_pos hv]
            rfl
          omega
        · exact h

theorem Cls.only_test {db : CharDB} {p : Char → Bool} {k : Cls} (h : k.only p = true) {c : Char}
    (hc : k.test db c = true) : p c = true := by
  unfold Cls.only at h
  rw [Bool.and_eq_true, Bool.not_eq_true'] at h
  unfold Cls.test at hc
  rw [h.1, bne_iff_ne, Bool.ne_false_iff, List.any_eq_true] at hc
  obtain ⟨i, hi, ht⟩ := hc
  have := List.all_eq_true.mp h.2 i hi
  cases i <;> simp only [Bool.false_eq_true] at this
  rename_i a
  rw [Bool.and_eq_true, Bool.or_eq_true, Bool.not_eq_true', decide_eq_true_eq] at this
  unfold Item.test at ht
  simp only at ht
  split at ht
  · rename_i hic
    rcases this.2 with h2 | h2
    · rw [h2] at hic; cases hic
    · have e := beq_iff_eq.mp ht
      rw [h2.1] at e
      rw [foldCase_of_not_letter h2.1 h2.2 e.symm]
      exact this.1
  · rw [← beq_iff_eq.mp ht]
    exact this.1

theorem Re.needs_run {db : CharDB} {p : Char → Bool} (r : Re) (h : r.needs p = true) :
    ∀ s t w, t ∈ r.run db s → Eats s t w → ∃ c ∈ w, p c = true := by
  induction r with
  | eps => simp [Re.needs] at h
  | bos => simp [Re.needs] at h
  | eos => simp [Re.needs] at h
  | wordB => simp [Re.needs] at h
  | ahead n a _ => simp [Re.needs] at h
  | behind n a _ => simp [Re.needs] at h
  | cls k =>
    intro s t w ht he
    obtain ⟨c, cs, hs, hk, rfl⟩ := Re.run_cls ht
    have : Eats s ⟨c :: s.pre, cs, s.caps⟩ [c] := ⟨by simpa using hs, by simp, [], rfl, by simp⟩
    rw [he.uniq this]
    exact ⟨c, by simp, Cls.only_test h hk⟩
  | seq a b iha ihb =>
    intro s t w ht he
    obtain ⟨u, w1, w2, hu, ht', h1, h2⟩ := Re.run_seq ht
    rw [he.uniq (h1.trans h2)]
    unfold Re.needs at h
    rcases Bool.or_eq_true_iff.mp h with h | h
    · obtain ⟨c, hc, hp⟩ := iha h s u w1 hu h1
      exact ⟨c, List.mem_append_left _ hc, hp⟩
    · obtain ⟨c, hc, hp⟩ := ihb h u t w2 ht' h2
      exact ⟨c, List.mem_append_right _ hc, hp⟩
  | alt a b iha ihb =>
    intro s t w ht he
    unfold Re.needs at h
    rw [Bool.and_eq_true] at h
    simp only [Re.run, List.mem_append] at ht
    rcases ht with ht | ht
    · exact iha h.1 s t w ht he
    · exact ihb h.2 s t w ht he
  | rep n g a iha =>
    intro s t w ht he
    unfold Re.needs at h
    rw [Bool.and_eq_true, decide_eq_true_eq] at h
    simp only [Re.run, List.mem_flatMap] at ht
    obtain ⟨u, hu, ht⟩ := ht
    obtain ⟨m, rfl⟩ : ∃ m, n = m + 1 := ⟨n - 1, by omega⟩
    simp only [times, List.mem_flatMap] at hu
    obtain ⟨v, hv, hu⟩ := hu
    obtain ⟨w1, h1⟩ := a.run_eats s v hv
    obtain ⟨w2, h2⟩ := times_eats (fun s t => a.run_eats s t) m v u hu
    obtain ⟨w3, h3⟩ := many_eats (fun s t => a.run_eats s t) g _ u t ht
    rw [he.uniq ((h1.trans h2).trans h3)]
    obtain ⟨c, hc, hp⟩ := iha h.2 s v w1 hv h1
    exact ⟨c, by simp [hc], hp⟩
  | group n a iha =>
    intro s t w ht he
    simp only [Re.run, List.mem_map] at ht
    obtain ⟨u, hu, rfl⟩ := ht
    obtain ⟨w', h1⟩ := a.run_eats s u hu
    have e : w = w' := by
      have e1 := he.word
      simp only at e1
      rw [← e1, h1.word]
    subst e
    exact iha (by simpa [Re.needs] using h) s u w hu h1

/-- A pattern that needs a character absent from the text has no match. -/
theorem Re.matchAt_none_of_needs {db : CharDB} {p : Char → Bool} {r : Re} (h : r.needs p = true) {pre rest : Str}
    (ht : ∀ c ∈ rest, p c = false) : r.matchAt db pre rest = none := by
  rcases hm : r.matchAt db pre rest with _ | t
  · rfl
  · obtain ⟨hr, w, -, he⟩ := Re.matchAt_some hm
    obtain ⟨c, hc, hp⟩ := r.needs_run h _ _ w hr he
    have : c ∈ rest := by rw [show rest = w ++ t.rest from he.rest]; exact List.mem_append_left _ hc
    rw [ht c this] at hp
    cases hp

theorem Re.sub_of_needs {db : CharDB} {p : Char → Bool} {r : Re} (h : r.needs p = true) {tpl : List Tp} {text : Str}
    (ht : ∀ c ∈ text, p c = false) : r.sub db tpl text = text :=
  Re.sub_none fun pre rest e => Re.matchAt_none_of_needs h fun c hc => ht c (by rw [e]; exact List.mem_append_right _ hc)

theorem Re.search_of_needs {db : CharDB} {p : Char → Bool} {r : Re} (h : r.needs p = true) {text : Str}
    (ht : ∀ c ∈ text, p c = false) : r.search db text = none :=
  Re.search_none fun pre rest e => Re.matchAt_none_of_needs h fun c hc => ht c (by rw [e]; exact List.mem_append_right _ hc)

theorem Re.fullmatch_of_needs {db : CharDB} {p : Char → Bool} {r : Re} (h : r.needs p = true) {text : Str}
    (ht : ∀ c ∈ text, p c = false) : r.fullmatch db text = false := by
  unfold Re.fullmatch
  rw [List.any_eq_false]
  intro t hr
  obtain ⟨w, he⟩ := r.run_eats _ _ hr
  obtain ⟨c, hc, hp⟩ := r.needs_run h _ _ w hr he
  have : c ∈ text := by rw [show text = w ++ t.rest from he.rest]; exact List.mem_append_left _ hc
  rw [ht c this] at hp
  cases hp

end Py
