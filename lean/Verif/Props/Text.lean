import Verif.Lemmas.Text

/-! Properties C11 - C16: small utilities. -/

namespace Props
open Py Model

/-- C11: `xnor` of at least two booleans is `True` iff an even number of them is `False`. -/
theorem C11_xnor_parity (bools : List Bool) (h : 2 ≤ bools.length) :
    xnor bools = .ok (decide (bools.count false % 2 = 0)) := by
  match bools, h with
  | a :: b :: l, _ =>
    have key : ∀ (l : List Bool) (r : Bool), l.foldl (fun r x => r == x) r =
        decide ((l.count false + if r then 0 else 1) % 2 = 0) := by
      intro l
      induction l with
      | nil => intro r; cases r <;> simp
      | cons x l ih =>
        intro r
        rw [List.foldl_cons, ih]
        cases r <;> cases x <;> simp <;> omega
    have h2 : sliceFrom (a :: b :: l) 2 = l := by
      have := sliceFrom_nat (a :: b :: l) 2
      simpa using this
    have h0 : index (a :: b :: l) 0 = .ok a := by
      have := index_nat (a :: b :: l) 0
      simpa using this
    have h1 : index (a :: b :: l) 1 = .ok b := by
      have := index_nat (a :: b :: l) 1
      simpa using this
    simp only [xnor, h0, h1, h2, bind, Except.bind, pure, Except.pure, key]
    cases a <;> cases b <;> simp <;> omega

example : 2 ≤ [true, false, false, true].length := by decide

/-- C11: with fewer than two arguments it raises. -/
theorem C11_xnor_error (bools : List Bool) (h : bools.length < 2) : xnor bools = .error .index := by
  match bools, h with
  | [], _ => rfl
  | [a], _ => cases a <;> rfl

/-- C12: a function marking is undone when neither the name nor an argument contains an opening parenthesis. -/
theorem C12_functionalize_roundtrip (f : Str) (args : List (Option Str)) (hf : '(' ∉ f)
    (ha : ∀ a, some a ∈ args → '(' ∉ a) :
    defunctionalize (functionalize f args) = .ok (f, join c!", " (args.filterMap id)) := by
  have hj : ∀ l : List Str, (∀ x ∈ l, '(' ∉ x) → '(' ∉ join c!", " l := by
    intro l
    induction l with
    | nil => intro _; simp [join]
    | cons x l ih =>
      intro h
      cases l with
      | nil => simpa [join] using h
      | cons y l =>
        have h1 := h x (by simp)
        have h2 := ih (fun z hz => h z (by simp [List.mem_cons.mp hz]))
        simp only [join, List.mem_append, not_or]
        exact ⟨⟨h1, by decide⟩, h2⟩
  have hb : '(' ∉ join c!", " (args.filterMap id) := by
    apply hj
    intro x hx
    obtain ⟨o, ho, he⟩ := List.mem_filterMap.mp hx
    simp only [id] at he
    exact ha x (he ▸ ho)
  have hb2 : '(' ∉ join c!", " (args.filterMap id) ++ c!")" := by
    simp only [List.mem_append, not_or]
    exact ⟨hb, by decide⟩
  have e : functionalize f args = f ++ '(' :: (join c!", " (args.filterMap id) ++ c!")") := by
    simp [functionalize]
  rw [defunctionalize, e, splitOn_sep _ hf, splitOn_no_sep hb2]
  simp only [Except.ok.injEq, Prod.mk.injEq, true_and]
  have := sliceTo_neg (join c!", " (args.filterMap id) ++ c!")") 1 (by decide)
  have h1 : (-((1 : ℕ) : ℤ)) = -1 := by decide
  rw [h1] at this
  rw [this]
  simp

example : defunctionalize (functionalize c!"not" [some c!"eat", none, some c!"b"]) = .ok (c!"not", c!"eat, b") := by
  decide +kernel

/-- C12: association of two words is undone when neither contains the separator. -/
theorem C12_associate_roundtrip (a b : Str) (ha : 'ǁ' ∉ a) (hb : 'ǁ' ∉ b) :
    dissociate (associate [some a, some b]) = some (a, b) := by
  have := splitOn_join (sep := 'ǁ') [a, b] (by simp) (by simp [ha, hb])
  simp only [dissociate, associate, List.filterMap_cons, List.filterMap_nil, id, this]

/-- C12: and `dissociate` only accepts texts that are such an association. -/
theorem C12_dissociate_sound (t a b : Str) (h : dissociate t = some (a, b)) :
    associate [some a, some b] = t ∧ 'ǁ' ∉ a ∧ 'ǁ' ∉ b := by
  obtain ⟨h1, h2, _⟩ := splitOn_spec t 'ǁ'
  unfold dissociate at h
  split at h
  · rename_i x y hs
    cases h
    rw [hs] at h1 h2
    refine ⟨by simpa [associate] using h2, h1 _ (by simp), h1 _ (by simp)⟩
  · cases h

example : dissociate (associate [some c!"a", none, some c!""]) = some (c!"a", c!"") := by decide +kernel

/-- C12: attributes are recovered when none contains the separator; `None` attributes are dropped. -/
theorem C12_attributes_roundtrip (t : Str) (attrs : List (Option Str)) (ht : '»' ∉ t)
    (ha : ∀ a, some a ∈ attrs → '»' ∉ a) :
    detachAttributes (attachAttributes t attrs) = t :: attrs.filterMap id := by
  apply splitOn_join _ (by simp)
  intro x hx
  rcases List.mem_cons.mp hx with rfl | hx
  · exact ht
  · obtain ⟨o, ho, he⟩ := List.mem_filterMap.mp hx
    simp only [id] at he
    exact ha x (he ▸ ho)

example : detachAttributes (attachAttributes c!"tok" [some c!"a", none, some c!""]) = [c!"tok", c!"a", c!""] := by
  decide +kernel

/-- C13: `token_start` for a non-empty ending. -/
theorem C13_token_start (token ending s : Str) (m : Int) (he : ending ≠ []) :
    tokenStart token ending m = some s ↔ token = s ++ ending ∧ s ≠ [] ∧ m ≤ s.length := by
  have hlen : 0 < ending.length := List.length_pos_iff.mpr he
  unfold tokenStart endsWith
  rw [sliceTo_neg token ending.length hlen]
  constructor
  · intro h
    simp only [Bool.and_eq_true, List.isSuffixOf_iff_suffix, decide_eq_true_eq] at h
    split at h
    · rename_i h1
      obtain ⟨⟨pre, rfl⟩, h2⟩ := h1
      have htake : (pre ++ ending).take ((pre ++ ending).length - ending.length) = pre := by
        simp
      rw [htake] at h
      split at h
      · rename_i h3
        cases h
        refine ⟨rfl, ?_, h3⟩
        intro hnil
        subst hnil
        simp at h2
      · cases h
    · cases h
  · rintro ⟨rfl, h2, h3⟩
    have hpos : 0 < s.length := List.length_pos_iff.mpr h2
    have htake : (s ++ ending).take ((s ++ ending).length - ending.length) = s := by
      simp
    simp only [htake, Bool.and_eq_true, List.isSuffixOf_iff_suffix, decide_eq_true_eq]
    have hc : ending <:+ s ++ ending ∧ (s ++ ending).length > ending.length := by
      refine ⟨List.suffix_append _ _, ?_⟩
      simp; omega
    simp only [hc, and_self, if_true, ge_iff_le, h3]

example : tokenStart c!"cats" c!"s" 2 = some c!"cat" := by decide +kernel

/-- C13: `vowel_double_consonant_endings` never raises and detects exactly the vowel, consonant, same consonant endings. -/
theorem C13_vowel_double_consonant (token : Str) (r : List Str) :
    vowelDoubleConsonantEndings token = some r ↔
      ∃ (s : Str) (v c : Char), token = s ++ [v, c, c] ∧ v ∈ vowels ∧ c ∈ consonants ∧ r = [[c], [c, c]] := by
  have e3 := index_neg token 3 (by decide)
  have e2 := index_neg token 2 (by decide)
  have e1 := index_neg token 1 (by decide)
  norm_num at e1 e2 e3
  unfold vowelDoubleConsonantEndings
  by_cases hl : 3 ≤ token.length
  · obtain ⟨s, v, b, c, rfl⟩ : ∃ s v b c, token = s ++ [v, b, c] := by
      refine ⟨token.take (token.length - 3), token[token.length - 3], token[token.length - 2],
        token[token.length - 1], ?_⟩
      apply List.ext_getElem
      · simp; omega
      · intro i h1 h2
        by_cases hi : i < token.length - 3
        · rw [List.getElem_append_left (by simp; omega)]; simp
        · rw [List.getElem_append_right (by simp; omega)]
          have hm : min (token.length - 3) token.length = token.length - 3 := by omega
          have hcases : i = token.length - 3 ∨ i = token.length - 2 ∨ i = token.length - 1 := by omega
          rcases hcases with rfl | rfl | rfl
          · simp
          · have : token.length - 2 - (token.length - 3) = 1 := by omega
            simp [this]
          · have : token.length - 1 - (token.length - 3) = 2 := by omega
            simp [this]
    simp at e1 e2 e3
    rw [e1, e2, e3]
    have heq : (s ++ [v, b, c] = s ++ [v, b, c]) := rfl
    have hinj : ∀ (s' : Str) (v' c' : Char), s ++ [v, b, c] = s' ++ [v', c', c'] ↔ s = s' ∧ v = v' ∧ b = c' ∧ c = c' := by
      intro s' v' c'
      constructor
      · intro h
        have := List.append_inj' h (by simp)
        simpa using this
      · rintro ⟨rfl, rfl, rfl, rfl⟩; rfl
    simp only [hinj, bind, Except.bind, pure, Except.pure]
    by_cases hv : v ∈ vowels
    · by_cases hb : b ∈ consonants
      · by_cases hbc : b = c
        · subst hbc
          simp only [hv, hb, if_true]
          constructor
          · intro h
            cases h
            exact ⟨s, v, b, ⟨rfl, rfl, rfl, rfl⟩, hv, hb, rfl⟩
          · rintro ⟨_, _, _, ⟨_, _, rfl, _⟩, _, _, rfl⟩
            rfl
        · simp only [hv, hb, hbc, if_true, if_false]
          constructor
          · intro h; cases h
          · rintro ⟨_, _, c', ⟨_, _, h1, h2⟩, _⟩
            exact absurd (h1.trans h2.symm) hbc
      · simp only [hv, hb, if_true, if_false]
        constructor
        · intro h; cases h
        · rintro ⟨_, _, c', ⟨_, _, h1, _⟩, _, h2, _⟩
          exact absurd (h1 ▸ h2) hb
    · simp only [hv, if_false]
      constructor
      · intro h; cases h
      · rintro ⟨_, _, c', ⟨_, h1, _⟩, h2, _⟩
        exact absurd (h1 ▸ h2) hv
  · have hne : ¬ 3 ≤ token.length := hl
    simp only [hne, dif_neg, not_false_iff] at e3
    rw [e3]
    simp only [bind, Except.bind]
    constructor
    · intro h; cases h
    · rintro ⟨s, v, c, rfl, _⟩
      simp at hl

example : vowelDoubleConsonantEndings c!"runn" = some [c!"n", c!"nn"] := by decide +kernel
example : vowelDoubleConsonantEndings c!"nn" = none := by decide +kernel

/-- C14, general form: if no prefix of the set is a prefix of another one, detection does not depend on the order. -/
theorem C14_token_prefix_order (token : Str) (l₁ l₂ : List Str) (hperm : l₁.Perm l₂)
    (hfree : ∀ a ∈ l₁, ∀ b ∈ l₁, a <+: b → a = b) : tokenPrefix token l₁ = tokenPrefix token l₂ := by
  have key : (l₁.find? fun p => startsWith token p) = l₂.find? fun p => startsWith token p := by
    have uniq : ∀ a ∈ l₁, ∀ b ∈ l₁, startsWith token a = true → startsWith token b = true → a = b := by
      intro a ha b hb h1 h2
      simp only [startsWith, List.isPrefixOf_iff_prefix] at h1 h2
      rcases List.prefix_or_prefix_of_prefix h1 h2 with h | h
      · exact hfree a ha b hb h
      · exact (hfree b hb a ha h).symm
    cases h1 : l₁.find? fun p => startsWith token p with
    | none =>
      symm
      rw [List.find?_eq_none] at h1 ⊢
      exact fun x hx => h1 x (hperm.mem_iff.mpr hx)
    | some a =>
      have ha := List.mem_of_find?_eq_some h1
      have ha' := List.find?_some h1
      cases h2 : l₂.find? fun p => startsWith token p with
      | none =>
        rw [List.find?_eq_none] at h2
        exact absurd ha' (h2 a (hperm.mem_iff.mp ha))
      | some b =>
        have hb := hperm.mem_iff.mpr (List.mem_of_find?_eq_some h2)
        have hb' := List.find?_some h2
        rw [uniq a ha b hb ha' hb']
  unfold tokenPrefix
  rw [key]

/-- C14: a token with exactly one hyphen is cut after it; any other token is cut after its first prefix in the set. -/
theorem C14_token_prefix (token : Str) (l : List Str) (p b : Str) : tokenPrefix token l = some (p, b) ↔
    (∃ a, '-' ∉ a ∧ '-' ∉ b ∧ p = a ++ ['-'] ∧ token = a ++ '-' :: b) ∨
    ((¬ ∃ a b, '-' ∉ a ∧ '-' ∉ b ∧ token = a ++ '-' :: b) ∧ token = p ++ b ∧
      ∃ l₁ l₂, l = l₁ ++ p :: l₂ ∧ ∀ q ∈ l₁, ¬ q <+: token) := by
  have one : ∀ a b : Str, '-' ∉ a → '-' ∉ b → splitOn (a ++ '-' :: b) '-' = [a, b] := fun a b ha hb => by
    rw [splitOn_sep b ha, splitOn_no_sep hb]
  by_cases h1 : ∃ a b, '-' ∉ a ∧ '-' ∉ b ∧ token = a ++ '-' :: b
  · obtain ⟨a, c, ha, hc, rfl⟩ := h1
    unfold tokenPrefix
    rw [one a c ha hc]
    simp only [Option.some.injEq, Prod.mk.injEq]
    constructor
    · rintro ⟨rfl, rfl⟩
      exact .inl ⟨a, ha, hc, rfl, rfl⟩
    · rintro (⟨a', ha', hb', rfl, e⟩ | ⟨h, -⟩)
      · have e2 := congrArg (fun t => splitOn t '-') e
        simp only [one a c ha hc, one a' b ha' hb', List.cons.injEq, and_true] at e2
        exact ⟨by rw [e2.1], e2.2⟩
      · exact absurd ⟨a, c, ha, hc, rfl⟩ h
  · have hn : tokenPrefix token l =
        (l.find? fun p => startsWith token p).map fun p => (p, sliceFrom token (p.length : Int)) := by
      unfold tokenPrefix
      split
      · rename_i a b hs
        exfalso
        have := splitOn_spec token '-'
        rw [hs] at this
        exact h1 ⟨a, b, this.1 a (by simp), this.1 b (by simp), by simpa [join] using this.2.1.symm⟩
      · rfl
    rw [hn, Option.map_eq_some_iff]
    constructor
    · rintro ⟨q, hq, e⟩
      simp only [Prod.mk.injEq] at e
      obtain ⟨rfl, rfl⟩ := e
      rw [List.find?_eq_some_iff_append] at hq
      obtain ⟨h2, l₁, l₂, h3, h4⟩ := hq
      simp only [startsWith, List.isPrefixOf_iff_prefix] at h2
      obtain ⟨r, rfl⟩ := h2
      refine .inr ⟨h1, by rw [sliceFrom_nat]; simp, l₁, l₂, h3, ?_⟩
      intro x hx hp
      have := h4 x hx
      rw [startsWith, List.isPrefixOf_iff_prefix.mpr hp] at this
      simp at this
    · rintro (⟨a, ha, hb, -, e⟩ | ⟨-, rfl, l₁, l₂, rfl, h4⟩)
      · exact absurd ⟨a, b, ha, hb, e⟩ h1
      · refine ⟨p, ?_, by rw [sliceFrom_nat]; simp⟩
        rw [List.find?_eq_some_iff_append]
        refine ⟨by simp [startsWith, List.isPrefixOf_iff_prefix], l₁, l₂, rfl, fun x hx => ?_⟩
        have := h4 x hx
        rw [← List.isPrefixOf_iff_prefix, Bool.not_eq_true] at this
        rw [startsWith, this]
        rfl

example : tokenPrefix c!"re-run" [c!"re"] = some (c!"re-", c!"run") := by decide +kernel
example : tokenPrefix c!"rerun" [c!"un", c!"re"] = some (c!"re", c!"run") := by decide +kernel

/-- C15: the rendered time is `h:mm:ss` with `3600 h + 60 m + s = floor t`, `m < 60`, `s < 60`; minutes and seconds are
written with exactly two decimal digits. -/
theorem C15_time_string (t : ℚ) (ht : 0 ≤ t) :
    ∃ h m s : ℕ, 3600 * h + 60 * m + s = ⌊t⌋ ∧ m < 60 ∧ s < 60 ∧
      timeString t = natRepr h ++ [':', Char.ofNat (48 + m / 10), Char.ofNat (48 + m % 10), ':',
        Char.ofNat (48 + s / 10), Char.ofNat (48 + s % 10)] := by
  have two : ∀ n : Fin 60, pad2 n.val = [Char.ofNat (48 + n.val / 10), Char.ofNat (48 + n.val % 10)] := by decide +kernel
  suffices h : ∃ h m s : ℕ, 3600 * h + 60 * m + s = ⌊t⌋ ∧ m < 60 ∧ s < 60 ∧
      timeString t = natRepr h ++ c!":" ++ pad2 m ++ c!":" ++ pad2 s by
    obtain ⟨h, m, s, h1, h2, h3, h4⟩ := h
    refine ⟨h, m, s, h1, h2, h3, ?_⟩
    rw [h4, two ⟨m, h2⟩, two ⟨s, h3⟩]
    simp
  have fl60 : ∀ x : ℚ, ⌊x / 60⌋ = ⌊x⌋ / 60 := by
    intro x
    have := Int.floor_div_natCast x 60
    simpa using this
  have e1 : ⌊t / 60⌋ = ⌊t⌋ / 60 := fl60 t
  have e2 : ⌊(((⌊t / 60⌋ : ℤ) : ℚ)) / 60⌋ = ⌊t⌋ / 60 / 60 := by rw [fl60, Int.floor_intCast, e1]
  have hf : 0 ≤ ⌊t⌋ := Int.floor_nonneg.mpr ht
  refine ⟨(⌊t⌋ / 60 / 60).toNat, (⌊t⌋ / 60 % 60).toNat, (⌊t⌋ % 60).toNat, ?_, ?_, ?_, ?_⟩
  · omega
  · omega
  · omega
  · have a1 : ⌊((⌊t / 60⌋ : ℤ) : ℚ) - 60 * ((⌊(((⌊t / 60⌋ : ℤ) : ℚ)) / 60⌋ : ℤ) : ℚ)⌋ = ⌊t⌋ / 60 % 60 := by
      rw [e2, e1]
      have : (((⌊t⌋ / 60 : ℤ) : ℚ) - 60 * ((⌊t⌋ / 60 / 60 : ℤ) : ℚ)) = ((⌊t⌋ / 60 - 60 * (⌊t⌋ / 60 / 60) : ℤ) : ℚ) := by
        push_cast; ring
      rw [this, Int.floor_intCast]
      omega
    have a2 : ⌊t - 60 * ((⌊t / 60⌋ : ℤ) : ℚ)⌋ = ⌊t⌋ % 60 := by
      rw [e1]
      have : t - 60 * ((⌊t⌋ / 60 : ℤ) : ℚ) = t - ((60 * (⌊t⌋ / 60) : ℤ) : ℚ) := by push_cast; ring
      rw [this, Int.floor_sub_intCast]
      omega
    simp only [timeString, divmod60, Int.floor_intCast, e2, a2]
    rw [e2] at a1
    rw [a1]

example : timeString (3725 + 1 / 2) = c!"1:02:05" := by decide +kernel

/-- The time measured by a timer started at `t`: each lap ends at its first clock reading and the next one starts at the
second. -/
def lapTimes : ℚ → List (ℚ × ℚ) → List ℚ
  | _, [] => []
  | t, (a, b) :: rs => (a - t) :: lapTimes b rs

/-- C15: every lap shows the time since the end of the previous one, and the total shows the sum of all laps, including
the one it ends.  `rs` are the pairs of clock readings of earlier laps, `a` and `b` the readings of the last one. -/
theorem C15_timer_laps (t0 : ℚ) (rs : List (ℚ × ℚ)) (a b : ℚ) :
    let timer := rs.foldl (fun t r => (t.newLap r.1 r.2).1) (Timer.new t0)
    (timer.totalTime a b).2 = timeString (lapTimes t0 (rs ++ [(a, b)])).sum ∧
    (timer.lapTime a b).2 = timeString (a - (rs.map Prod.snd).getLastD t0) ∧
    (timer.totalTime a b).1 = (rs ++ [(a, b)]).foldl (fun t r => (t.newLap r.1 r.2).1) (Timer.new t0) ∧
    (timer.lapTime a b).1 = (rs ++ [(a, b)]).foldl (fun t r => (t.newLap r.1 r.2).1) (Timer.new t0) := by
  have key : ∀ (rs : List (ℚ × ℚ)) (t : Timer),
      (rs.foldl (fun t r => (t.newLap r.1 r.2).1) t).laps.sum = t.laps.sum + (lapTimes t.startTime rs).sum ∧
      (rs.foldl (fun t r => (t.newLap r.1 r.2).1) t).startTime = (rs.map Prod.snd).getLastD t.startTime := by
    intro rs
    induction rs with
    | nil => intro t; simp [lapTimes]
    | cons r rs ih =>
      intro t
      rw [List.foldl_cons, (ih _).1, (ih _).2]
      obtain ⟨a, b⟩ := r
      simp only [Timer.newLap, List.sum_append, List.sum_cons, List.sum_nil, lapTimes, List.map_cons, List.getLastD_cons]
      refine ⟨by ring, trivial⟩
  intro timer
  have h1 : (timer.newLap a b).1 = (rs ++ [(a, b)]).foldl (fun t r => (t.newLap r.1 r.2).1) (Timer.new t0) := by
    rw [List.foldl_append]
    rfl
  refine ⟨?_, ?_, h1, h1⟩
  · show timeString (timer.newLap a b).1.laps.sum = _
    rw [h1, (key _ _).1]
    simp [Timer.new]
  · show timeString (a - timer.startTime) = _
    rw [(key _ _).2]
    rfl

/-- Without time between the two readings of a lap, the total is the last reading minus the start. -/
theorem C15_timer_total (t0 : ℚ) (readings : List ℚ) (r : ℚ) :
    ((readings.foldl (fun t r => (t.newLap r r).1) (Timer.new t0)).totalTime r r).2 = timeString (r - t0) := by
  have key : ∀ (rs : List ℚ) (t : ℚ), (lapTimes t (rs.map fun r => (r, r))).sum = rs.getLastD t - t := by
    intro rs
    induction rs with
    | nil => intro t; simp [lapTimes]
    | cons r rs ih =>
      intro t
      rw [List.map_cons, lapTimes, List.sum_cons, ih, List.getLastD_cons]
      ring
  have h := (C15_timer_laps t0 (readings.map fun r => (r, r)) r r).1
  rw [List.foldl_map] at h
  have e : (readings.map fun r => (r, r)) ++ [(r, r)] = (readings ++ [r]).map fun r => (r, r) := by simp
  rw [e, key] at h
  rw [h]
  simp

example : ((Timer.new 5).totalTime 3730 3731).2 = c!"1:02:05" := by decide +kernel

/-- C16: `reverse_dict` maps each value to the last key holding it. -/
theorem C16_reverse_dict {κ ν : Type} [DecidableEq κ] [DecidableEq ν] (d : Dict κ ν) (hd : d.Wf) (v : ν) (k : κ) :
    (reverseDict d).get? v = some k →
      d.get? k = some v ∧ ∃ pre post, d = pre ++ (k, v) :: post ∧ ∀ p ∈ post, p.2 ≠ v := by
  intro h
  unfold reverseDict at h
  rw [Dict.get?_ofPairs] at h
  have key : ∀ l : Dict κ ν, Dict.get? (l.map fun p => (p.2, p.1)).reverse v = some k →
      ∃ pre post, l = pre ++ (k, v) :: post ∧ ∀ p ∈ post, p.2 ≠ v := by
    intro l
    induction l with
    | nil => intro h; simp at h
    | cons p l ih =>
      obtain ⟨a, b⟩ := p
      intro h
      simp only [List.map_cons, List.reverse_cons, Dict.get?_append] at h
      cases hr : Dict.get? (l.map fun p => (p.2, p.1)).reverse v with
      | some k' =>
        rw [hr] at h
        simp only [Option.some_or, Option.some.injEq] at h
        subst h
        obtain ⟨pre, post, h1, h2⟩ := ih hr
        exact ⟨(a, b) :: pre, post, by rw [h1]; rfl, h2⟩
      | none =>
        rw [hr] at h
        simp only [Option.none_or, Dict.get?] at h
        split at h
        · rename_i hb
          cases h
          subst hb
          refine ⟨[], l, rfl, ?_⟩
          intro p hp he
          rw [Dict.get?_eq_none_iff] at hr
          apply hr
          simp only [Dict.keys, List.map_reverse, List.map_map, List.mem_reverse, List.mem_map]
          exact ⟨p, hp, he⟩
        · cases h
  obtain ⟨pre, post, h1, h2⟩ := key d h
  refine ⟨?_, pre, post, h1, h2⟩
  apply Dict.get?_of_mem hd
  rw [h1]; simp

/-- C16: on an injective dictionary it is the inverse. -/
theorem C16_reverse_dict_inverse {κ ν : Type} [DecidableEq κ] [DecidableEq ν] (d : Dict κ ν) (hd : d.Wf)
    (hinj : d.values.Nodup) (k : κ) (v : ν) : (reverseDict d).get? v = some k ↔ d.get? k = some v := by
  constructor
  · exact fun h => (C16_reverse_dict d hd v k h).1
  · intro h
    have hm := Dict.mem_of_get? h
    unfold reverseDict
    rw [Dict.get?_ofPairs]
    apply Dict.get?_of_mem
    · unfold Dict.Wf Dict.keys
      rw [List.map_reverse, List.nodup_reverse, List.map_map]
      exact hinj
    · simp only [List.mem_reverse, List.mem_map]
      exact ⟨(k, v), hm, rfl⟩

/-- C16: every value of the dictionary is a key of the result. -/
theorem C16_reverse_dict_total {κ ν : Type} [DecidableEq κ] [DecidableEq ν] (d : Dict κ ν) (v : ν) :
    v ∈ d.values ↔ ∃ k, (reverseDict d).get? v = some k := by
  unfold reverseDict
  rw [Dict.get?_ofPairs]
  constructor
  · intro h
    obtain ⟨p, hp, rfl⟩ := List.mem_map.mp h
    rcases hg : Dict.get? (d.map fun p => (p.2, p.1)).reverse p.2 with _ | k
    · rw [Dict.get?_eq_none_iff] at hg
      exact absurd (by simp [Dict.keys]; exact ⟨p.1, hp⟩) hg
    · exact ⟨k, hg⟩
  · rintro ⟨k, hk⟩
    have := Dict.mem_of_get? hk
    simp only [List.mem_reverse, List.mem_map, Prod.mk.injEq] at this
    obtain ⟨p, hp, h1, -⟩ := this
    exact List.mem_map.mpr ⟨p, hp, h1⟩

example : reverseDict [(1, 'a'), (2, 'b'), (3, 'a')] = [('a', 3), ('b', 2)] := by decide +kernel
example : (Dict.Wf [(1, 'a'), (2, 'b')]) ∧ (Dict.values [(1, 'a'), (2, 'b')]).Nodup := by
  constructor <;> simp [Dict.Wf, Dict.keys, Dict.values]

end Props
