import Verif.Lemmas.LmQuery

/-! C27 to C33: the language model. `R` is the rounding of `float(text)`, `log` the value of `math.log`. -/

namespace Props
open Py Model

/-! ### C33 -/

/-- **C33** (negation). The left context may be lost: `before = [l1, l2]`, `after = [r]`, order 4 has one window, which
contains the token, but no candidate is listed. -/
theorem C33_left_context_false : ∃ (before after : List Str) (t : Str) (n : Nat), 2 ≤ n ∧
    TokenContext.candidates { token := t, before := before, after := after } n = .ok [] ∧
    Spec.windowsAround n (before ++ [t] ++ after) before.length = [[c!"a", c!"b", c!"x", c!"c"]] :=
  ⟨[c!"a", c!"b"], [c!"c"], c!"x", 4, by decide, by decide +kernel, by decide +kernel⟩

/-- **C33** (partial: the left context is at least `n - 1` words long, or at most half of that). The candidates of order
`n` are the windows of `n` consecutive words of the text that contain the token, left to right.
Full statement (false, see above): the same for every left context. -/
theorem C33_candidates_partial (before after : List Str) (t : Str) (n : Nat) (hn : 2 ≤ n)
    (hb : n - 1 ≤ before.length ∨ 2 * before.length ≤ n - 1) :
    TokenContext.candidates { token := t, before := before, after := after } n =
      .ok ((Spec.windowsAround n (before ++ [t] ++ after) before.length).map (List.intercalate c!" ")) := by
  unfold TokenContext.candidates
  have h1 : (n : Int) > 1 := by omega
  simp only [h1, if_true, Int.toNat_natCast]
  have e1 : ((n : Int) - 1) = ((n - 1 : Nat) : Int) := by omega
  have ha : sliceTo after ((n : Int) - 1) = after.take (n - 1) := by rw [e1, sliceTo_nat]
  have hl : sliceFrom before ((before.length : Int) - ((n : Int) - 1)) = Spec.suffixN (n - 1) before := by
    rcases hb with hb | hb
    · have : (before.length : Int) - ((n : Int) - 1) = ((before.length - (n - 1) : Nat) : Int) := by omega
      rw [this, sliceFrom_nat]
      rfl
    · by_cases h0 : before.length = n - 1
      · have : (before.length : Int) - ((n : Int) - 1) = ((0 : Nat) : Int) := by omega
        rw [this, sliceFrom_nat]
        simp [Spec.suffixN, h0]
      · have : (before.length : Int) - ((n : Int) - 1) = -((n - 1 - before.length : Nat) : Int) := by omega
        rw [this, sliceFrom_neg _ _ (by omega)]
        unfold Spec.suffixN
        congr 1
        omega
  rw [ha, hl, slideWindow_eq _ (by omega), windowsAround_eq n (by omega)]
  congr 1
  apply List.map_congr_left
  intro w _
  exact join_eq_intercalate _ w

/-- What happens otherwise: the first `2·len(before) - (n - 1)` words of the left context are ignored. -/
theorem C33_candidates_dropped (before after : List Str) (t : Str) (n : Nat)
    (h1 : before.length < n - 1) (h2 : n - 1 < 2 * before.length) :
    TokenContext.candidates { token := t, before := before, after := after } n =
      TokenContext.candidates { token := t, before := before.drop (2 * before.length - (n - 1)), after := after } n := by
  have hn : (n : Int) > 1 := by omega
  have key : ∀ b : List Str, 2 * b.length ≤ n - 1 → b.length < n - 1 →
      sliceFrom b ((b.length : Int) - ((n : Int) - 1)) = b := by
    intro b hb hb'
    have : (b.length : Int) - ((n : Int) - 1) = -((n - 1 - b.length : Nat) : Int) := by omega
    rw [this, sliceFrom_neg _ _ (by omega)]
    unfold Spec.suffixN
    have : b.length - (n - 1 - b.length) = 0 := by omega
    rw [this]; rfl
  unfold TokenContext.candidates
  simp only [hn, if_true]
  rw [key (before.drop (2 * before.length - (n - 1))) (by rw [List.length_drop]; omega) (by rw [List.length_drop]; omega)]
  have : (before.length : Int) - ((n : Int) - 1) = -((n - 1 - before.length : Nat) : Int) := by omega
  rw [this, sliceFrom_neg _ _ (by omega)]
  unfold Spec.suffixN
  have : before.length - (n - 1 - before.length) = 2 * before.length - (n - 1) := by omega
  rw [this]

/-- An order below 2 is refused. -/
theorem C33_order_refused (c : TokenContext) (n : Int) (hn : n < 2) : c.candidates n = .error .assertion := by
  unfold TokenContext.candidates
  rw [if_neg (by omega)]

/-- With `n - 1` words on both sides there are `n` candidates, from `left_ngram` to `right_ngram`. -/
theorem C33_ends (c : TokenContext) (n : Nat) (hn : 2 ≤ n) (hb : c.before.length = n - 1) (ha : c.after.length = n - 1) :
    c.leftNgram = c.before ++ [c.token] ∧ c.rightNgram = c.token :: c.after ∧ ∃ l, c.candidates n = .ok l ∧ l.length = n ∧
      l.head? = some (List.intercalate c!" " c.leftNgram) ∧ l.getLast? = some (List.intercalate c!" " c.rightNgram) := by
  refine ⟨rfl, rfl, _, C33_candidates_partial c.before c.after c.token n hn (by omega), ?_⟩
  have e := windowsAround_eq n (by omega) c.before c.after c.token
  rw [List.take_of_length_le (by omega), show Spec.suffixN (n - 1) c.before = c.before by simp [Spec.suffixN, hb]] at e
  rw [← e]
  unfold Spec.windows
  have hl : (c.before ++ [c.token] ++ c.after).length + 1 - n = n - 1 + 1 := by
    simp only [List.length_append, List.length_singleton]
    omega
  rw [hl]
  refine ⟨by simp; omega, ?_, ?_⟩
  · rw [List.range_succ_eq_map]
    simp only [List.map_cons, List.head?_cons, List.drop_zero]
    rw [show n = (c.before ++ [c.token]).length by simp; omega, List.take_left]
    rfl
  · rw [List.range_succ]
    simp only [List.map_append, List.map_cons, List.map_nil, List.getLast?_concat]
    have h2 : ((c.before ++ [c.token] ++ c.after).drop (n - 1)).take n = c.token :: c.after := by
      rw [← hb, List.append_assoc, List.drop_left, List.take_of_length_le (by simp; omega)]
      rfl
    rw [h2]
    rfl

example : TokenContext.leftNgram { token := c!"x", before := [c!"a", c!"b"], after := [c!"c", c!"d"] } = [c!"a", c!"b", c!"x"] ∧
    TokenContext.rightNgram { token := c!"x", before := [c!"a", c!"b"], after := [c!"c", c!"d"] } = [c!"x", c!"c", c!"d"] := by decide

/-- Both conditions of `C33_candidates_partial` are met by ordinary contexts. -/
example : TokenContext.candidates { token := c!"x", before := [c!"a", c!"b"], after := [c!"c", c!"d"] } 3 =
    .ok [c!"a b x", c!"b x c", c!"x c d"] := by decide +kernel
example : TokenContext.candidates { token := c!"x", before := [c!"a"], after := [c!"c", c!"d"] } 3 =
    .ok [c!"a x c", c!"x c d"] := by decide +kernel

/-! ### C27 -/

section
variable (R : Rounding) (log : ℚ → ℚ)

/-- The files of a model: for every order the minimum count it is loaded with and the n-grams that were written. -/
abbrev Parts := List (Int × List Entry)

/-- The files on disk. -/
def Parts.files (ps : Parts) : List (Int × Str) := ps.map fun p => (p.1, writeNgramFile p.2)

/-- The rows kept of a file. -/
def partRows (p : Int × List Entry) : List (Str × Details) :=
  ((sortDesc Entry.proba p.2).filter fun e => 0 < e.proba).filterMap (readBack R log p.1)

theorem load_parts (ps : Parts) (hw : ∀ p ∈ ps, ∀ e ∈ p.2, Writable e.text)
    (hp : ∀ p ∈ ps, ∀ e ∈ p.2, 0 < e.proba → p.1 ≤ (e.count : Int) → 0 < round17 e.proba) (d : Dict Str Details) :
    ps.files.foldlM (loadFile R log) d =
      .ok ((ps.flatMap (partRows R log)).foldl (fun d p => Dict.set d p.1 p.2) d) := by
  induction ps generalizing d with
  | nil => rfl
  | cons p ps ih =>
    show List.foldlM (loadFile R log) d ((p.1, writeNgramFile p.2) :: Parts.files ps) = _
    rw [List.foldlM_cons]
    have h1 : loadFile R log d (p.1, writeNgramFile p.2) =
        .ok ((partRows R log p).foldl (fun d p => Dict.set d p.1 p.2) d) := by
      unfold loadFile
      rw [writeNgramFile_lines (hw p (by simp))]
      apply loadLines_ok
      · intro e he
        exact hw p (by simp) e ((mem_sortDesc _).mp (List.mem_filter.mp he).1)
      · intro e he hc
        obtain ⟨h1, h2⟩ := List.mem_filter.mp he
        exact hp p (by simp) e ((mem_sortDesc _).mp h1) (by simpa using h2) hc
    rw [h1]
    show List.foldlM (loadFile R log) _ (Parts.files ps) = _
    rw [ih (fun q hq => hw q (List.mem_cons_of_mem _ hq)) (fun q hq => hp q (List.mem_cons_of_mem _ hq)),
      List.flatMap_cons, List.foldl_append]

theorem mem_partRows {p : Int × List Entry} {r : Str × Details} : r ∈ partRows R log p ↔
    ∃ e ∈ p.2, 0 < e.proba ∧ p.1 ≤ (e.count : Int) ∧
      r = (e.text, (e.count : Int), R.fl (round17 e.proba), (log (R.fl (round17 e.proba)) : WithBot ℚ)) := by
  unfold partRows readBack
  rw [List.mem_filterMap]
  constructor
  · rintro ⟨e, he, h⟩
    obtain ⟨h1, h2⟩ := List.mem_filter.mp he
    by_cases hc : p.1 ≤ (e.count : Int)
    · rw [if_pos hc, Option.some.injEq] at h
      exact ⟨e, (mem_sortDesc _).mp h1, by simpa using h2, hc, h.symm⟩
    · simp [hc] at h
  · rintro ⟨e, h1, h2, h3, rfl⟩
    exact ⟨e, List.mem_filter.mpr ⟨(mem_sortDesc _).mpr h1, by simpa using h2⟩, by rw [if_pos h3]⟩

theorem keys_partRows_nodup {p : Int × List Entry} (h : (p.2.map Entry.text).Nodup) :
    ((partRows R log p).map Prod.fst).Nodup := by
  have hs : (((sortDesc Entry.proba p.2).filter fun e => 0 < e.proba).map Entry.text).Nodup := by
    have h1 : ((sortDesc Entry.proba p.2).map Entry.text).Nodup :=
      (((sortDesc_perm Entry.proba p.2).map Entry.text).nodup_iff).mpr h
    exact h1.sublist (List.filter_sublist.map Entry.text)
  unfold partRows
  generalize ((sortDesc Entry.proba p.2).filter fun e => 0 < e.proba) = es at hs
  refine hs.sublist ?_
  clear hs
  induction es with
  | nil => simp
  | cons e es ih =>
    rw [List.filterMap_cons]
    unfold readBack
    by_cases hc : p.1 ≤ (e.count : Int)
    · simp only [if_pos hc, List.map_cons]
      exact ih.cons_cons e.text
    · simp only [if_neg hc, List.map_cons]
      exact ih.cons e.text

theorem get?_parts (ps : Parts) (hd : (ps.flatMap fun p => p.2.map Entry.text).Nodup) (r : Str × Details) :
    Dict.get? (Dict.ofPairs (ps.flatMap (partRows R log))) r.1 = some r.2 ↔ ∃ p ∈ ps, r ∈ partRows R log p := by
  rw [Dict.get?_ofPairs]
  have hn : Dict.Wf (ps.flatMap (partRows R log)).reverse := by
    show (List.map Prod.fst _).Nodup
    rw [List.map_reverse, List.nodup_reverse, List.map_flatMap]
    rw [List.nodup_flatMap] at hd ⊢
    refine ⟨fun p hp => keys_partRows_nodup R log (hd.1 p hp), hd.2.imp ?_⟩
    intro p q hpq x hx hy
    obtain ⟨a, ha, rfl⟩ := List.mem_map.mp hx
    obtain ⟨b, hb, e⟩ := List.mem_map.mp hy
    obtain ⟨e1, h1, -, -, rfl⟩ := (mem_partRows R log).mp ha
    obtain ⟨e2, h2, -, -, rfl⟩ := (mem_partRows R log).mp hb
    exact hpq (List.mem_map.mpr ⟨e1, h1, rfl⟩) (List.mem_map.mpr ⟨e2, h2, e⟩)
  rw [← Dict.mem_iff_get? hn]
  rw [List.mem_reverse, List.mem_flatMap]

/-- **C27** (partial: no probability is positive but at most `5·10^-18`). The files written for n-grams with distinct
texts load without error, whatever the minimum counts; an n-gram is then known with a count, a probability and a
log-probability exactly when it was written with that count, with a positive probability of which this is the value
rounded to 17 decimals (and to a float), and its count reaches the minimum of its order.
Full statement (false, see `C27_tiny_probability_false`): the same without the bound. -/
theorem C27_write_load_partial (ps : Parts) (hw : ∀ p ∈ ps, ∀ e ∈ p.2, Writable e.text)
    (hd : (ps.flatMap fun p => p.2.map Entry.text).Nodup)
    (hp : ∀ p ∈ ps, ∀ e ∈ p.2, 0 < e.proba → 1 / (2 * 10 ^ 17) < e.proba) :
    ∃ m, LM.load R log ps.files = .ok m ∧ m.maxOrder = ps.length ∧
      ∀ g (n : Int) (q : ℚ) (l : WithBot ℚ), Dict.get? m.details g = some (n, q, l) ↔
        ∃ p ∈ ps, ∃ e ∈ p.2, 0 < e.proba ∧ p.1 ≤ (e.count : Int) ∧ e.text = g ∧ n = e.count ∧
          q = R.fl (round17 e.proba) ∧ l = (log q : WithBot ℚ) := by
  have h1 := load_parts R log ps hw (fun p hpm e he h0 _ => round17_pos (hp p hpm e he h0)) []
  refine ⟨_, by unfold LM.load; rw [h1]; rfl, by simp [Parts.files], ?_⟩
  intro g n q l
  show Dict.get? (Dict.ofPairs (ps.flatMap (partRows R log))) g = _ ↔ _
  rw [show (Dict.get? (Dict.ofPairs (ps.flatMap (partRows R log))) g = some (n, q, l) ↔
    ∃ p ∈ ps, (g, n, q, l) ∈ partRows R log p) from get?_parts R log ps hd (g, n, q, l)]
  constructor
  · rintro ⟨p, hpm, h⟩
    obtain ⟨e, he, h0, hc, h⟩ := (mem_partRows R log).mp h
    simp only [Prod.mk.injEq] at h
    obtain ⟨rfl, rfl, rfl, rfl⟩ := h
    exact ⟨p, hpm, e, he, h0, hc, rfl, rfl, rfl, rfl⟩
  · rintro ⟨p, hpm, e, he, h0, hc, rfl, rfl, rfl, rfl⟩
    exact ⟨p, hpm, (mem_partRows R log).mpr ⟨e, he, h0, hc, rfl⟩⟩

/-- **C27**, the value that is read back: a multiple of `10^-17` at most half a unit away. -/
theorem C27_rounding (p : ℚ) (hp : 0 ≤ p) : (∃ k : Nat, round17 p = k / 10 ^ 17) ∧ |round17 p - p| ≤ 1 / (2 * 10 ^ 17) :=
  ⟨⟨_, rfl⟩, round17_err p hp⟩

/-- **C27** (negation). A positive probability of at most `5·10^-18` is written as zero; the file can then not be
loaded: `math.log(0)` raises `ValueError`. -/
theorem C27_tiny_probability (mc : Int) (es : List Entry) (hw : ∀ e ∈ es, Writable e.text) (e : Entry) (he : e ∈ es)
    (hc : mc ≤ (e.count : Int)) (h0 : 0 < e.proba) (hp : e.proba ≤ 1 / (2 * 10 ^ 17)) :
    LM.load R log [(mc, writeNgramFile es)] = .error .value := by
  have : loadFile R log [] (mc, writeNgramFile es) = .error .value := by
    unfold loadFile
    rw [writeNgramFile_lines hw]
    apply loadLines_error
    · intro x hx
      exact hw x ((mem_sortDesc _).mp (List.mem_filter.mp hx).1)
    · exact ⟨e, List.mem_filter.mpr ⟨(mem_sortDesc _).mpr he, by simpa using h0⟩, hc, round17_tiny h0 hp⟩
  unfold LM.load
  rw [List.foldlM_cons, this]
  rfl

theorem C27_tiny_probability_false : ∃ es : List Entry, (∀ e ∈ es, Writable e.text ∧ 0 < e.proba ∧ 1 ≤ e.count) ∧
    LM.load R log [(1, writeNgramFile es)] = .error .value := by
  have hw : Writable c!"a" := ⟨by decide, by decide, by decide⟩
  refine ⟨[⟨c!"a", 5, 1 / 10 ^ 18⟩], ?_, ?_⟩
  · intro e he
    rw [List.mem_singleton] at he
    subst he
    exact ⟨hw, by norm_num, by norm_num⟩
  · refine C27_tiny_probability R log 1 _ ?_ ⟨c!"a", 5, 1 / 10 ^ 18⟩ (by simp) (by norm_num) (by norm_num) (by norm_num)
    intro e he
    rw [List.mem_singleton] at he
    subst he
    exact hw

end

/-- What is written, and what loading it gives. -/
example : writeNgramFile [⟨c!"a b", 3, 1 / 3⟩, ⟨c!"c d", 12, 1⟩, ⟨c!"e f", 2, 0⟩] =
    c!"c d\t12\t1.00000000000000000\na b\t3\t0.33333333333333333\n" := by decide +kernel
example : loadFile Rounding.exact (fun p => p) [] (3, c!"c d\t12\t1.00\na b\t3\t0.333\nx y\t2\t0.5\n") =
    .ok [(c!"c d", 12, 1, ((1 : ℚ) : WithBot ℚ)), (c!"a b", 3, 333 / 1000, ((333 / 1000 : ℚ) : WithBot ℚ))] := by
  decide +kernel

/-! ### C28 -/

section
variable {R : Rounding} {log : ℚ → ℚ} {files : List (Int × Str)} {m : LM}

/-- **C28.** `has_ngram(g, k)` iff `k ≥ 1` and the last row of the files for `g`, among those that reach the minimum
count of their order, has a count of at least `k`. -/
theorem C28_has_ngram (h : LM.load R log files = .ok m) (g : Str) (k : Int) :
    m.hasNgram g k = true ↔ 1 ≤ k ∧ ∃ n p l, Spec.lastFor (rowsOf R log files) g = some (n, p, l) ∧ k ≤ n := by
  have hl := load_ok h
  rw [← hl.get?]
  unfold LM.hasNgram LM.detailsOf
  by_cases hk : k < 1
  · simp [hk]
  · simp only [hk, if_false, decide_eq_true_eq]
    cases Dict.get? m.details g with
    | none =>
      simp only [Option.getD_none, reduceCtorEq, false_and, exists_false, and_false, iff_false]
      omega
    | some v =>
      obtain ⟨n, p, l⟩ := v
      simp only [Option.getD_some, Option.some.injEq, Prod.mk.injEq]
      constructor
      · intro h; exact ⟨by omega, n, p, l, ⟨rfl, rfl, rfl⟩, h⟩
      · rintro ⟨_, n', p', l', ⟨rfl, _, _⟩, h⟩; exact h

/-- **C28.** Raising the threshold can only turn the answer to `False`. -/
theorem C28_antitone (m : LM) (g : Str) {k k' : Int} (h1 : 1 ≤ k) (h2 : k ≤ k') (h : m.hasNgram g k' = true) :
    m.hasNgram g k = true := by
  unfold LM.hasNgram at *
  rw [if_neg (by omega)] at *
  rw [decide_eq_true_eq] at *
  omega

/-- **C28.** `g in lm` iff some row for `g` was loaded. -/
theorem C28_contains (h : LM.load R log files = .ok m) (g : Str) :
    m.contains g = true ↔ ∃ r ∈ rowsOf R log files, r.1 = g := by
  have hl := load_ok h
  unfold LM.contains
  rw [Dict.has_iff, hl.details, keys_ofPairs_mem, List.mem_map]

/-- **C28.** What a loaded row is: three columns, the second one a number that reaches the minimum count of the
order. -/
theorem C28_rows (r : Str × Details) : r ∈ rowsOf R log files ↔ ∃ f ∈ files, ∃ line ∈ fileLines f.2, ∃ c p,
    splitOn line '\t' = [r.1, c, p] ∧ parseInt c = .ok r.2.1 ∧ f.1 ≤ r.2.1 ∧ parseFloat R p = .ok r.2.2.1 ∧
      r.2.2.2 = (log r.2.2.1 : WithBot ℚ) := by
  unfold rowsOf
  simp only [List.mem_flatMap, List.mem_filterMap]
  constructor
  · rintro ⟨f, hf, line, hl, h⟩
    refine ⟨f, hf, line, hl, ?_⟩
    have hx := accept_log h
    unfold accept at h
    split at h
    · rename_i text count proba hs
      split at h
      · rename_i n hn
        split at h
        · split at h
          · rename_i p hp
            rw [Option.some.injEq] at h
            subst h
            exact ⟨count, proba, hs, hn, hx.2, hp, hx.1⟩
          · simp at h
        · simp at h
      · simp at h
    · simp at h
  · rintro ⟨f, hf, line, hl, c, p, h1, h2, h3, h4, h5⟩
    refine ⟨f, hf, line, hl, ?_⟩
    unfold accept
    obtain ⟨t, n, q, l⟩ := r
    simp only at h1 h2 h3 h4 h5
    simp [h1, h2, h3, h4, h5]

/-! ### C29 -/

/-- **C29.** `best_ngram` never raises; it is `None` iff no candidate is known; otherwise it is a known candidate and the
first one with the greatest log-probability. -/
theorem C29_best_ngram (h : LM.load R log files = .ok m) (gs : List Str) :
    (∃ r, m.bestNgram gs = .ok r) ∧
    (m.bestNgram gs = .ok none ↔ ∀ g ∈ gs, m.contains g = false) ∧
    ∀ r, m.bestNgram gs = .ok (some r) → m.contains r = true ∧ Spec.FirstMax m.logp gs r := by
  unfold LM.bestNgram
  by_cases hk : gs.any m.contains = true
  · rw [if_pos hk]
    obtain ⟨g, hg, hgk⟩ := List.any_eq_true.mp hk
    have hne : (gs.map fun g => (g, m.logp g)) ≠ [] := by
      intro e
      rw [List.map_eq_nil_iff] at e
      rw [e] at hg
      simp at hg
    obtain ⟨x, rest, pre, post, h1, h2, h3, h4⟩ := sortDesc_head Prod.snd (gs.map fun g => (g, m.logp g)) hne
    rw [h1]
    have hx : index (x :: rest) 0 = .ok x := rfl
    rw [hx]
    simp only [bind, Except.bind, pure, Except.pure]
    refine ⟨⟨_, rfl⟩, ⟨fun e => by simp at e, fun e => ?_⟩, ?_⟩
    · rw [e g hg] at hgk; simp at hgk
    · intro r hr
      rw [Except.ok.injEq, Option.some.injEq] at hr
      subst hr
      obtain ⟨p1, p2, e1, e2, e3⟩ := List.map_eq_append_iff.mp h2
      obtain ⟨a, p3, e4, e5, e6⟩ := List.map_eq_cons_iff.mp e3
      have hxa : x = (a, m.logp a) := e5.symm
      have hf : Spec.FirstMax m.logp gs x.1 := by
        refine ⟨p1, p3, by rw [e1, e4, hxa], ?_, ?_⟩
        · intro y hy
          have := h3 (y, m.logp y) (by rw [← e2]; exact List.mem_map.mpr ⟨y, hy, rfl⟩)
          rw [hxa] at this ⊢
          exact this
        · intro y hy
          have := h4 (y, m.logp y) (by rw [← e6]; exact List.mem_map.mpr ⟨y, hy, rfl⟩)
          rw [hxa] at this ⊢
          exact this
      refine ⟨?_, hf⟩
      by_contra hc
      have hb := logp_unknown (Bool.eq_false_iff.mpr hc)
      obtain ⟨q, -, hq⟩ := (load_ok h).logp_known hgk
      have hle : m.logp g ≤ m.logp x.1 := by
        obtain ⟨u, v, e, hu, hv⟩ := hf
        rw [e] at hg
        rcases List.mem_append.mp hg with hg | hg
        · exact (hu g hg).le
        · rcases List.mem_cons.mp hg with rfl | hg
          · exact le_refl _
          · exact hv g hg
      rw [hb, hq] at hle
      exact absurd hle (by simp)
  · rw [if_neg hk]
    refine ⟨⟨_, rfl⟩, ⟨fun _ g hg => ?_, fun _ => rfl⟩, by simp⟩
    by_contra hc
    exact hk (List.any_eq_true.mpr ⟨g, hg, by simpa using hc⟩)

/-- The probability of an n-gram, 0 when it is unknown. -/
def proba (m : LM) (g : Str) : ℚ := (m.detailsOf g).2.1

/-- For a strictly increasing logarithm, comparing log-probabilities is comparing probabilities. -/
theorem logp_lt_iff (h : LM.load R log files = .ok m) (hlog : ∀ p q, 0 < p → p < q → log p < log q) (a b : Str) :
    m.logp a < m.logp b ↔ proba m a < proba m b := by
  have hl := load_ok h
  have hk : ∀ g, (m.logp g = ⊥ ∧ proba m g = 0) ∨ (m.logp g = (log (proba m g) : WithBot ℚ) ∧ 0 < proba m g) := by
    intro g
    unfold LM.logp proba LM.detailsOf
    cases hg : Dict.get? m.details g with
    | none => left; exact ⟨rfl, rfl⟩
    | some v =>
      right
      have := hl.mem_rows hg
      exact ⟨rowsOf_log this, hl.pos _ this⟩
  have hmono : ∀ p q, 0 < p → 0 < q → (log p < log q ↔ p < q) := by
    intro p q hp hq
    refine ⟨fun hlt => ?_, hlog p q hp⟩
    by_contra hn
    rcases lt_or_eq_of_le (not_lt.mp hn) with h | h
    · exact lt_asymm hlt (hlog q p hq h)
    · rw [h] at hlt; exact lt_irrefl _ hlt
  rcases hk a with ⟨h1, h2⟩ | ⟨h1, h2⟩ <;> rcases hk b with ⟨h3, h4⟩ | ⟨h3, h4⟩
  · rw [h1, h2, h3, h4]; simp
  · rw [h1, h2, h3]; simp [h4, WithBot.bot_lt_coe]
  · rw [h1, h3, h4]; simp [h2.le]
  · rw [h1, h3, WithBot.coe_lt_coe]; exact hmono _ _ h2 h4

/-- **C29.** In terms of probabilities: the first most probable candidate. -/
theorem C29_most_probable (h : LM.load R log files = .ok m) (hlog : ∀ p q, 0 < p → p < q → log p < log q) (gs : List Str)
    (r : Str) (hr : m.bestNgram gs = .ok (some r)) : Spec.FirstMax (proba m) gs r := by
  obtain ⟨pre, post, h1, h2, h3⟩ := ((C29_best_ngram h gs).2.2 r hr).2
  refine ⟨pre, post, h1, fun x hx => (logp_lt_iff h hlog x r).mp (h2 x hx), fun x hx => ?_⟩
  by_contra hc
  exact absurd ((logp_lt_iff h hlog r x).mpr (not_le.mp hc)) (not_lt.mpr (h3 x hx))

/-! ### C30 -/

/-- **C30.** `best_token` never raises; it is `None` iff no token is known; otherwise its vector (for the orders
`N, …, 2` the best log-probability of a candidate n-gram, then the log-probability of the token) is lexicographically
maximal, and it is the last such token. -/
theorem C30_best_token (m : LM) (tokens before after : List Str) :
    (∃ r, m.bestToken tokens before after = .ok r) ∧
    (m.bestToken tokens before after = .ok none ↔ ∀ t ∈ tokens, m.contains t = false) ∧
    ∀ t, m.bestToken tokens before after = .ok (some t) → ∃ i : Nat, tokens[i]? = some t ∧
      ∀ (j : Nat) (u : Str), tokens[j]? = some u →
        Spec.LexLe (evidence m before after u) (evidence m before after t) ∧
          (evidence m before after u = evidence m before after t → j ≤ i) := by
  by_cases hk : tokens.any m.contains = true
  · obtain ⟨i, t, h1, h2, h3⟩ := bestToken_spec m tokens before after hk
    rw [h2]
    refine ⟨⟨_, rfl⟩, ⟨fun e => by simp at e, fun e => ?_⟩, ?_⟩
    · obtain ⟨g, hg, hgk⟩ := List.any_eq_true.mp hk
      rw [e g hg] at hgk; simp at hgk
    · intro t' e
      rw [Except.ok.injEq, Option.some.injEq] at e
      subst e
      exact ⟨i, h1, fun j u hu => ⟨lexLe_of_le (length_evidence ..) (h3 j u hu).1, (h3 j u hu).2⟩⟩
  · have e : m.bestToken tokens before after = .ok none := by
      unfold LM.bestToken
      rw [if_neg hk]
    rw [e]
    refine ⟨⟨_, rfl⟩, ⟨fun _ g hg => ?_, fun _ => rfl⟩, by simp⟩
    by_contra hc
    exact hk (List.any_eq_true.mpr ⟨g, hg, by simpa using hc⟩)

/-! ### C31 -/

/-- **C31.** `top_ngrams(n, limit)`: exactly the loaded n-grams with `n` words, with count and probability, by
descending probability (equal ones in loading order), cut to `limit`. -/
theorem C31_top_ngrams (m : LM) (n : Int) (limit : Option Int) : ∃ full,
    Spec.Cut full limit (m.topNgrams n limit) ∧
    Spec.StableDesc (fun e : Str × Int × ℚ => e.2.2)
      ((m.details.filter fun e => ((splitWs e.1).length : Int) = n).map fun e => (e.1, e.2.1, e.2.2.1)) full :=
  ⟨_, cut_sliceLimit _ limit, stableDesc_sortDesc _ _⟩

/-- **C31.** Membership: an n-gram is listed (without limit) iff it is known, with its count and probability, and has
`n` words. -/
theorem C31_membership (h : LM.load R log files = .ok m) (n : Int) (g : Str) (c : Int) (p : ℚ) :
    (g, c, p) ∈ m.topNgrams n none ↔ ((splitWs g).length : Int) = n ∧ ∃ l, Dict.get? m.details g = some (c, p, l) := by
  unfold LM.topNgrams sliceLimit
  simp only
  rw [mem_sortDesc, List.mem_map]
  have hl := load_ok h
  constructor
  · rintro ⟨⟨g', c', p', l'⟩, he, e⟩
    simp only [Prod.mk.injEq] at e
    obtain ⟨rfl, rfl, rfl⟩ := e
    rw [List.mem_filter] at he
    exact ⟨by simpa using he.2, l', Dict.get?_of_mem hl.wf he.1⟩
  · rintro ⟨h1, l, h2⟩
    exact ⟨(g, c, p, l), List.mem_filter.mpr ⟨Dict.mem_of_get? h2, by simpa using h1⟩, rfl⟩

/-- **C31.** No n-gram is listed twice. -/
theorem C31_nodup (h : LM.load R log files = .ok m) (n : Int) : ((m.topNgrams n none).map Prod.fst).Nodup := by
  have hl := load_ok h
  unfold LM.topNgrams sliceLimit
  simp only
  rw [((sortDesc_perm _ _).map Prod.fst).nodup_iff, List.map_map]
  have : (Prod.fst ∘ fun e : Str × Details => (e.1, e.2.1, e.2.2.1)) = Prod.fst := rfl
  rw [this]
  exact hl.wf.sublist (List.filter_sublist.map Prod.fst)

/-! ### C32 -/

/-- **C32.** `next_word`, for a text of words without white space: the continuations, by descending probability and cut
to `limit`, of the longest suffix of at most `N - 1` words that has some; `[]` if there is none. -/
theorem C32_next_word (h : LM.load R log files = .ok m) (tokens : List Str) (ht : ∀ t ∈ tokens, NoBlank t)
    (limit : Option Int) :
    (m.nextWord tokens limit = [] ∧ ∀ i, 1 ≤ i → i < m.maxOrder → contsOf m.details (Spec.suffixN i tokens) = []) ∨
    ∃ i full, 1 ≤ i ∧ i < m.maxOrder ∧ contsOf m.details (Spec.suffixN i tokens) ≠ [] ∧
      (∀ j, i < j → j < m.maxOrder → contsOf m.details (Spec.suffixN j tokens) = []) ∧
      Spec.StableDesc Prod.snd (contsOf m.details (Spec.suffixN i tokens)) full ∧
      Spec.Cut full limit (m.nextWord tokens limit) := by
  have hl := load_ok h
  have hget : ∀ i, 1 ≤ i → i < m.maxOrder → Dict.get? m.nextTokens (join c!" " (sliceFrom tokens (-(i : Int)))) =
      if contsOf m.details (Spec.suffixN i tokens) = [] then none
      else some (sortDesc Prod.snd (contsOf m.details (Spec.suffixN i tokens))) := by
    intro i h1 h2
    rw [hl.maxOrder] at h2
    rw [sliceFrom_neg _ _ (by omega), hl.next _ (by omega), continuations_eq]
    intro w hw
    exact ht w (List.mem_of_mem_drop hw)
  have hmem : ∀ i, i ∈ ((List.range (m.maxOrder - 1)).map (· + 1)).reverse ↔ 1 ≤ i ∧ i < m.maxOrder := by
    intro i
    simp only [List.mem_reverse, List.mem_map, List.mem_range]
    constructor
    · rintro ⟨a, ha, rfl⟩; omega
    · rintro ⟨h1, h2⟩; exact ⟨i - 1, by omega, by omega⟩
  unfold LM.nextWord
  rcases nextLoop_eq m tokens limit (((List.range (m.maxOrder - 1)).map (· + 1)).reverse) with
    ⟨h1, h2⟩ | ⟨pre, i, post, l, h1, h2, h3, h4⟩
  · left
    refine ⟨h1, ?_⟩
    intro i hi1 hi2
    have := h2 i ((hmem i).mpr ⟨hi1, hi2⟩)
    rw [hget i hi1 hi2] at this
    by_contra hc
    simp [hc] at this
  · right
    have hi := (hmem i).mp (by rw [h1]; simp)
    rw [hget i hi.1 hi.2] at h3
    by_cases hc : contsOf m.details (Spec.suffixN i tokens) = []
    · simp [hc] at h3
    · rw [if_neg hc, Option.some.injEq] at h3
      refine ⟨i, _, hi.1, hi.2, hc, ?_, stableDesc_sortDesc _ _, by rw [h4, ← h3]; exact cut_sliceLimit _ _⟩
      intro j hj1 hj2
      have hjm := (hmem j).mpr ⟨by omega, hj2⟩
      have hsorted : (((List.range (m.maxOrder - 1)).map (· + 1)).reverse).Pairwise (· > ·) := by
        rw [List.pairwise_reverse, List.pairwise_map]
        exact List.pairwise_lt_range.imp (by intro a b h; omega)
      rw [h1] at hjm hsorted
      have hjpre : j ∈ pre := by
        rcases List.mem_append.mp hjm with hjm | hjm
        · exact hjm
        · exfalso
          rw [List.pairwise_append] at hsorted
          rcases List.mem_cons.mp hjm with rfl | hjm
          · omega
          · have := (List.pairwise_cons.mp hsorted.2.1).1 j hjm
            omega
      have := h2 j hjpre
      rw [hget j (by omega) hj2] at this
      by_contra hc'
      simp [hc'] at this

/-- **C32.** What a continuation is: a known n-gram made of the words of the context and one more, with its
probability. -/
theorem C32_continuations (h : LM.load R log files = .ok m) (ws : List Str) (hw : ws ≠ []) (w : Str) (p : ℚ) :
    (w, p) ∈ contsOf m.details ws ↔ ∃ g c l, Dict.get? m.details g = some (c, p, l) ∧ splitWs g = ws ++ [w] := by
  have hl := load_ok h
  unfold contsOf
  rw [List.mem_filterMap]
  constructor
  · rintro ⟨⟨g, c, q, l⟩, he, e⟩
    simp only at e
    cases hlast : (splitWs g).getLast? with
    | none => rw [hlast] at e; simp at e
    | some last =>
      rw [hlast] at e
      simp only at e
      split at e
      · rename_i hs
        rw [Option.some.injEq, Prod.mk.injEq] at e
        obtain ⟨rfl, rfl⟩ := e
        exact ⟨g, c, l, Dict.get?_of_mem hl.wf he, hs.1⟩
      · simp at e
  · rintro ⟨g, c, l, h1, h2⟩
    refine ⟨(g, c, p, l), Dict.mem_of_get? h1, ?_⟩
    have hlast : (splitWs g).getLast? = some w := by rw [h2]; simp
    simp [h2, hw]

/-- The empty text, which the tokenizer turns into one empty token, has no next word. -/
theorem C32_empty_text (h : LM.load R log files = .ok m) (limit : Option Int) : m.nextWord [c!""] limit = [] := by
  have hl := load_ok h
  have hget : ∀ i, 1 ≤ i → i < m.maxOrder → Dict.get? m.nextTokens (join c!" " (sliceFrom [c!""] (-(i : Int)))) = none := by
    intro i h1 h2
    rw [hl.maxOrder] at h2
    rw [sliceFrom_neg _ _ (by omega), hl.next _ (by omega)]
    have e : Spec.suffixN i [c!""] = [c!""] := by
      unfold Spec.suffixN
      have : [c!""].length - i = 0 := by simp; omega
      rw [this]; rfl
    rw [e]
    have e2 : join c!" " [c!""] = join c!" " [] := rfl
    rw [e2, continuations_eq _ (by simp)]
    have : contsOf m.details [] = [] := by
      unfold contsOf
      rw [List.filterMap_eq_nil_iff]
      intro a _
      split <;> simp
    rw [this]
    rfl
  unfold LM.nextWord
  rcases nextLoop_eq m [c!""] limit (((List.range (m.maxOrder - 1)).map (· + 1)).reverse) with
    ⟨h1, h2⟩ | ⟨pre, i, post, l, h1, h2, h3, h4⟩
  · exact h1
  · have hi : i ∈ ((List.range (m.maxOrder - 1)).map (· + 1)).reverse := by rw [h1]; simp
    simp only [List.mem_reverse, List.mem_map, List.mem_range] at hi
    obtain ⟨a, ha, rfl⟩ := hi
    rw [hget (a + 1) (by omega) (by omega)] at h3
    simp at h3

end

/-! ### A concrete model -/

/-- Unigrams and bigrams of a small corpus. -/
def demoFiles : List (Int × Str) :=
  [(2, c!"the\t5\t0.5\na\t3\t0.25\ncat\t2\t0.25\nrare\t1\t0.01\n"), (1, c!"the cat\t2\t0.5\nthe a\t1\t0.75\n")]

def demoDetails : Dict Str Details :=
  [(c!"the", 5, 1 / 2, ((1 / 2 : ℚ) : WithBot ℚ)), (c!"a", 3, 1 / 4, ((1 / 4 : ℚ) : WithBot ℚ)),
   (c!"cat", 2, 1 / 4, ((1 / 4 : ℚ) : WithBot ℚ)), (c!"the cat", 2, 1 / 2, ((1 / 2 : ℚ) : WithBot ℚ)),
   (c!"the a", 1, 3 / 4, ((3 / 4 : ℚ) : WithBot ℚ))]

def demoLM : LM := ⟨2, demoDetails, [(c!"the", [(c!"a", 3 / 4), (c!"cat", 1 / 2)])]⟩

deriving instance DecidableEq for LM

example : LM.load Rounding.exact (fun p => p) demoFiles = .ok demoLM := by decide +kernel
example : demoLM.hasNgram c!"the" 5 = true ∧ demoLM.hasNgram c!"the" 6 = false ∧ demoLM.hasNgram c!"rare" 1 = false := by
  decide +kernel
example : demoLM.bestNgram [c!"x", c!"a", c!"cat"] = .ok (some c!"a") := by decide +kernel
example : demoLM.bestToken [c!"cat", c!"a"] [c!"the"] [] = .ok (some c!"a") ∧
    demoLM.bestToken [c!"cat", c!"a"] [] [] = .ok (some c!"a") ∧
    demoLM.bestToken [c!"a", c!"cat"] [] [] = .ok (some c!"cat") := by decide +kernel
example : demoLM.topNgrams 1 (some 2) = [(c!"the", 5, 1 / 2), (c!"a", 3, 1 / 4)] := by decide +kernel
example : demoLM.nextWord [c!"see", c!"the"] none = [(c!"a", 3 / 4), (c!"cat", 1 / 2)] := by decide +kernel

end Props
