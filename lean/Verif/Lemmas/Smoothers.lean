import Verif.Model.Smoothers
import Verif.Spec.Smoothers
import Verif.Lemmas.Ngrams
import Verif.Lemmas.Chunker
import Verif.Props.Mutables
import Mathlib.Tactic.Linarith
import Mathlib.Tactic.Positivity
import Mathlib.Tactic.FieldSimp

namespace Model
open Py

/-! ### Process ranges -/

theorem linspaceMark_le (R : Rounding) (n k i : ℕ) (hi : i < k) (hn : n ≤ 2 ^ 53) (hk : k ≤ 2 ^ 53) :
    linspaceMark R n k i ≤ n := by
  unfold linspaceMark
  rw [if_neg (by omega), ← R.nat n hn]
  apply R.mono
  rw [R.nat n hn]
  have hk0 : (0 : ℚ) < k := by exact_mod_cast (by omega : 0 < k)
  have hn0 : (0 : ℚ) ≤ n := by positivity
  have h1 := R.err (n / k) (by positivity)
  rw [abs_le] at h1
  have h2 : R.fl (n / k) ≤ n / k * (1 + 1 / 2 ^ 53) := by
    have := h1.2
    have e : (n : ℚ) / k / 2 ^ 53 = n / k * (1 / 2 ^ 53) := by ring
    rw [e] at this
    linarith
  have h3 : (i : ℚ) ≤ k - 1 := by
    have : (i : ℚ) + 1 ≤ k := by exact_mod_cast hi
    linarith
  have hfl0 : 0 ≤ R.fl (n / k) := R.fl_nonneg (by positivity)
  have h4 : (i : ℚ) * R.fl (n / k) ≤ (k - 1) * (n / k * (1 + 1 / 2 ^ 53)) := by
    apply mul_le_mul h3 h2 hfl0
    have : (1 : ℚ) ≤ k := by exact_mod_cast (by omega : 1 ≤ k)
    linarith
  have h5 : ((k : ℚ) - 1) * (1 + 1 / 2 ^ 53) ≤ k := by
    have : (k : ℚ) ≤ 2 ^ 53 := by exact_mod_cast hk
    have : (k : ℚ) * (1 / 2 ^ 53) ≤ 1 := by
      rw [mul_one_div, div_le_one (by positivity)]
      exact this
    nlinarith
  have h6 : ((k : ℚ) - 1) * (n / k * (1 + 1 / 2 ^ 53)) = n / k * ((k - 1) * (1 + 1 / 2 ^ 53)) := by ring
  have h7 : (n : ℚ) / k * ((k - 1) * (1 + 1 / 2 ^ 53)) ≤ n / k * k :=
    mul_le_mul_of_nonneg_left h5 (by positivity)
  have h8 : (n : ℚ) / k * k = n := by field_simp
  linarith

theorem mark_le (R : Rounding) (n k i : ℕ) (hi : i ≤ k) (hn : n ≤ 2 ^ 53) (hk : k ≤ 2 ^ 53) : mark R n k i ≤ n := by
  rcases Nat.lt_or_ge i k with h | h
  · have := linspaceMark_le R n k i h hn hk
    unfold mark
    exact Nat.floor_le_of_le this
  · rw [Nat.le_antisymm hi h, mark_last]

theorem range_slice (n a b : Nat) (h : b ≤ n) : ((List.range n).take b).drop a = (List.range (b - a)).map (a + ·) := by
  apply List.ext_getElem
  · simp; omega
  · intro i h1 h2
    simp

/-- The ranges partition `range(n)`. -/
theorem processRanges_flatten (R : Rounding) (n nb : Nat) (hb : 0 < nb) (hn : n ≤ 2 ^ 53) (hk : nb ≤ 2 ^ 53) :
    (processRanges R n nb).flatten = List.range n := by
  have h1 : processRanges R n nb = (List.range nb).map fun i =>
      ((List.range n).take (mark R n nb (i + 1))).drop (mark R n nb i) := by
    unfold processRanges
    apply List.map_congr_left
    intro i hi
    rw [List.mem_range] at hi
    rw [range_slice _ _ _ (mark_le R n nb (i + 1) (by omega) hn hk), pyInt_linspaceMark, pyInt_linspaceMark]
    rfl
  rw [h1, flatten_slices (List.range n) (mark R n nb) (mark_zero R n hb) nb]
  · rw [mark_last, List.take_of_length_le (by simp)]
  · intro i hi
    rcases Nat.lt_or_ge (i + 1) nb with h | h
    · exact mark_mono R n nb i h
    · have : i + 1 = nb := by omega
      rw [this, mark_last]
      exact mark_le R n nb i (by omega) hn hk

theorem length_processRanges (R : Rounding) (n nb : Nat) : (processRanges R n nb).length = nb := by
  simp [processRanges]

/-! ### Multithreaded calculation -/

theorem concatSlices_eq (outs : List (List Num)) (h : outs ≠ []) : concatSlices outs = .ok outs.flatten := by
  cases outs with
  | nil => exact absurd rfl h
  | cons x outs =>
    have h0 : index (x :: outs) 0 = .ok x := rfl
    have h1 : sliceFrom (x :: outs) 1 = outs := by
      have := sliceFrom_nat (x :: outs) 1
      simpa using this
    unfold concatSlices
    rw [h0, h1]
    show Except.ok (outs.foldl (fun a b => a ++ b) x) = _
    congr 1
    induction outs generalizing x with
    | nil => simp
    | cons y outs ih => rw [List.foldl_cons, ih (x ++ y) (by simp) rfl (by
        have := sliceFrom_nat ((x ++ y) :: outs) 1
        simpa using this)]; simp

theorem calcNgramsMultithread_spec {α} (R : Rounding) (slices : List α) (process : α → List Num) (nb : Nat)
    (hb : 0 < nb) (hs : slices ≠ []) :
    ∃ ret : List Move → Bool, (∀ s, calcNgramsMultithread R slices process nb s =
        .ok (if ret s then some (slices.flatMap process) else none)) ∧
      ∀ s, ∃ s', ret (s ++ s') = true := by
  obtain ⟨hmap, hprog⟩ := Props.C04_run_multithreads_map R slices process (nb : Int) (by exact_mod_cast hb)
  obtain ⟨parts, hp, _⟩ := Props.C01_divide_list_partition R slices (nb : Int) (by exact_mod_cast hb)
  have hdich : ∀ s, runMultithreads R slices (fun x => .ok (process x)) (nb : Int) s = .ok none ∨
      runMultithreads R slices (fun x => .ok (process x)) (nb : Int) s = .ok (some (slices.map process)) := by
    intro s
    have : ∃ o, runMultithreads R slices (fun x => .ok (process x)) (nb : Int) s = .ok o := by
      unfold runMultithreads
      rw [hp]
      exact ⟨_, rfl⟩
    obtain ⟨o, ho⟩ := this
    cases o with
    | none => exact Or.inl ho
    | some out => rw [ho, hmap s out ho]; exact Or.inr rfl
  refine ⟨fun s => decide (runMultithreads R slices (fun x => .ok (process x)) (nb : Int) s ≠ .ok none), ?_, ?_⟩
  · intro s
    unfold calcNgramsMultithread
    rcases hdich s with h | h
    · simp only [h, bind, Except.bind]
      simp
    · simp only [h, bind, Except.bind]
      rw [concatSlices_eq _ (by simpa using hs)]
      simp [pure, Except.pure, List.flatMap]
  · intro s
    obtain ⟨s', hs'⟩ := hprog s
    refine ⟨s', ?_⟩
    simp only [hs']
    simp

/-! ### Dictionaries of n-grams per order -/

theorem dict_set_set {κ ν} [DecidableEq κ] (d : Dict κ ν) (k : κ) (v w : ν) :
    Dict.set (Dict.set d k v) k w = Dict.set d k w := by
  induction d with
  | nil => simp [Dict.set]
  | cons p d ih =>
    obtain ⟨a, b⟩ := p
    by_cases h : a = k
    · simp [Dict.set, h]
    · simp [Dict.set, h, ih]

theorem dict_set_self {κ ν} [DecidableEq κ] {d : Dict κ ν} {k : κ} {v : ν} (h : Dict.get? d k = some v) :
    Dict.set d k v = d := by
  induction d with
  | nil => simp at h
  | cons p d ih =>
    obtain ⟨a, b⟩ := p
    by_cases hk : a = k
    · simp [Dict.get?, hk] at h
      simp [Dict.set, hk, h]
    · simp [Dict.get?, hk] at h
      simp [Dict.set, hk, ih h]

/-- The n-gram with its probability set. -/
def Ngram.withProba (g : Ngram) (p : Num) : Ngram := { g with proba := some p }

theorem assignProbas_aux (order : Nat) (d : Dict Nat (List Ngram)) (gs : List Ngram)
    (h : Dict.get? d order = some gs) (ps : List Num) (hl : ps.length ≤ gs.length) :
    assignProbas d order ps =
      .ok (Dict.set d order (List.zipWith Ngram.withProba gs ps ++ gs.drop ps.length)) := by
  unfold assignProbas
  induction ps using List.reverseRecOn with
  | nil =>
    simp only [List.zipIdx_nil, List.foldlM_nil, List.zipWith_nil_right, List.length_nil, List.drop_zero,
      List.nil_append]
    rw [dict_set_self h]
    rfl
  | append_singleton ps p ih =>
    rw [List.length_append, List.length_singleton] at hl
    rw [List.zipIdx_append, List.foldlM_append, ih (by omega)]
    simp only [Nat.zero_add, List.zipIdx_cons, List.zipIdx_nil, List.foldlM_cons, List.foldlM_nil, bind, Except.bind]
    unfold assignOne
    simp only [Dict.get, Dict.get?_set_self, bind, Except.bind]
    have hlen : (List.zipWith Ngram.withProba gs ps ++ gs.drop ps.length).length = gs.length := by
      rw [List.length_append, List.length_zipWith, List.length_drop]; omega
    rw [hlen, if_pos (by omega), dict_set_set]
    show Except.ok _ = Except.ok _
    congr 2
    have hz : (List.zipWith Ngram.withProba gs ps).length = ps.length := by
      rw [List.length_zipWith]; omega
    apply List.ext_getElem?
    intro i
    rw [List.getElem?_modify, List.getElem?_append, List.getElem?_append, hz]
    have hz' : (List.zipWith Ngram.withProba gs (ps ++ [p])).length = ps.length + 1 := by
      rw [List.length_zipWith, List.length_append, List.length_singleton]; omega
    rw [hz']
    rcases Nat.lt_trichotomy i ps.length with h1 | h1 | h1
    · rw [if_pos h1, if_pos (by omega)]
      have : ps.length ≠ i := by omega
      simp only [this, if_false, id_map']
      rw [List.getElem?_zipWith, List.getElem?_zipWith, List.getElem?_append_left h1]
    · subst h1
      rw [if_neg (by omega), if_pos (by omega)]
      rw [List.getElem?_zipWith, List.getElem?_append_right (Nat.le_refl _), List.getElem?_drop]
      have : ps.length < gs.length := by omega
      simp [this, Ngram.withProba]
    · rw [if_neg (by omega), if_neg (by omega)]
      have : ps.length ≠ i := by omega
      simp only [this, if_false]
      rw [List.getElem?_drop, List.getElem?_drop, List.length_append, List.length_singleton]
      have e1 : ps.length + (i - ps.length) = i := by omega
      have e2 : ps.length + 1 + (i - (ps.length + 1)) = i := by omega
      rw [e1, e2]
      simp

theorem assignProbas_map (order : Nat) (d : Dict Nat (List Ngram)) (gs : List Ngram) (f : Ngram → Num)
    (h : (Dict.get? d order).getD [] = gs) :
    ∃ d', assignProbas d order (gs.map f) = .ok d' ∧ (∀ o, o ≠ order → Dict.get? d' o = Dict.get? d o) ∧
      (Dict.get? d' order).getD [] = gs.map fun g => g.withProba (f g) := by
  cases hg : Dict.get? d order with
  | none =>
    rw [hg] at h
    subst h
    exact ⟨d, rfl, fun _ _ => rfl, by rw [hg]; rfl⟩
  | some l =>
    rw [hg] at h
    simp only [Option.getD_some] at h
    subst h
    refine ⟨_, assignProbas_aux order d l hg (l.map f) (by simp), ?_, ?_⟩
    · intro o ho
      rw [Dict.get?_set_ne _ (Ne.symm ho)]
    · rw [Dict.get?_set_self, Option.getD_some, List.length_map, List.drop_length, List.append_nil]
      rw [List.zipWith_map_right, List.zipWith_self]

theorem appendToDictList_eq {κ ι} [DecidableEq κ] (d : Dict κ (List ι)) (k : κ) (x : ι) :
    appendToDictList d k x = Dict.set d k ((Dict.get? d k).getD [] ++ [x]) := by
  unfold appendToDictList
  cases Dict.get? d k <;> rfl

/-- Grouping by order. -/
def groupByOrder (gs : List Ngram) (d : Dict Nat (List Ngram)) : Dict Nat (List Ngram) :=
  gs.foldl (fun d g => appendToDictList d g.order g) d

theorem groupByOrder_getD (gs : List Ngram) (d : Dict Nat (List Ngram)) (o : Nat) :
    (Dict.get? (groupByOrder gs d) o).getD [] = (Dict.get? d o).getD [] ++ gs.filter fun g => g.order = o := by
  unfold groupByOrder
  induction gs generalizing d with
  | nil => simp
  | cons g gs ih =>
    rw [List.foldl_cons, ih, get?_appendToDictList, List.filter_cons]
    by_cases h : g.order = o <;> simp [h]

theorem groupByOrder_wf (gs : List Ngram) (d : Dict Nat (List Ngram)) (h : Dict.Wf d) :
    Dict.Wf (groupByOrder gs d) := by
  unfold groupByOrder
  induction gs generalizing d with
  | nil => exact h
  | cons g gs ih =>
    rw [List.foldl_cons]
    apply ih
    rw [appendToDictList_eq]
    exact h.set _ _

theorem groupByOrder_keys (gs : List Ngram) (d : Dict Nat (List Ngram)) (o : Nat) :
    o ∈ Dict.keys (groupByOrder gs d) ↔ o ∈ Dict.keys d ∨ ∃ g ∈ gs, g.order = o := by
  unfold groupByOrder
  induction gs generalizing d with
  | nil => simp
  | cons g gs ih =>
    rw [List.foldl_cons, ih, mem_keys_appendToDictList]
    simp only [List.mem_cons, exists_eq_or_imp]
    constructor
    · rintro ((h | h) | h)
      · exact Or.inr (Or.inl h.symm)
      · exact Or.inl h
      · exact Or.inr (Or.inr h)
    · rintro (h | h | h)
      · exact Or.inl (Or.inr h)
      · exact Or.inl (Or.inl h.symm)
      · exact Or.inr h

theorem get_of_mem_keys {κ ν} [DecidableEq κ] {d : Dict κ ν} {k : κ} {v w : ν} (h : k ∈ Dict.keys d)
    (hv : (Dict.get? d k).getD w = v) : Dict.get d k = .ok v := by
  rw [← Dict.get?_isSome_iff] at h
  unfold Dict.get
  cases hk : Dict.get? d k with
  | none => rw [hk] at h; cases h
  | some x => rw [hk] at hv; simp only [Option.getD_some] at hv; rw [hv]

/-! ### All orders -/

/-- What the smoothers do order by order. `F` is the probability to be assigned. -/
theorem forOrders_spec (F : Nat → Ngram → Num) (grp : Nat → List Ngram)
    (step : (Nat → List Move) → Dict Nat (List Ngram) → Nat → Except PyErr (Option (Dict Nat (List Ngram))))
    (ret : Nat → List Move → Bool) :
    ∀ (os : List Nat), os.Nodup →
    (∀ o ∈ os, ∀ d, (Dict.get? d o).getD [] = grp o → ((Dict.get? d o).isSome ↔ grp o ≠ []) →
      ∃ d', (∀ sched, step sched d o = .ok (if ret o (sched o) then some d' else none)) ∧
        (∀ o', o' ≠ o → Dict.get? d' o' = Dict.get? d o') ∧
        (Dict.get? d' o).getD [] = (grp o).map (fun g => g.withProba (F o g))) →
    ∀ d, (∀ o ∈ os, (Dict.get? d o).getD [] = grp o) → (∀ o ∈ os, (Dict.get? d o).isSome ↔ grp o ≠ []) →
    ∃ D, (∀ sched, forOrders (step sched) os d =
        .ok (if os.all (fun o => ret o (sched o)) then some D else none)) ∧
      ∀ o, (Dict.get? D o).getD [] =
        if o ∈ os then (grp o).map (fun g => g.withProba (F o g)) else (Dict.get? d o).getD []
  | [], _, _, d, _, _ => ⟨d, fun sched => rfl, fun o => by simp⟩
  | o :: os, hnd, hstep, d, hd, hsome => by
    rw [List.nodup_cons] at hnd
    obtain ⟨d', h1, h2, h3⟩ := hstep o (by simp) d (hd o (by simp)) (hsome o (by simp))
    have hd' : ∀ o' ∈ os, (Dict.get? d' o').getD [] = grp o' := by
      intro o' ho'
      have : o' ≠ o := by rintro rfl; exact hnd.1 ho'
      rw [h2 o' this]
      exact hd o' (by simp [ho'])
    have hsome' : ∀ o' ∈ os, (Dict.get? d' o').isSome ↔ grp o' ≠ [] := by
      intro o' ho'
      have : o' ≠ o := by rintro rfl; exact hnd.1 ho'
      rw [h2 o' this]; exact hsome o' (by simp [ho'])
    obtain ⟨D, ih1, ih2⟩ := forOrders_spec F grp step ret os hnd.2 (fun o' ho' => hstep o' (by simp [ho'])) d' hd' hsome'
    refine ⟨D, ?_, ?_⟩
    · intro sched
      rw [forOrders, h1 sched]
      by_cases hr : ret o (sched o) = true
      · simp only [hr, if_true, bind, Except.bind, ih1, List.all_cons, Bool.true_and]
      · simp [hr, bind, Except.bind]
    · intro o'
      rw [ih2 o']
      by_cases e : o' = o
      · subst e
        simp [hnd.1, h3]
      · simp only [List.mem_cons, e, false_or]
        rw [h2 o' e]

theorem returns_of_ret {α} {call : (Nat → List Move) → Except PyErr (Option α)} {P : α → Prop} (D : α)
    (ret : Nat → List Move → Bool) (hret : ∀ o s, ∃ s', ret o (s ++ s') = true) (os : List Nat)
    (h : ∀ sched, call sched = .ok (if os.all (fun o => ret o (sched o)) then some D else none)) (hP : P D) :
    Spec.Returns call P := by
  constructor
  · intro sched
    rw [h]
    split
    · exact Or.inr ⟨D, rfl, hP⟩
    · exact Or.inl rfl
  · intro sched
    choose more hmore using fun o => hret o (sched o)
    refine ⟨more, D, ?_⟩
    rw [h, if_pos]
    rw [List.all_eq_true]
    exact fun o _ => hmore o

/-! ### Slices -/

/-- The n-gram at a position (a dummy out of range). -/
def gramAt (gs : List Ngram) (i : Nat) : Ngram := gs.getD i { text := [] }

theorem index_gramAt {gs : List Ngram} {i : Nat} (h : i < gs.length) : index gs (i : Int) = .ok (gramAt gs i) := by
  rw [index_nat]
  simp [gramAt, h]

theorem map_gramAt (gs : List Ngram) {β} (F : Ngram → β) : (List.range gs.length).map (fun i => F (gramAt gs i)) = gs.map F := by
  apply List.ext_getElem
  · simp
  · intro i h1 h2
    rw [List.length_map] at h2
    simp [gramAt, h2]

theorem mem_range_of_flatten {ranges : List (List Nat)} {n : Nat} (h : ranges.flatten = List.range n) {r : List Nat}
    (hr : r ∈ ranges) {i : Nat} (hi : i ∈ r) : i < n := by
  rw [← List.mem_range, ← h]
  exact List.mem_flatten.mpr ⟨r, hr, hi⟩

theorem slices_eq {β} {ranges : List (List Nat)} {gs : List Ngram} (hflat : ranges.flatten = List.range gs.length)
    (f : List Nat → Except PyErr β) (F : List Nat → β)
    (hf : ∀ r ∈ ranges, (∀ i ∈ r, i < gs.length) → f r = .ok (F r)) :
    ranges.mapM f = .ok (ranges.map F) :=
  mapM_ok _ _ _ fun r hr => hf r hr fun _ hi => mem_range_of_flatten hflat hr hi

theorem flatMap_ranges {ranges : List (List Nat)} {gs : List Ngram} (hflat : ranges.flatten = List.range gs.length)
    {β} (F : Ngram → β) : ranges.flatMap (fun r => r.map fun i => F (gramAt gs i)) = gs.map F := by
  rw [← map_gramAt gs F, ← hflat, List.map_flatten]
  rfl

theorem processRanges_ne_nil (R : Rounding) (n : Nat) {nb : Nat} (hb : 0 < nb) : processRanges R n nb ≠ [] := by
  rw [← List.length_pos_iff, length_processRanges]
  exact hb

/-! ### Maximum likelihood -/

/-- Sum of the counts of an order. -/
def totalOf (gs : List Ngram) (o : Nat) : Nat := ((gs.filter fun g => g.order = o).map Ngram.count).sum

theorem mleFold (N : Nat) : ∀ (gs : List Ngram) (t : Dict Nat Nat) (d : Dict Nat (List Ngram)),
    (∀ o, (Dict.get? t o).isSome ↔ 1 ≤ o ∧ o ≤ N) → (∀ g ∈ gs, 1 ≤ g.order ∧ g.order ≤ N) →
    ∃ t', gs.foldlM mleCount (t, d) = .ok (t', groupByOrder gs d) ∧
      ∀ o, Dict.get? t' o = (Dict.get? t o).map (· + totalOf gs o)
  | [], t, d, _, _ => ⟨t, rfl, fun o => by simp [totalOf]⟩
  | g :: gs, t, d, ht, hg => by
    have hs := (ht g.order).mpr (hg g (by simp))
    obtain ⟨c, hc⟩ := Option.isSome_iff_exists.mp hs
    have ht' : ∀ o, (Dict.get? (Dict.set t g.order (c + g.count)) o).isSome ↔ 1 ≤ o ∧ o ≤ N := by
      intro o
      rw [Dict.get?_set]
      split
      · rename_i e
        subst e
        simpa using hg g (by simp)
      · exact ht o
    obtain ⟨t', h1, h2⟩ := mleFold N gs _ (appendToDictList d g.order g) ht' fun g' h' => hg g' (by simp [h'])
    refine ⟨t', ?_, ?_⟩
    · rw [List.foldlM_cons]
      unfold mleCount
      simp only [Dict.get, hc, bind, Except.bind, pure, Except.pure]
      exact h1
    · intro o
      rw [h2 o, Dict.get?_set]
      by_cases e : g.order = o
      · subst e
        simp [hc, totalOf, Nat.add_assoc]
      · simp [e, totalOf]

theorem mleInit_eq (gs : List Ngram) (N : Nat) (hg : ∀ g ∈ gs, 1 ≤ g.order ∧ g.order ≤ N) :
    ∃ t, mleInit gs N = .ok (t, groupByOrder gs []) ∧ ∀ o, 1 ≤ o → o ≤ N → Dict.get? t o = some (totalOf gs o) := by
  have hk : ∀ o, Dict.get? (Dict.ofPairs ((List.range N).map fun i => (i + 1, 0))) o =
      if 1 ≤ o ∧ o ≤ N then some 0 else none := by
    intro o
    split
    · rename_i h
      have hmem : o ∈ Dict.keys (((List.range N).map fun i => (i + 1, 0)).reverse) := by
        unfold Dict.keys
        simp only [List.map_reverse, List.mem_reverse, List.map_map, List.mem_map, List.mem_range]
        exact ⟨o - 1, by omega, by simp only [Function.comp]; omega⟩
      rw [Dict.get?_ofPairs]
      rw [← Dict.get?_isSome_iff] at hmem
      obtain ⟨v, hv⟩ := Option.isSome_iff_exists.mp hmem
      rw [hv]
      have := Dict.mem_of_get? hv
      simp only [List.mem_reverse, List.mem_map, List.mem_range] at this
      obtain ⟨_, _, e⟩ := this
      cases e
      rfl
    · rename_i h
      rw [Dict.get?_ofPairs, Dict.get?_eq_none_iff]
      unfold Dict.keys
      simp only [List.map_reverse, List.mem_reverse, List.map_map, List.mem_map, List.mem_range]
      rintro ⟨i, hi, e⟩
      simp only [Function.comp] at e
      omega
  obtain ⟨t, h1, h2⟩ := mleFold N gs (Dict.ofPairs ((List.range N).map fun i => (i + 1, 0))) [] (by
    intro o
    rw [hk]
    split <;> simp_all) hg
  refine ⟨t, h1, ?_⟩
  intro o ho1 ho2
  rw [h2, hk, if_pos ⟨ho1, ho2⟩]
  simp

theorem mleOrder_spec (R : Rounding) (gs : List Ngram) (nb : Nat) (hb : 0 < nb) (hk : nb ≤ 2 ^ 53)
    (hn : gs.length ≤ 2 ^ 53) (total : Nat) :
    ∃ ret : List Move → Bool, (∀ s, ∃ s', ret (s ++ s') = true) ∧
      ∀ (t : Dict Nat Nat) (o : Nat), Dict.get? t o = some total →
      ∀ d, Dict.get? d o = some gs →
      ∃ d', (∀ sched, mleOrder R t nb sched d o = .ok (if ret sched then some d' else none)) ∧
        (∀ o', o' ≠ o → Dict.get? d' o' = Dict.get? d o') ∧
        (Dict.get? d' o).getD [] = gs.map (fun g => g.withProba (numDiv g.count total)) := by
  have hflat := processRanges_flatten R gs.length nb hb hn hk
  have hsl : (processRanges R gs.length nb).mapM (mleCounts gs) =
      .ok ((processRanges R gs.length nb).map fun r => r.map fun i => (gramAt gs i).count) := by
    apply slices_eq hflat
    intro r _ hi
    unfold mleCounts
    apply mapM_ok
    intro i h
    rw [index_gramAt (hi i h)]
    rfl
  obtain ⟨ret, h1, h2⟩ := calcNgramsMultithread_spec R
    ((processRanges R gs.length nb).map fun r => r.map fun i => (gramAt gs i).count)
    (fun counts => counts.map fun (c : Nat) => numDiv c total) nb hb (by
      simpa using processRanges_ne_nil R gs.length hb)
  refine ⟨ret, h2, ?_⟩
  intro t o ht d hd
  obtain ⟨d', e1, e2, e3⟩ := assignProbas_map o d gs (fun g => numDiv g.count total) (by rw [hd]; rfl)
  refine ⟨d', ?_, e2, e3⟩
  intro sched
  unfold mleOrder
  simp only [Dict.get, hd, ht, Option.getD_some, bind, Except.bind, hsl, h1]
  have hfm : ((processRanges R gs.length nb).map fun r => r.map fun i => (gramAt gs i).count).flatMap
      (fun counts => counts.map fun (c : Nat) => numDiv c total) = gs.map fun g => numDiv g.count total := by
    rw [List.flatMap_map]
    simp only [List.map_map]
    exact flatMap_ranges hflat (fun g => numDiv g.count total)
  cases ret sched with
  | false => simp
  | true =>
    simp only [if_true, hfm, e1, pure, Except.pure]

end Model
