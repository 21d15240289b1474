import Verif.Lemmas.LmFile
import Verif.Lemmas.Mutables
import Verif.Lemmas.Chunker
import Verif.Lemmas.Mkn
import Verif.Spec.LangModel

namespace Model
open Py

theorem stableDesc_sortDesc {α κ} [LinearOrder κ] (key : α → κ) (l : List α) :
    Spec.StableDesc key l (sortDesc key l) :=
  ⟨sortDesc_perm key l, sortDesc_sorted key l, sortDesc_filter key l⟩

theorem cut_sliceLimit {α} (l : List α) (limit : Option Int) : Spec.Cut l limit (sliceLimit l limit) := by
  cases limit with
  | none => rfl
  | some k =>
    by_cases hk : 0 ≤ k
    · left
      refine ⟨hk, ?_⟩
      obtain ⟨n, rfl⟩ := Int.eq_ofNat_of_zero_le hk
      exact sliceTo_nat l n
    · right
      refine ⟨by omega, ?_⟩
      obtain ⟨n, hn⟩ := Int.eq_ofNat_of_zero_le (a := -k) (by omega)
      have : k = -(n : Int) := by omega
      subst this
      show sliceTo l _ = _
      rw [sliceTo_neg l n (by omega)]
      simp

theorem lastFor_eq {κ ν} [DecidableEq κ] (rows : List (κ × ν)) (k : κ) :
    Spec.lastFor rows k = Dict.get? rows.reverse k := by
  unfold Spec.lastFor
  induction rows using List.reverseRecOn with
  | nil => rfl
  | append_singleton l x ih =>
    obtain ⟨a, b⟩ := x
    rw [List.filter_append, List.reverse_append]
    by_cases h : a = k
    · simp [h, Dict.get?]
    · simp only [decide_eq_true_eq, h, not_false_eq_true, List.filter_cons_of_neg, List.filter_nil, List.append_nil,
        List.reverse_singleton, List.singleton_append, Dict.get?, if_false, ih]

/-! ### Loading -/

/-- The row of a line of a model file, when its count reaches the minimum. -/
def accept (R : Rounding) (log : ℚ → ℚ) (mc : Int) (line : Str) : Option (Str × Details) :=
  match splitOn line '\t' with
  | [text, count, proba] =>
    match parseInt count with
    | .ok n =>
      if mc ≤ n then
        match parseFloat R proba with
        | .ok p => some (text, n, p, (log p : WithBot ℚ))
        | .error _ => none
      else none
    | .error _ => none
  | _ => none

/-- The rows of the files of a model that reach the minimum count of their order, in reading order. -/
def rowsOf (R : Rounding) (log : ℚ → ℚ) (files : List (Int × Str)) : List (Str × Details) :=
  files.flatMap fun f => (fileLines f.2).filterMap (accept R log f.1)

theorem loadLine_accept {R : Rounding} {log : ℚ → ℚ} {mc : Int} {d d' : Dict Str Details} {line : Str}
    (h : loadLine R log mc d line = .ok d') :
    (accept R log mc line = none ∧ d' = d) ∨ ∃ r, accept R log mc line = some r ∧ d' = Dict.set d r.1 r.2 ∧
      0 < r.2.2.1 ∧ mc ≤ r.2.1 := by
  unfold loadLine at h
  unfold accept
  split at h
  · rename_i text count proba hs
    cases hp : parseInt count with
    | error e => rw [hp] at h; simp [bind, Except.bind] at h
    | ok n =>
      rw [hp] at h
      simp only [bind, Except.bind] at h
      by_cases hm : mc ≤ n
      · simp only [hm, if_true] at h
        cases hf : parseFloat R proba with
        | error e => rw [hf] at h; simp at h
        | ok p =>
          rw [hf] at h
          simp only [mathLog] at h
          by_cases h0 : 0 < p
          · simp only [h0, if_true, pure, Except.pure, Except.ok.injEq] at h
            right
            exact ⟨(text, n, p, (log p : WithBot ℚ)), by simp [hs, hp, hf, hm], h.symm, h0, hm⟩
          · simp [h0] at h
      · simp only [hm] at h
        left
        simp at h
        simp [hs, hp, hm, h]
  · simp at h

theorem loadLines_accept {R : Rounding} {log : ℚ → ℚ} {mc : Int} : ∀ (ls : List Str) {d d' : Dict Str Details},
    ls.foldlM (loadLine R log mc) d = .ok d' →
    d' = (ls.filterMap (accept R log mc)).foldl (fun d p => Dict.set d p.1 p.2) d ∧
      ∀ r ∈ ls.filterMap (accept R log mc), 0 < r.2.2.1 ∧ mc ≤ r.2.1
  | [], d, d', h => by
    simp only [List.foldlM_nil, pure, Except.pure, Except.ok.injEq] at h
    simp [h]
  | l :: ls, d, d', h => by
    rw [List.foldlM_cons] at h
    cases h1 : loadLine R log mc d l with
    | error e => rw [h1] at h; simp [bind, Except.bind] at h
    | ok d1 =>
      rw [h1] at h
      obtain ⟨h2, h3⟩ := loadLines_accept ls h
      rcases loadLine_accept h1 with ⟨h4, h5⟩ | ⟨r, h4, h5, h6⟩
      · subst h5
        simp [h4, h2]
        simpa using h3
      · subst h5
        refine ⟨by simp [h4, h2], ?_⟩
        rw [List.filterMap_cons, h4]
        intro x hx
        rcases List.mem_cons.mp hx with rfl | hx
        · exact h6
        · exact h3 x hx

theorem loadFiles_rows {R : Rounding} {log : ℚ → ℚ} : ∀ (fs : List (Int × Str)) {d d' : Dict Str Details},
    fs.foldlM (loadFile R log) d = .ok d' →
    d' = (rowsOf R log fs).foldl (fun d p => Dict.set d p.1 p.2) d ∧ ∀ r ∈ rowsOf R log fs, 0 < r.2.2.1
  | [], d, d', h => by
    simp only [List.foldlM_nil, pure, Except.pure, Except.ok.injEq] at h
    simp [h, rowsOf]
  | f :: fs, d, d', h => by
    rw [List.foldlM_cons] at h
    cases h1 : loadFile R log d f with
    | error e => rw [h1] at h; simp [bind, Except.bind] at h
    | ok d1 =>
      rw [h1] at h
      obtain ⟨h2, h3⟩ := loadFiles_rows fs h
      obtain ⟨h4, h5⟩ := loadLines_accept _ h1
      subst h4
      have e : rowsOf R log (f :: fs) = (fileLines f.2).filterMap (accept R log f.1) ++ rowsOf R log fs := rfl
      rw [e, List.foldl_append]
      refine ⟨h2, ?_⟩
      intro x hx
      rcases List.mem_append.mp hx with hx | hx
      · exact (h5 x hx).1
      · exact h3 x hx

theorem accept_log {R : Rounding} {log : ℚ → ℚ} {mc : Int} {line : Str} {r : Str × Details}
    (h : accept R log mc line = some r) : r.2.2.2 = (log r.2.2.1 : WithBot ℚ) ∧ mc ≤ r.2.1 := by
  unfold accept at h
  split at h
  · split at h
    · split at h
      · split at h
        · rename_i hm _ _ _
          simp only [Option.some.injEq] at h
          subst h
          exact ⟨rfl, hm⟩
        · simp at h
      · simp at h
    · simp at h
  · simp at h

theorem rowsOf_log {R : Rounding} {log : ℚ → ℚ} {files : List (Int × Str)} {r : Str × Details}
    (h : r ∈ rowsOf R log files) : r.2.2.2 = (log r.2.2.1 : WithBot ℚ) := by
  obtain ⟨f, _, h⟩ := List.mem_flatMap.mp h
  obtain ⟨l, _, h⟩ := List.mem_filterMap.mp h
  exact (accept_log h).1

/-! ### Continuations -/

/-- The continuations of a context among loaded n-grams, in loading order. -/
def continuations (details : Dict Str Details) (ctx : Str) : List (Str × ℚ) :=
  details.filterMap fun e =>
    match (splitWs e.1).getLast? with
    | some last => if 1 < (splitWs e.1).length ∧ join c!" " (splitWs e.1).dropLast = ctx then some (last, e.2.2.1) else none
    | none => none

theorem get?_foldl_addNext (ctx : Str) : ∀ (es : List (Str × Details)) (d : Dict Str (List (Str × ℚ))),
    (∀ k, Dict.get? d k ≠ some []) →
    (Dict.get? (es.foldl addNext d) ctx).getD [] = (Dict.get? d ctx).getD [] ++ continuations es ctx ∧
      ∀ k, Dict.get? (es.foldl addNext d) k ≠ some []
  | [], d, h => ⟨by simp [continuations], h⟩
  | e :: es, d, h => by
    rw [List.foldl_cons]
    have hne : ∀ k, Dict.get? (addNext d e) k ≠ some [] := by
      unfold addNext
      simp only
      split
      · split
        · intro k
          unfold appendToDictList
          split
          · rw [Dict.get?_set]; split
            · simp
            · exact h k
          · rw [Dict.get?_set]; split
            · simp
            · exact h k
        · exact h
      · exact h
    obtain ⟨h1, h2⟩ := get?_foldl_addNext ctx es (addNext d e) hne
    refine ⟨?_, h2⟩
    rw [h1]
    have hc : continuations (e :: es) ctx = continuations [e] ctx ++ continuations es ctx := by
      unfold continuations
      rw [← List.filterMap_append]
      rfl
    rw [hc, ← List.append_assoc]
    congr 1
    unfold addNext continuations
    simp only [List.filterMap_cons, List.filterMap_nil]
    cases (splitWs e.1).getLast? with
    | none => simp
    | some last =>
      simp only [gt_iff_lt, sliceTo_neg_one]
      by_cases hl : 1 < (splitWs e.1).length
      · simp only [hl, if_true, true_and]
        rw [get?_appendToDictList]
        split <;> simp_all
      · simp [hl]

theorem get?_map_snd {κ ν ν'} [DecidableEq κ] (f : ν → ν') (k : κ) : ∀ d : Dict κ ν,
    Dict.get? (d.map fun e => (e.1, f e.2)) k = (Dict.get? d k).map f
  | [] => rfl
  | (a, b) :: d => by
    simp only [List.map_cons, Dict.get?]
    split
    · rfl
    · exact get?_map_snd f k d

/-- What a successful load leaves. -/
structure Loaded (R : Rounding) (log : ℚ → ℚ) (files : List (Int × Str)) (m : LM) : Prop where
  maxOrder : m.maxOrder = files.length
  details : m.details = Dict.ofPairs (rowsOf R log files)
  pos : ∀ r ∈ rowsOf R log files, 0 < r.2.2.1
  next : ∀ ctx, 1 < files.length → Dict.get? m.nextTokens ctx =
    if continuations m.details ctx = [] then none else some (sortDesc Prod.snd (continuations m.details ctx))
  wf : m.details.Wf

theorem load_ok {R : Rounding} {log : ℚ → ℚ} {files : List (Int × Str)} {m : LM} (h : LM.load R log files = .ok m) :
    Loaded R log files m := by
  unfold LM.load at h
  cases hd : files.foldlM (loadFile R log) [] with
  | error e => rw [hd] at h; simp [bind, Except.bind] at h
  | ok d =>
    rw [hd] at h
    simp only [bind, Except.bind, pure, Except.pure, Except.ok.injEq] at h
    obtain ⟨h1, h2⟩ := loadFiles_rows files hd
    subst h
    refine ⟨rfl, h1, h2, ?_, ?_⟩
    · intro ctx hl
      simp only [gt_iff_lt, hl, if_true]
      obtain ⟨h3, h4⟩ := get?_foldl_addNext ctx d [] (by simp)
      rw [get?_map_snd]
      simp only [Dict.get?_nil, Option.getD_none, List.nil_append] at h3
      cases hg : Dict.get? (d.foldl addNext []) ctx with
      | none =>
        rw [hg] at h3
        simp only [Option.getD_none] at h3
        simp [← h3]
      | some l =>
        rw [hg] at h3
        simp only [Option.getD_some] at h3
        have : l ≠ [] := fun e => h4 ctx (by rw [hg, e])
        simp [← h3, this]
    · show d.Wf
      rw [h1]
      exact Dict.Wf.ofPairs _

namespace Loaded
variable {R : Rounding} {log : ℚ → ℚ} {files : List (Int × Str)} {m : LM} (h : Loaded R log files m)
include h

theorem get? (g : Str) : Dict.get? m.details g = Spec.lastFor (rowsOf R log files) g := by
  rw [h.details, Dict.get?_ofPairs, lastFor_eq]

theorem mem_rows {g : Str} {v : Details} (hg : Dict.get? m.details g = some v) : (g, v) ∈ rowsOf R log files := by
  rw [h.get?, lastFor_eq] at hg
  exact List.mem_reverse.mp (Dict.mem_of_get? hg)

theorem logp_known {g : Str} (hg : m.contains g = true) : ∃ p, 0 < p ∧ m.logp g = (log p : WithBot ℚ) := by
  unfold LM.contains Dict.has at hg
  obtain ⟨v, hv⟩ := Option.isSome_iff_exists.mp hg
  have := h.mem_rows hv
  refine ⟨v.2.1, h.pos _ this, ?_⟩
  unfold LM.logp LM.detailsOf
  rw [hv]
  exact rowsOf_log this

end Loaded

theorem logp_unknown {m : LM} {g : Str} (hg : m.contains g = false) : m.logp g = ⊥ := by
  unfold LM.contains Dict.has at hg
  simp only [Option.isSome_eq_false_iff, Option.isNone_iff_eq_none] at hg
  unfold LM.logp LM.detailsOf
  rw [hg]
  rfl

/-! ### Candidates -/

theorem clampIdx_neg_nat (n k : Nat) (hk : 0 < k) : clampIdx n (-(k : Int)) = n - k := by
  unfold clampIdx
  have : -(k : Int) < 0 := by omega
  simp only [this, if_true]
  omega

theorem sliceFrom_neg {α} (l : List α) (k : Nat) (hk : 0 < k) : sliceFrom l (-(k : Int)) = Spec.suffixN k l := by
  unfold sliceFrom Spec.suffixN
  rw [clampIdx_neg_nat _ _ hk]

theorem filter_range_interval (A s B : Nat) (p : Nat → Bool) (hp : ∀ k < A, p k = true ↔ s ≤ k ∧ k < B) :
    (List.range A).filter p = (List.range (min A B - s)).map (s + ·) := by
  induction A with
  | zero => simp
  | succ A ih =>
    rw [List.range_succ, List.filter_append, ih (fun k hk => hp k (by omega))]
    have hA := hp A (by omega)
    by_cases h : s ≤ A ∧ A < B
    · have e : min (A + 1) B - s = (min A B - s) + 1 := by omega
      rw [e, List.range_succ, List.map_append]
      simp [hA.mpr h]
      omega
    · have e : min (A + 1) B - s = min A B - s := by omega
      rw [e]
      have : p A ≠ true := fun hp' => h (hA.mp hp')
      simp [this]

/-- The windows of the neighbourhood of the token are the windows around it. -/
theorem windowsAround_eq (n : Nat) (hn : 1 ≤ n) (before after : List Str) (t : Str) :
    Spec.windows n (Spec.suffixN (n - 1) before ++ [t] ++ after.take (n - 1)) =
      Spec.windowsAround n (before ++ [t] ++ after) before.length := by
  unfold Spec.windows Spec.windowsAround
  set L := before.length with hL
  set s := L - (n - 1) with hs
  have hlist : Spec.suffixN (n - 1) before ++ [t] ++ after.take (n - 1) =
      ((before ++ [t] ++ after).drop s).take ((L - s) + 1 + min (n - 1) after.length) := by
    unfold Spec.suffixN
    rw [← hL, ← hs, List.append_assoc, List.append_assoc, List.drop_append_of_le_length (by omega)]
    rw [List.take_append]
    rw [List.take_of_length_le (l := before.drop s) (by rw [List.length_drop]; omega), List.length_drop, ← hL]
    congr 1
    have : L - s + 1 + min (n - 1) after.length - (L - s) = min (n - 1) after.length + 1 := by omega
    rw [this]
    simp only [List.cons_append, List.nil_append, List.take_succ_cons]
    congr 1
    rcases Nat.le_total (n - 1) after.length with h | h
    · rw [Nat.min_eq_left h]
    · rw [Nat.min_eq_right h, List.take_of_length_le h, List.take_of_length_le (Nat.le_refl _)]
  rw [filter_range_interval _ s (L + 1)]
  · rw [List.map_map]
    have hlen : (Spec.suffixN (n - 1) before ++ [t] ++ after.take (n - 1)).length =
        (L - s) + 1 + min (n - 1) after.length := by
      simp [Spec.suffixN, ← hL, ← hs]
      omega
    have hlen2 : (before ++ [t] ++ after).length = L + 1 + after.length := by simp [← hL]; omega
    rw [hlen, hlen2, hlist]
    have e : L - s + 1 + min (n - 1) after.length + 1 - n = min (L + 1 + after.length + 1 - n) (L + 1) - s := by omega
    rw [e]
    apply List.map_congr_left
    intro k hk
    rw [List.mem_range] at hk
    simp only [Function.comp_apply]
    rw [List.drop_take, List.drop_drop, List.take_take, Nat.min_eq_left (by omega)]
  · intro k hk
    simp only [List.length_append, List.length_cons, List.length_nil] at hk
    simp only [decide_eq_true_eq]
    omega

end Model
