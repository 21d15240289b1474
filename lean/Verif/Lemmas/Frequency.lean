import Verif.Props.Builder
import Verif.Spec.Frequency
import Verif.Lemmas.Samples

/-! Lemmas on n-gram files of maximum likelihood models: their order is that of the frequencies. -/

namespace Model
open Py Props

/-! ### Sorting -/

section
variable {α β κ κ' : Type} [LinearOrder κ] [LinearOrder κ']

theorem insertDesc_map (key : β → κ) (f : α → β) (x : α) (l : List α) :
    insertDesc key (f x) (l.map f) = (insertDesc (fun a => key (f a)) x l).map f := by
  induction l with
  | nil => rfl
  | cons y l ih =>
    simp only [List.map_cons, insertDesc]
    split
    · rfl
    · rw [List.map_cons, ih]

theorem sortDesc_map (key : β → κ) (f : α → β) (l : List α) :
    sortDesc key (l.map f) = (sortDesc (fun a => key (f a)) l).map f := by
  induction l with
  | nil => rfl
  | cons x l ih =>
    show insertDesc key (f x) (sortDesc key (l.map f)) = (insertDesc _ x (sortDesc _ l)).map f
    rw [ih, insertDesc_map]

/-- Two descending lists with the same items of every key are equal. -/
theorem sorted_unique (key : α → κ) : ∀ {a b : List α}, a.Pairwise (fun x y => key y ≤ key x) →
    b.Pairwise (fun x y => key y ≤ key x) →
    (∀ v, a.filter (fun x => decide (key x = v)) = b.filter fun x => decide (key x = v)) → a = b := by
  intro a
  induction a with
  | nil =>
    intro b _ _ h
    cases b with
    | nil => rfl
    | cons y b =>
      have := h (key y)
      simp at this
  | cons x a ih =>
    intro b ha hb h
    cases b with
    | nil =>
      have := h (key x)
      simp at this
    | cons y b =>
      have mem : ∀ z, z ∈ x :: a ↔ z ∈ y :: b := by
        intro z
        have := congrArg (fun l => z ∈ l) (h (key z))
        simpa using this
      have hxy : key x = key y := by
        apply le_antisymm
        · rcases List.mem_cons.mp ((mem x).mp (by simp)) with e | e
          · rw [e]
          · exact (List.pairwise_cons.mp hb).1 x e
        · rcases List.mem_cons.mp ((mem y).mpr (by simp)) with e | e
          · rw [e]
          · exact (List.pairwise_cons.mp ha).1 y e
      have h0 := h (key x)
      rw [List.filter_cons, List.filter_cons, if_pos (by simp), if_pos (by simp [hxy])] at h0
      obtain ⟨rfl, -⟩ := List.cons.inj h0
      rw [ih (List.pairwise_cons.mp ha).2 (List.pairwise_cons.mp hb).2 fun v => ?_]
      have hv := h v
      rw [List.filter_cons, List.filter_cons] at hv
      by_cases e : key x = v
      · rw [if_pos (by simp [e]), if_pos (by simp [e])] at hv
        exact (List.cons.inj hv).2
      · rwa [if_neg (by simp [e]), if_neg (by simp [e])] at hv

theorem sortDesc_filter_comm (key : α → κ) (p : α → Bool) (l : List α) :
    (sortDesc key l).filter p = sortDesc key (l.filter p) := by
  refine sorted_unique key ((sortDesc_sorted key l).sublist List.filter_sublist) (sortDesc_sorted key _) fun v => ?_
  rw [List.filter_comm, sortDesc_filter, sortDesc_filter, List.filter_comm]

theorem sortDesc_of_sorted (key : α → κ) {l : List α} (h : l.Pairwise fun a b => key b ≤ key a) : sortDesc key l = l :=
  sorted_unique key (sortDesc_sorted key l) h fun v => sortDesc_filter key l v

/-- Only the order of the keys matters. -/
theorem sortDesc_congr (key : α → κ) (key' : α → κ') {l : List α}
    (h : ∀ a ∈ l, ∀ b ∈ l, key a < key b ↔ key' a < key' b) : sortDesc key l = sortDesc key' l := by
  have hle : ∀ a ∈ l, ∀ b ∈ l, key a ≤ key b ↔ key' a ≤ key' b := by
    intro a ha b hb
    rw [← not_lt, ← not_lt, h b hb a ha]
  have heq : ∀ a ∈ l, ∀ b ∈ l, key a = key b ↔ key' a = key' b := by
    intro a ha b hb
    rw [le_antisymm_iff, le_antisymm_iff, hle a ha b hb, hle b hb a ha]
  refine sorted_unique key (sortDesc_sorted key l) ?_ fun v => ?_
  · refine (sortDesc_sorted key' l).imp_of_mem fun {a b} ha hb hab => ?_
    exact (hle b ((mem_sortDesc key').mp hb) a ((mem_sortDesc key').mp ha)).mpr hab
  · rw [sortDesc_filter]
    by_cases hv : ∃ a ∈ l, key a = v
    · obtain ⟨a, ha, rfl⟩ := hv
      have e1 : l.filter (fun x => decide (key x = key a)) = l.filter fun x => decide (key' x = key' a) :=
        List.filter_congr fun x hx => by simp only [heq x hx a ha]
      have e2 : (sortDesc key' l).filter (fun x => decide (key x = key a)) =
          (sortDesc key' l).filter fun x => decide (key' x = key' a) :=
        List.filter_congr fun x hx => by simp only [heq x ((mem_sortDesc key').mp hx) a ha]
      rw [e1, e2, sortDesc_filter]
    · rw [List.filter_eq_nil_iff.mpr, List.filter_eq_nil_iff.mpr]
      · intro x hx
        simpa using fun e => hv ⟨x, (mem_sortDesc key').mp hx, e⟩
      · intro x hx
        simpa using fun e => hv ⟨x, hx, e⟩

end

/-! ### Distinct items -/

section
variable {α β : Type} [DecidableEq α] [DecidableEq β]

theorem distinctInOrder_filterMap (f : α → Option β) (l : List α)
    (h : ∀ a ∈ l, ∀ b ∈ l, ∀ x, f a = some x → f b = some x → a = b) :
    Spec.distinctInOrder (l.filterMap f) = (Spec.distinctInOrder l).filterMap f := by
  induction l using List.reverseRecOn with
  | nil => rfl
  | append_singleton l a ih =>
    have ih := ih fun a ha b hb => h a (by simp [ha]) b (by simp [hb])
    rw [List.filterMap_append, distinctInOrder_concat]
    cases hf : f a with
    | none =>
      have e : List.filterMap f [a] = [] := by simp [hf]
      rw [e, List.append_nil, ih]
      split
      · rfl
      · rw [List.filterMap_append, e, List.append_nil]
    | some x =>
      have e : List.filterMap f [a] = [x] := by simp [hf]
      rw [e, distinctInOrder_concat]
      have hm : x ∈ l.filterMap f ↔ a ∈ l := by
        rw [List.mem_filterMap]
        constructor
        · rintro ⟨b, hb, hx⟩
          rw [h a (by simp) b (by simp [hb]) x hf hx]
          exact hb
        · intro ha; exact ⟨a, ha, hf⟩
      simp only [hm]
      split
      · exact ih
      · rw [List.filterMap_append, e, ih]

theorem distinctInOrder_filter (p : α → Bool) (l : List α) :
    Spec.distinctInOrder (l.filter p) = (Spec.distinctInOrder l).filter p := by
  have := distinctInOrder_filterMap (Option.guard fun a => p a) l (by
    intro a _ b _ x ha hb
    rw [Option.guard_eq_some_iff] at ha hb
    rw [ha.1, hb.1])
  simpa [List.filterMap_eq_filter] using this

end

theorem count_filterMap (f : Str → Option Str) (l : List Str) {a : Str} {x : Str} (ha : f a = some x)
    (h : ∀ b ∈ l, f b = some x → b = a) : (l.filterMap f).count x = l.count a := by
  induction l with
  | nil => rfl
  | cons b l ih =>
    have ih := ih fun b hb => h b (List.mem_cons_of_mem _ hb)
    rw [List.filterMap_cons, List.count_cons]
    by_cases e : b = a
    · subst e
      rw [ha]
      simp [ih]
    · have hb : f b ≠ some x := fun hx => e (h b (by simp) hx)
      cases hf : f b with
      | none => simp [ih, e]
      | some y =>
        have : y ≠ x := fun hy => hb (by rw [hf, hy])
        simp [ih, e, this]

/-! ### The n-grams of an order -/

theorem ngramTexts_words {n : Nat} (hn : 0 < n) {sents : List (List Str)} {t : Str} (h : t ∈ Spec.ngramTexts n sents) :
    (splitWs t).length = n := by
  obtain ⟨l, -, w, hw, -, h2, rfl⟩ := (mem_ngramTexts hn).mp h
  rw [tokens_windowText h2, List.length_map, hw]

theorem filter_range_single {β : Type} (f : Nat → List β) (p : β → Bool) (n : Nat)
    (h1 : ∀ x ∈ f n, p x = true) (h2 : ∀ k, k ≠ n → ∀ x ∈ f k, p x = false) (N : Nat) (hN : n < N) :
    ((List.range N).flatMap f).filter p = f n := by
  have h0 : ∀ M, M ≤ n → ((List.range M).flatMap f).filter p = [] := by
    intro M hM
    rw [List.filter_eq_nil_iff]
    intro x hx
    obtain ⟨k, hk, hx⟩ := List.mem_flatMap.mp hx
    rw [List.mem_range] at hk
    rw [h2 k (by omega) x hx]
    simp
  induction N with
  | zero => omega
  | succ N ih =>
    rw [List.range_succ, List.flatMap_append, List.filter_append, List.flatMap_singleton]
    by_cases e : n = N
    · subst e
      rw [h0 n le_rfl, List.nil_append, List.filter_eq_self.mpr h1]
    · rw [ih (by omega), List.filter_eq_nil_iff.mpr, List.append_nil]
      intro x hx
      rw [h2 N (fun h => e h.symm) x hx]
      simp

theorem corpusTexts_filter {N n : Nat} (hn : 0 < n) (hN : n ≤ N) (docs : List (List (List Str))) :
    (Spec.corpusTexts N docs).filter (fun t => decide ((splitWs t).length = n)) = Spec.orderTexts n docs := by
  unfold Spec.corpusTexts Spec.orderTexts
  rw [List.filter_flatMap]
  congr 1
  funext sents
  have := filter_range_single (fun k => Spec.ngramTexts (k + 1) sents) (fun t => decide ((splitWs t).length = n)) (n - 1)
    (by
      intro x hx
      have := ngramTexts_words (Nat.succ_pos _) hx
      simp only [decide_eq_true_eq]
      omega)
    (by
      intro k hk x hx
      have := ngramTexts_words (Nat.succ_pos _) hx
      simp only [decide_eq_false_iff_not]
      omega) N (by omega)
  simp only [Nat.sub_add_cancel hn] at this
  exact this

theorem ofOrder_eq {N n : Nat} (hn : 0 < n) (hN : n ≤ N) (docs : List (List (List Str))) :
    ofOrder (Dict.values (storeOf (Spec.corpusTexts N docs))) n =
      (Spec.distinctInOrder (Spec.orderTexts n docs)).map fun t =>
        { text := t, count := (Spec.orderTexts n docs).count t } := by
  unfold ofOrder
  rw [values_storeOf, List.filter_map]
  have e : (Spec.distinctInOrder (Spec.corpusTexts N docs)).filter
      ((fun g : Ngram => decide (g.order = n)) ∘ fun t => { text := t, count := (Spec.corpusTexts N docs).count t }) =
      Spec.distinctInOrder (Spec.orderTexts n docs) := by
    rw [← corpusTexts_filter hn hN docs, distinctInOrder_filter]
    rfl
  rw [e]
  refine List.map_congr_left fun t ht => ?_
  rw [(orderTexts_spec hn hN t).2 (mem_distinctInOrder.mp ht)]

/-! ### Probabilities -/

/-- The probability of an n-gram with `c` of the `n` occurrences of its order, as it is written and read back. -/
def stored (R : Rounding) (c n : Nat) : ℚ := R.fl (round17 ((c : ℚ) / n))

theorem stored_lt (R : Rounding) {c d n : Nat} (hcd : c < d) (hd : d ≤ n) (hn : n ≤ 2 ^ 51) :
    stored R c n < stored R d n := by
  unfold stored
  have hn0 : (0 : ℚ) < n := by exact_mod_cast (by omega : 0 < n)
  have hn1 : (n : ℚ) ≤ 2 ^ 51 := by exact_mod_cast hn
  set x := (c : ℚ) / n with hx
  set y := (d : ℚ) / n with hy
  have hx0 : 0 ≤ x := by positivity
  have hy0 : 0 ≤ y := by positivity
  have hy1 : y ≤ 1 := by
    rw [hy, div_le_one hn0]
    exact_mod_cast hd
  have hgap : x + 1 / 2 ^ 51 ≤ y := by
    have h1 : x + 1 / n ≤ y := by
      rw [hx, hy, ← add_div]
      exact div_le_div_of_nonneg_right (by exact_mod_cast hcd) hn0.le
    have h2 : (1 : ℚ) / 2 ^ 51 ≤ 1 / n := one_div_le_one_div_of_le hn0 hn1
    linarith
  have ex := abs_le.mp (round17_err x hx0)
  have ey := abs_le.mp (round17_err y hy0)
  have px : 0 ≤ round17 x := by unfold round17; positivity
  have py : 0 ≤ round17 y := by unfold round17; positivity
  have fx := abs_le.mp (R.err (round17 x) px)
  have fy := abs_le.mp (R.err (round17 y) py)
  have b : (1 : ℚ) / (2 * 10 ^ 17) < 1 / 2 ^ 56 := by norm_num
  have e51 : (1 : ℚ) / 2 ^ 51 = 32 / 2 ^ 56 := by norm_num
  have e53 : ∀ z : ℚ, z / 2 ^ 53 = 8 * z / 2 ^ 56 := by intro z; ring
  rw [e53] at fx fy
  have s : (1 : ℚ) / 2 ^ 56 ≤ 1 / 100 := by norm_num
  have hrx : 8 * round17 x / 2 ^ 56 ≤ 9 * (1 / 2 ^ 56) := by
    rw [div_eq_mul_one_div]
    exact mul_le_mul_of_nonneg_right (by linarith) (by positivity)
  have hry : 8 * round17 y / 2 ^ 56 ≤ 9 * (1 / 2 ^ 56) := by
    rw [div_eq_mul_one_div]
    exact mul_le_mul_of_nonneg_right (by linarith) (by positivity)
  have : (32 : ℚ) / 2 ^ 56 = 32 * (1 / 2 ^ 56) := by ring
  linarith [ex.1, ex.2, ey.1, ey.2, fx.1, fx.2, fy.1, fy.2]

theorem stored_lt_iff (R : Rounding) {c d n : Nat} (hc : c ≤ n) (hd : d ≤ n) (hn : n ≤ 2 ^ 51) :
    stored R c n < stored R d n ↔ c < d := by
  refine ⟨fun h => ?_, fun h => stored_lt R h hd hn⟩
  by_contra hc'
  rcases Nat.lt_or_eq_of_le (Nat.not_lt.mp hc') with h1 | h1
  · exact lt_asymm h (stored_lt R h1 hc hn)
  · rw [h1] at h; exact lt_irrefl _ h

/-! ### The files and the loaded model -/

/-- The row of an n-gram of order `n` in the loaded model. -/
def freqRow (R : Rounding) (log : ℚ → ℚ) (texts : List Str) (t : Str) : Str × Details :=
  (t, (texts.count t : Int), stored R (texts.count t) texts.length,
    (log (stored R (texts.count t) texts.length) : WithBot ℚ))

/-- The rows of an order in the loaded model. -/
def freqRows (R : Rounding) (log : ℚ → ℚ) (texts : List Str) (least : Int) : List (Str × Details) :=
  (sortDesc (fun t => texts.count t) (Spec.enough texts least)).map (freqRow R log texts)

theorem mem_enough {texts : List Str} {least : Int} {t : Str} :
    t ∈ Spec.enough texts least ↔ t ∈ texts ∧ least ≤ (texts.count t : Int) := by
  unfold Spec.enough
  rw [List.mem_filter, mem_distinctInOrder, decide_eq_true_eq]

theorem filterMap_readBack (R : Rounding) (log : ℚ → ℚ) (least : Int) (mk : Str → Entry) (l : List Str) :
    (l.map mk).filterMap (readBack R log least) = (l.filter fun t => decide (least ≤ ((mk t).count : Int))).map fun t =>
      ((mk t).text, ((mk t).count : Int), R.fl (round17 (mk t).proba), (log (R.fl (round17 (mk t).proba)) : WithBot ℚ)) := by
  induction l with
  | nil => rfl
  | cons a l ih =>
    rw [List.map_cons, List.filterMap_cons, List.filter_cons]
    unfold readBack at ih ⊢
    by_cases h : least ≤ ((mk a).count : Int)
    · simp only [h, decide_true, if_true, List.map_cons, ih]
    · simp only [h, decide_false, Bool.false_eq_true, if_false, ih]

theorem partRows_freq (R : Rounding) (log : ℚ → ℚ) {N n : Nat} (hn : 0 < n) (hN : n ≤ N)
    (docs : List (List (List Str))) (least : Int) :
    partRows R log (least, entriesOf (ofOrder (Dict.values (storeOf (Spec.corpusTexts N docs))) n)
        fun g => (g.count : ℚ) / (Spec.orderTexts n docs).length) =
      freqRows R log (Spec.orderTexts n docs) least := by
  set texts := Spec.orderTexts n docs with ht
  have hent : entriesOf (ofOrder (Dict.values (storeOf (Spec.corpusTexts N docs))) n)
      (fun g => (g.count : ℚ) / texts.length) =
      (Spec.distinctInOrder texts).map fun t => ⟨t, texts.count t, (texts.count t : ℚ) / texts.length⟩ := by
    unfold entriesOf
    rw [ofOrder_eq hn hN, List.map_map]
    rfl
  have hpos : ∀ t ∈ texts, (0 : ℚ) < (texts.count t : ℚ) / texts.length := by
    intro t h
    have h1 : (0 : ℚ) < texts.count t := by exact_mod_cast List.count_pos_iff.mpr h
    have h2 : (0 : ℚ) < texts.length := by exact_mod_cast List.length_pos_iff.mpr (List.ne_nil_of_mem h)
    positivity
  unfold partRows freqRows
  simp only
  rw [hent, sortDesc_map]
  have hs : sortDesc (fun t => (texts.count t : ℚ) / texts.length) (Spec.distinctInOrder texts) =
      sortDesc (fun t => texts.count t) (Spec.distinctInOrder texts) := by
    refine sortDesc_congr _ _ fun a ha b _ => ?_
    have h2 : (0 : ℚ) < texts.length := by
      exact_mod_cast List.length_pos_iff.mpr (List.ne_nil_of_mem (mem_distinctInOrder.mp ha))
    rw [div_lt_div_iff_of_pos_right h2]
    exact_mod_cast Iff.rfl
  simp only at hs ⊢
  rw [hs, List.filter_eq_self.mpr, filterMap_readBack]
  · simp only
    rw [sortDesc_filter_comm]
    rfl
  · intro e he
    obtain ⟨t, h, rfl⟩ := List.mem_map.mp he
    simpa using hpos t (mem_distinctInOrder.mp ((mem_sortDesc _).mp h))

/-- The details of a loaded maximum likelihood model: order by order, by frequency. -/
theorem load_mle (R : Rounding) (log : ℚ → ℚ) (N : Nat) (docs : List (List (List Str)))
    (hsize : (Spec.corpusTexts N docs).length ≤ 2 ^ 53) (mins : List Int) (hm : mins.length ≤ N) :
    ∃ m, LM.load R log (mins.zip (((List.range N).map (· + 1)).map fun o =>
        writeNgramFile (entriesOf (ofOrder (Dict.values (storeOf (Spec.corpusTexts N docs))) o)
          fun g => (g.count : ℚ) / ((ofOrder (Dict.values (storeOf (Spec.corpusTexts N docs))) o).map Ngram.count).sum))) =
          .ok m ∧
      m.maxOrder = mins.length ∧
      m.details = mins.zipIdx.flatMap fun x => freqRows R log (Spec.orderTexts (x.2 + 1) docs) x.1 := by
  set gs := Dict.values (storeOf (Spec.corpusTexts N docs)) with hgs
  have hok : GramsOk gs N := storeOf_gramsOk N docs
  let P : Nat → Ngram → ℚ := fun o g => (g.count : ℚ) / (Spec.orderTexts o docs).length
  let ps : Parts := mins.zipIdx.map fun x => (x.1, entriesOf (ofOrder gs (x.2 + 1)) (P (x.2 + 1)))
  have hfiles : mins.zip (((List.range N).map (· + 1)).map fun o =>
      writeNgramFile (entriesOf (ofOrder gs o) fun g => (g.count : ℚ) / ((ofOrder gs o).map Ngram.count).sum)) =
      ps.files := by
    unfold Parts.files
    simp only [ps, List.map_map, Function.comp_def]
    apply List.ext_getElem
    · simp; omega
    · intro i h1 h2
      have hi : i < mins.length := by simpa using h2
      simp [P, ofOrder_total (Nat.succ_pos i) (show i + 1 ≤ N by omega), gs]
  have hps : ∀ p ∈ ps, ∃ i, i < N ∧ mins[i]? = some p.1 ∧ p.2 = entriesOf (ofOrder gs (i + 1)) (P (i + 1)) := by
    intro p hp
    obtain ⟨x, hx, rfl⟩ := List.mem_map.mp hp
    have := List.mem_zipIdx_iff_getElem?.mp hx
    exact ⟨x.2, lt_of_lt_of_le (List.getElem?_eq_some_iff.mp this).1 hm, this, rfl⟩
  have hx0 : ∀ p ∈ ps, ∀ e ∈ p.2, Writable e.text := by
    intro p hp e he
    obtain ⟨i, hi, hmi, hpe⟩ := hps p hp
    rw [hpe] at he
    obtain ⟨g, hg, rfl⟩ := List.mem_map.mp he
    exact gramsOk_writable hok (List.mem_filter.mp hg).1
  have hx2 : ∀ p ∈ ps, ∀ e ∈ p.2, 0 < e.proba → p.1 ≤ (e.count : Int) → 0 < round17 e.proba := by
    intro p hp e he h0 _
    obtain ⟨i, hi, hmi, hpe⟩ := hps p hp
    rw [hpe] at he
    obtain ⟨g, hg, rfl⟩ := List.mem_map.mp he
    apply round17_pos
    obtain ⟨g1, g2⟩ := (ofOrder_mem (Nat.succ_pos i) (by omega) g).mp hg
    have hc : (1 : ℚ) ≤ g.count := by exact_mod_cast hok.count g (List.mem_filter.mp hg).1
    have hl0 : (0 : ℚ) < (Spec.orderTexts (i + 1) docs).length := by
      exact_mod_cast List.length_pos_iff.mpr (List.ne_nil_of_mem g1)
    have hl : ((Spec.orderTexts (i + 1) docs).length : ℚ) ≤ 2 ^ 53 := by
      exact_mod_cast (orderTexts_length_le (Nat.succ_pos i) (by omega) docs).trans hsize
    show 1 / (2 * 10 ^ 17) < (g.count : ℚ) / (Spec.orderTexts (i + 1) docs).length
    rw [lt_div_iff₀ hl0]
    have : (2 : ℚ) ^ 53 < 2 * 10 ^ 17 := by norm_num
    rw [one_div, inv_mul_lt_iff₀ (by positivity)]
    nlinarith
  have hrows : ps.flatMap (partRows R log) =
      mins.zipIdx.flatMap fun x => freqRows R log (Spec.orderTexts (x.2 + 1) docs) x.1 := by
    simp only [ps, List.flatMap_map]
    rw [List.flatMap_def, List.flatMap_def]
    congr 1
    refine List.map_congr_left fun x hx => ?_
    have := List.getElem?_eq_some_iff.mp (List.mem_zipIdx_iff_getElem?.mp hx)
    exact partRows_freq R log (Nat.succ_pos _) (by have := this.1; omega) docs x.1
  have hnodup : ((ps.flatMap (partRows R log)).map Prod.fst).Nodup := by
    rw [hrows, List.map_flatMap, List.nodup_flatMap]
    refine ⟨fun x _ => ?_, ?_⟩
    · unfold freqRows
      rw [List.map_map]
      show (List.map (fun t => t) _).Nodup
      rw [List.map_id', (sortDesc_perm _ _).nodup_iff]
      exact (nodup_distinctInOrder _).sublist List.filter_sublist
    · have hnd : (mins.zipIdx.map Prod.snd).Nodup := by
        rw [List.zipIdx_map_snd]
        exact List.nodup_range'
      rw [List.Nodup, List.pairwise_map] at hnd
      refine hnd.imp ?_
      intro x y hxy t hx hy
      have word : ∀ z : Int × Nat, t ∈ (freqRows R log (Spec.orderTexts (z.2 + 1) docs) z.1).map Prod.fst →
          (splitWs t).length = z.2 + 1 := by
        intro z hz
        unfold freqRows at hz
        rw [List.map_map] at hz
        obtain ⟨u, hu, rfl⟩ := List.mem_map.mp hz
        have := (mem_enough.mp ((mem_sortDesc _).mp hu)).1
        obtain ⟨d, -, hd⟩ := List.mem_flatMap.mp this
        exact ngramTexts_words (Nat.succ_pos _) hd
      have := word x hx
      have := word y hy
      omega
  have h1 := load_parts R log ps hx0 hx2 []
  refine ⟨_, by rw [hfiles]; unfold LM.load; rw [h1]; rfl, by simp [Parts.files, ps], ?_⟩
  show Dict.ofPairs (ps.flatMap (partRows R log)) = _
  rw [ofPairs_of_nodup _ hnodup, hrows]

end Model
