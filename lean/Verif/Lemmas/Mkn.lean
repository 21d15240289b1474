import Verif.Lemmas.Smoothers

namespace Model
open Py

/-! ### Counters -/

theorem get0_incr {κ} [DecidableEq κ] (d : Counter κ) (k k' : κ) :
    Counter.get0 (Counter.incr d k) k' = Counter.get0 d k' + if k = k' then 1 else 0 := by
  unfold Counter.incr Counter.get0
  rw [Dict.get?_set]
  by_cases h : k = k'
  · subst h; simp
  · simp [h]

/-- A fold that increments a counter on some n-grams. -/
theorem counter_fold {κ σ} [DecidableEq κ] (step : σ → Ngram → σ) (proj : σ → Counter κ) (P : Ngram → Prop)
    [DecidablePred P] (key : Ngram → κ)
    (h : ∀ s g, proj (step s g) = if P g then Counter.incr (proj s) (key g) else proj s) (gs : List Ngram) :
    ∀ (s : σ) (k : κ), Counter.get0 (proj (gs.foldl step s)) k =
      Counter.get0 (proj s) k + gs.countP fun g => P g ∧ key g = k := by
  induction gs with
  | nil => intro s k; simp
  | cons g gs ih =>
    intro s k
    rw [List.foldl_cons, ih, h, List.countP_cons]
    by_cases hp : P g
    · rw [if_pos hp, get0_incr]
      by_cases hk : key g = k <;> simp [hp, hk] <;> omega
    · simp [hp]

theorem mknCount_n1 (s : MknCounts) (g : Ngram) :
    (mknCount s g).n1 = if g.count = 1 then Counter.incr s.n1 g.order else s.n1 := by
  unfold mknCount mknCountBoth mknCountWildcards mknCountBackoff mknCountN
  split_ifs <;> first | rfl | omega

theorem mknCount_n2 (s : MknCounts) (g : Ngram) :
    (mknCount s g).n2 = if g.count = 2 then Counter.incr s.n2 g.order else s.n2 := by
  unfold mknCount mknCountBoth mknCountWildcards mknCountBackoff mknCountN
  split_ifs <;> first | rfl | omega

theorem mknCount_n3 (s : MknCounts) (g : Ngram) :
    (mknCount s g).n3 = if g.count = 3 then Counter.incr s.n3 g.order else s.n3 := by
  unfold mknCount mknCountBoth mknCountWildcards mknCountBackoff mknCountN
  split_ifs <;> first | rfl | omega

theorem mknCount_n4 (s : MknCounts) (g : Ngram) :
    (mknCount s g).n4 = if g.count = 4 then Counter.incr s.n4 g.order else s.n4 := by
  unfold mknCount mknCountBoth mknCountWildcards mknCountBackoff mknCountN
  split_ifs <;> first | rfl | omega

theorem mknCount_wc1 (s : MknCounts) (g : Ngram) :
    (mknCount s g).wc1 = if 1 < g.order ∧ g.count = 1 then Counter.incr s.wc1 (wcLast g) else s.wc1 := by
  unfold mknCount mknCountBoth mknCountWildcards mknCountBackoff mknCountN
  split_ifs <;> first | rfl | omega

theorem mknCount_wc2 (s : MknCounts) (g : Ngram) :
    (mknCount s g).wc2 = if 1 < g.order ∧ g.count = 2 then Counter.incr s.wc2 (wcLast g) else s.wc2 := by
  unfold mknCount mknCountBoth mknCountWildcards mknCountBackoff mknCountN
  split_ifs <;> first | rfl | omega

theorem mknCount_wc3 (s : MknCounts) (g : Ngram) :
    (mknCount s g).wc3 = if 1 < g.order ∧ (g.count ≠ 1 ∧ g.count ≠ 2) then Counter.incr s.wc3 (wcLast g) else s.wc3 := by
  unfold mknCount mknCountBoth mknCountWildcards mknCountBackoff mknCountN
  split_ifs <;> first | rfl | omega

theorem mknCount_lm (s : MknCounts) (g : Ngram) : (mknCount s g).lm = appendToDictList s.lm g.order g := by
  unfold mknCount mknCountBoth mknCountWildcards mknCountBackoff mknCountN
  split_ifs <;> rfl

theorem mknCount_wcs (s : MknCounts) (g : Ngram) (k : Str) : Counter.get0 (mknCount s g).wcs k =
    Counter.get0 s.wcs k + (if 1 < g.order ∧ wcFirst g = k then 1 else 0) +
      (if 2 < g.order ∧ wcBoth g = k then 1 else 0) := by
  have h : (mknCount s g).wcs = if 2 < g.order then Counter.incr (Counter.incr s.wcs (wcFirst g)) (wcBoth g)
      else if 1 < g.order then Counter.incr s.wcs (wcFirst g) else s.wcs := by
    unfold mknCount mknCountBoth mknCountWildcards mknCountBackoff mknCountN
    split_ifs <;> first | rfl | omega
  rw [h]
  by_cases h2 : 2 < g.order
  · have h1 : 1 < g.order := by omega
    simp only [h2, if_true, get0_incr, h1, true_and]
  · by_cases h1 : 1 < g.order
    · simp only [h2, if_false, h1, if_true, get0_incr, true_and, false_and, Nat.add_zero]
    · simp [h1, h2]

/-- All counters after the loop. -/
theorem wcs_fold (gs : List Ngram) : ∀ (s : MknCounts) (k : Str), Counter.get0 (gs.foldl mknCount s).wcs k =
    Counter.get0 s.wcs k + (gs.countP fun g => 1 < g.order ∧ wcFirst g = k) +
      (gs.countP fun g => 2 < g.order ∧ wcBoth g = k) := by
  induction gs with
  | nil => intro s k; simp
  | cons g gs ih =>
    intro s k
    rw [List.foldl_cons, ih, mknCount_wcs, List.countP_cons, List.countP_cons]
    simp only [decide_eq_true_eq]
    omega

theorem lm_fold (gs : List Ngram) : ∀ s : MknCounts, (gs.foldl mknCount s).lm = groupByOrder gs s.lm := by
  induction gs with
  | nil => intro s; rfl
  | cons g gs ih => intro s; rw [List.foldl_cons, ih, mknCount_lm]; rfl

/-! ### Discounts -/

/-- The vocabulary of a list of n-grams. -/
def vocab (gs : List Ngram) : Spec.Vocab := gs.map fun g => (g.tokens, g.count)

theorem nCount_eq (gs : List Ngram) (n c : Nat) : (vocab gs).nCount n c =
    gs.countP fun g => g.count = c ∧ g.order = n := by
  unfold Spec.Vocab.nCount vocab
  rw [List.countP_map]
  apply List.countP_congr
  intro g _
  exact ⟨fun h => decide_eq_true ⟨(of_decide_eq_true h).2, (of_decide_eq_true h).1⟩, fun h => decide_eq_true ⟨(of_decide_eq_true h).2, (of_decide_eq_true h).1⟩⟩

theorem n1_eq (gs : List Ngram) (n : Nat) : Counter.get0 (gs.foldl mknCount {}).n1 n = (vocab gs).nCount n 1 := by
  rw [nCount_eq, counter_fold mknCount MknCounts.n1 (fun g => g.count = 1) Ngram.order mknCount_n1]
  simp [Counter.get0]

theorem n2_eq (gs : List Ngram) (n : Nat) : Counter.get0 (gs.foldl mknCount {}).n2 n = (vocab gs).nCount n 2 := by
  rw [nCount_eq, counter_fold mknCount MknCounts.n2 (fun g => g.count = 2) Ngram.order mknCount_n2]
  simp [Counter.get0]

theorem n3_eq (gs : List Ngram) (n : Nat) : Counter.get0 (gs.foldl mknCount {}).n3 n = (vocab gs).nCount n 3 := by
  rw [nCount_eq, counter_fold mknCount MknCounts.n3 (fun g => g.count = 3) Ngram.order mknCount_n3]
  simp [Counter.get0]

theorem n4_eq (gs : List Ngram) (n : Nat) : Counter.get0 (gs.foldl mknCount {}).n4 n = (vocab gs).nCount n 4 := by
  rw [nCount_eq, counter_fold mknCount MknCounts.n4 (fun g => g.count = 4) Ngram.order mknCount_n4]
  simp [Counter.get0]

theorem mknDiscounts_eq (gs : List Ngram) (o : Nat) : mknDiscounts (gs.foldl mknCount {}) o =
    if (vocab gs).nCount o 1 = 0 ∨ (vocab gs).nCount o 2 = 0 ∨ (vocab gs).nCount o 3 = 0 ∨ (vocab gs).nCount o 4 = 0
    then .error .notEnoughData
    else .ok { d1 := (vocab gs).D1 o, d2 := (vocab gs).D2 o, d3 := (vocab gs).D3 o } := by
  unfold mknDiscounts
  simp only [n1_eq, n2_eq, n3_eq, n4_eq]
  rfl

theorem nCount_zero_iff (V : Spec.Vocab) (n c : Nat) : V.nCount n c = 0 ↔ ∀ e ∈ V, ¬ (e.1.length = n ∧ e.2 = c) := by
  unfold Spec.Vocab.nCount
  rw [List.countP_eq_zero]
  simp

theorem mem_ordersFrom2 (N o : Nat) : o ∈ ordersFrom2 N ↔ 2 ≤ o ∧ o ≤ N := by
  unfold ordersFrom2
  simp only [List.mem_map, List.mem_range]
  constructor
  · rintro ⟨i, hi, rfl⟩; omega
  · rintro ⟨h1, h2⟩; exact ⟨o - 2, by omega, by omega⟩

theorem poor_iff (V : Spec.Vocab) (N : Nat) : V.Poor N ↔ ∃ o ∈ ordersFrom2 N,
    V.nCount o 1 = 0 ∨ V.nCount o 2 = 0 ∨ V.nCount o 3 = 0 ∨ V.nCount o 4 = 0 := by
  unfold Spec.Vocab.Poor
  constructor
  · rintro ⟨n, h1, h2, c, hc1, hc2, h⟩
    refine ⟨n, (mem_ordersFrom2 _ _).mpr ⟨h1, h2⟩, ?_⟩
    rw [← nCount_zero_iff] at h
    have : c = 1 ∨ c = 2 ∨ c = 3 ∨ c = 4 := by omega
    rcases this with rfl | rfl | rfl | rfl <;> tauto
  · rintro ⟨o, ho, h⟩
    rw [mem_ordersFrom2] at ho
    simp only [nCount_zero_iff] at h
    rcases h with h | h | h | h
    · exact ⟨o, ho.1, ho.2, 1, by omega, by omega, h⟩
    · exact ⟨o, ho.1, ho.2, 2, by omega, by omega, h⟩
    · exact ⟨o, ho.1, ho.2, 3, by omega, by omega, h⟩
    · exact ⟨o, ho.1, ho.2, 4, by omega, by omega, h⟩

theorem mapM_error {α β} (f : α → Except PyErr β) (e : PyErr) : ∀ (l : List α),
    (∀ x ∈ l, f x = .error e ∨ ∃ y, f x = .ok y) → (∃ x ∈ l, f x = .error e) → l.mapM f = .error e
  | [], _, h => by simp at h
  | x :: l, h, hx => by
    rw [List.mapM_cons]
    rcases h x (by simp) with h1 | ⟨y, h1⟩
    · rw [h1]; rfl
    · rw [h1]
      have : ∃ z ∈ l, f z = .error e := by
        obtain ⟨z, hz, hfz⟩ := hx
        rcases List.mem_cons.mp hz with rfl | hz
        · rw [h1] at hfz; cases hfz
        · exact ⟨z, hz, hfz⟩
      have ih := mapM_error f e l (fun z hz => h z (by simp [hz])) this
      simp only [bind, Except.bind] at ih ⊢
      rw [ih]

/-- The discounts of an order of a rich vocabulary. -/
def discountsOf (V : Spec.Vocab) (o : Nat) : Discounts := { d1 := V.D1 o, d2 := V.D2 o, d3 := V.D3 o }

theorem mknAllDiscounts_poor {gs : List Ngram} {N : Nat} (h : (vocab gs).Poor N) :
    mknAllDiscounts (gs.foldl mknCount {}) (ordersFrom2 N) = .error .notEnoughData := by
  rw [poor_iff] at h
  obtain ⟨o, ho, h⟩ := h
  unfold mknAllDiscounts
  rw [mapM_error _ .notEnoughData]
  · rfl
  · intro o' _
    rw [mknDiscounts_eq]
    split
    · exact Or.inl rfl
    · exact Or.inr ⟨_, rfl⟩
  · exact ⟨o, ho, by rw [mknDiscounts_eq, if_pos h]; rfl⟩

theorem mknAllDiscounts_rich {gs : List Ngram} {N : Nat} (h : ¬ (vocab gs).Poor N) :
    ∃ D, mknAllDiscounts (gs.foldl mknCount {}) (ordersFrom2 N) = .ok D ∧
      ∀ o, Dict.get? D o = if 2 ≤ o ∧ o ≤ N then some (discountsOf (vocab gs) o) else none := by
  rw [poor_iff] at h
  push Not at h
  refine ⟨Dict.ofPairs ((ordersFrom2 N).map fun o => (o, discountsOf (vocab gs) o)), ?_, ?_⟩
  · unfold mknAllDiscounts
    rw [mapM_ok _ (fun o => (o, discountsOf (vocab gs) o))]
    · rfl
    · intro o ho
      have := h o ho
      rw [mknDiscounts_eq, if_neg (by tauto)]
      rfl
  · intro o
    rw [Dict.get?_ofPairs]
    by_cases ho : 2 ≤ o ∧ o ≤ N
    · rw [if_pos ho]
      rw [← mem_ordersFrom2] at ho
      have hmem : o ∈ Dict.keys (((ordersFrom2 N).map fun o => (o, discountsOf (vocab gs) o)).reverse) := by
        unfold Dict.keys
        rw [List.map_reverse, List.mem_reverse, List.map_map]
        simpa using ho
      rw [← Dict.get?_isSome_iff] at hmem
      obtain ⟨v, hv⟩ := Option.isSome_iff_exists.mp hmem
      rw [hv]
      have := Dict.mem_of_get? hv
      simp only [List.mem_reverse, List.mem_map] at this
      obtain ⟨_, _, e⟩ := this
      cases e
      rfl
    · rw [if_neg ho, Dict.get?_eq_none_iff]
      rw [← mem_ordersFrom2] at ho
      unfold Dict.keys
      rw [List.map_reverse, List.mem_reverse, List.map_map]
      simpa using ho

theorem D1_bounds {V : Spec.Vocab} {n : Nat} (h1 : V.nCount n 1 ≠ 0) : 0 < V.D1 n ∧ V.D1 n ≤ 1 := by
  unfold Spec.Vocab.D1 Spec.Vocab.Y
  have a : (0 : ℚ) < V.nCount n 1 := by exact_mod_cast Nat.pos_of_ne_zero h1
  have b : (0 : ℚ) ≤ V.nCount n 2 := by positivity
  generalize (V.nCount n 1 : ℚ) = x at *
  generalize (V.nCount n 2 : ℚ) = y at *
  have e : 1 - 2 * (x / (x + 2 * y)) * y / x = x / (x + 2 * y) := by
    field_simp
    ring
  rw [e]
  constructor
  · positivity
  · rw [div_le_one (by positivity)]
    linarith

/-! ### Wildcard keys -/

/-- A non-empty word without white space. -/
def NoBlank (w : Str) : Prop := w ≠ [] ∧ ∀ c ∈ w, isSpace c = false

theorem Alphabetic.noBlank {w : Str} (h : Alphabetic w) : NoBlank w :=
  ⟨h.1, fun c hc => isSpace_of_isAlpha (h.2 c hc)⟩

theorem noBlank_wc : NoBlank c!"•" := ⟨by decide, by decide⟩

theorem not_alphabetic_wc : ¬ Alphabetic c!"•" := by
  rintro ⟨_, h⟩
  have := h '•' (by simp)
  revert this
  decide

theorem join_inj_noBlank {ws vs : List Str} (hw : ∀ w ∈ ws, NoBlank w) (hv : ∀ w ∈ vs, NoBlank w) :
    join c!" " ws = join c!" " vs ↔ ws = vs := by
  refine ⟨fun h => ?_, fun h => by rw [h]⟩
  rw [← splitWs_join ws hw, h, splitWs_join vs hv]

theorem join_cons {sep x : Str} {l : List Str} (h : l ≠ []) : join sep (x :: l) = x ++ sep ++ join sep l := by
  cases l with
  | nil => exact absurd rfl h
  | cons y l => rfl

theorem join_concat {sep x : Str} : ∀ {l : List Str}, l ≠ [] → join sep (l ++ [x]) = join sep l ++ sep ++ x
  | [], h => absurd rfl h
  | [y], _ => rfl
  | y :: z :: l, _ => by
    have ih := join_concat (sep := sep) (x := x) (l := z :: l) (by simp)
    rw [List.cons_append, join_cons (l := z :: l ++ [x]) (by simp), ih, join_cons (l := z :: l) (by simp)]
    simp only [List.append_assoc]

/-- What the smoother needs to know about the n-grams it is given. -/
structure GramsOk (gs : List Ngram) (N : Nat) : Prop where
  nodup : (gs.map Ngram.text).Nodup
  text : ∀ g ∈ gs, g.text = join c!" " g.tokens
  alph : ∀ g ∈ gs, ∀ t ∈ g.tokens, Alphabetic t
  order : ∀ g ∈ gs, 1 ≤ g.order ∧ g.order ≤ N
  count : ∀ g ∈ gs, 1 ≤ g.count
  closed : ∀ g ∈ gs, ∀ part, part <:+: g.tokens → part ≠ [] → ∃ g' ∈ gs, g'.tokens = part ∧ g.count ≤ g'.count

theorem wcFirst_eq {g : Ngram} (h : 1 < g.order) : wcFirst g = join c!" " (c!"•" :: g.tokens.drop 1) := by
  have : g.tokens.drop 1 ≠ [] := by
    intro e
    have := congrArg List.length e
    rw [List.length_drop] at this
    unfold Ngram.order at h
    simp at this
    omega
  rw [join_cons this]
  unfold wcFirst
  have := sliceFrom_nat g.tokens 1
  rw [show ((1 : Nat) : Int) = 1 from rfl] at this
  rw [this]

theorem sliceTo_neg_one {α} (l : List α) : sliceTo l (-1) = l.dropLast := by
  have := sliceTo_neg l 1 (by omega)
  rw [show (-((1 : Nat) : Int)) = -1 from rfl] at this
  rw [this, List.dropLast_eq_take]

theorem dropLast_ne_nil {α} {l : List α} (h : 1 < l.length) : l.dropLast ≠ [] := by
  intro e
  have := congrArg List.length e
  rw [List.length_dropLast] at this
  simp at this
  omega

theorem wcLast_eq {g : Ngram} (h : 1 < g.order) : wcLast g = join c!" " (g.tokens.dropLast ++ [c!"•"]) := by
  unfold wcLast
  rw [sliceTo_neg_one, join_concat (dropLast_ne_nil h)]

theorem wcBoth_eq {g : Ngram} (h : 2 < g.order) :
    wcBoth g = join c!" " (c!"•" :: ((g.tokens.drop 1).dropLast ++ [c!"•"])) := by
  have hlen : 1 < (g.tokens.drop 1).length := by
    rw [List.length_drop]
    unfold Ngram.order at h
    omega
  have hs : slice g.tokens 1 (-1) = (g.tokens.drop 1).dropLast := by
    unfold slice clampIdx
    simp only [show (-1 : Int) < 0 by decide, if_true, show ¬ ((1 : Int) < 0) by decide, if_false]
    unfold Ngram.order at h
    have e1 : ((-1 : Int) + (g.tokens.length : Int)).toNat = g.tokens.length - 1 := by omega
    have e2 : min (1 : Int).toNat g.tokens.length = 1 := by
      have : (1 : Int).toNat = 1 := rfl
      omega
    rw [e1, e2, List.dropLast_eq_take, List.length_drop, List.drop_take]
  unfold wcBoth
  rw [hs, join_cons (by simp), join_concat (dropLast_ne_nil hlen)]
  simp

section
variable {gs : List Ngram} {N : Nat} (ok : GramsOk gs N)
include ok

theorem noBlank_tokens {g : Ngram} (hg : g ∈ gs) : ∀ w ∈ g.tokens, NoBlank w := fun w hw => (ok.alph g hg w hw).noBlank

theorem before_eq {ts : List Str} (hts : ts ≠ []) (ha : ∀ t ∈ ts, Alphabetic t) :
    Counter.get0 (gs.foldl mknCount {}).wcs (join c!" " (c!"•" :: ts)) = (vocab gs).before ts := by
  have hk : ∀ w ∈ c!"•" :: ts, NoBlank w := by
    intro w hw
    rcases List.mem_cons.mp hw with rfl | hw
    · exact noBlank_wc
    · exact (ha w hw).noBlank
  have hlt : 0 < ts.length := List.length_pos_iff.mpr hts
  rw [wcs_fold]
  have h2 : (gs.countP fun g => 2 < g.order ∧ wcBoth g = join c!" " (c!"•" :: ts)) = 0 := by
    rw [List.countP_eq_zero]
    intro g hg
    simp only [decide_eq_true_eq, not_and]
    intro ho e
    rw [wcBoth_eq ho, join_inj_noBlank ?_ hk] at e
    · have e' := (List.cons.inj e).2
      exact not_alphabetic_wc (ha _ (by rw [← e']; simp))
    · intro w hw
      rcases List.mem_cons.mp hw with rfl | hw
      · exact noBlank_wc
      · rcases List.mem_append.mp hw with hw | hw
        · exact noBlank_tokens ok hg w (List.mem_of_mem_drop (List.mem_of_mem_dropLast hw))
        · rw [List.mem_singleton] at hw; rw [hw]; exact noBlank_wc
  rw [h2]
  simp only [Counter.get0, Dict.get?_nil, Option.getD_none, Nat.zero_add, Nat.add_zero]
  unfold Spec.Vocab.before vocab
  rw [List.countP_map]
  apply List.countP_congr
  intro g hg
  simp only [Function.comp, decide_eq_true_eq]
  constructor
  · rintro ⟨h1, e⟩
    rw [wcFirst_eq h1, join_inj_noBlank ?_ hk] at e
    · have e' := (List.cons.inj e).2
      refine ⟨?_, e'⟩
      have := congrArg List.length e'
      rw [List.length_drop] at this
      unfold Ngram.order at h1
      omega
    · intro w hw
      rcases List.mem_cons.mp hw with rfl | hw
      · exact noBlank_wc
      · exact noBlank_tokens ok hg w (List.mem_of_mem_drop hw)
  · rintro ⟨h1, e⟩
    have ho : 1 < g.order := by unfold Ngram.order; omega
    exact ⟨ho, by rw [wcFirst_eq ho, e]⟩

theorem around_eq {ts : List Str} (hts : ts ≠ []) (ha : ∀ t ∈ ts, Alphabetic t) :
    Counter.get0 (gs.foldl mknCount {}).wcs (join c!" " (c!"•" :: (ts ++ [c!"•"]))) = (vocab gs).around ts := by
  have hk : ∀ w ∈ c!"•" :: (ts ++ [c!"•"]), NoBlank w := by
    intro w hw
    rcases List.mem_cons.mp hw with rfl | hw
    · exact noBlank_wc
    · rcases List.mem_append.mp hw with hw | hw
      · exact (ha w hw).noBlank
      · rw [List.mem_singleton] at hw; rw [hw]; exact noBlank_wc
  have hlt : 0 < ts.length := List.length_pos_iff.mpr hts
  rw [wcs_fold]
  have h2 : (gs.countP fun g => 1 < g.order ∧ wcFirst g = join c!" " (c!"•" :: (ts ++ [c!"•"]))) = 0 := by
    rw [List.countP_eq_zero]
    intro g hg
    simp only [decide_eq_true_eq, not_and]
    intro ho e
    rw [wcFirst_eq ho, join_inj_noBlank ?_ hk] at e
    · have e' := (List.cons.inj e).2
      have : c!"•" ∈ g.tokens.drop 1 := by rw [e']; simp
      exact not_alphabetic_wc (ok.alph g hg _ (List.mem_of_mem_drop this))
    · intro w hw
      rcases List.mem_cons.mp hw with rfl | hw
      · exact noBlank_wc
      · exact noBlank_tokens ok hg w (List.mem_of_mem_drop hw)
  rw [h2]
  simp only [Counter.get0, Dict.get?_nil, Option.getD_none, Nat.zero_add, Nat.add_zero]
  unfold Spec.Vocab.around vocab
  rw [List.countP_map]
  apply List.countP_congr
  intro g hg
  simp only [Function.comp, decide_eq_true_eq]
  constructor
  · rintro ⟨h1, e⟩
    rw [wcBoth_eq h1, join_inj_noBlank ?_ hk] at e
    · have e' := List.append_cancel_right (List.cons.inj e).2
      have hl := congrArg List.length e'
      rw [List.length_dropLast, List.length_drop] at hl
      unfold Ngram.order at h1
      refine ⟨by omega, ?_⟩
      rw [List.dropLast_eq_take, List.length_drop] at e'
      have : ts.length = g.tokens.length - 1 - 1 := hl.symm
      rw [this]
      exact e'
    · intro w hw
      rcases List.mem_cons.mp hw with rfl | hw
      · exact noBlank_wc
      · rcases List.mem_append.mp hw with hw | hw
        · exact noBlank_tokens ok hg w (List.mem_of_mem_drop (List.mem_of_mem_dropLast hw))
        · rw [List.mem_singleton] at hw; rw [hw]; exact noBlank_wc
  · rintro ⟨h1, e⟩
    have ho : 2 < g.order := by unfold Ngram.order; omega
    refine ⟨ho, ?_⟩
    rw [wcBoth_eq ho, List.dropLast_eq_take, List.length_drop]
    have : g.tokens.length - 1 - 1 = ts.length := by omega
    rw [this, e]

theorem after_eq {ts : List Str} (hts : ts ≠ []) (ha : ∀ t ∈ ts, Alphabetic t) (Q : Nat → Prop) [DecidablePred Q] :
    (gs.countP fun g => (1 < g.order ∧ Q g.count) ∧ wcLast g = join c!" " (ts ++ [c!"•"])) =
      (vocab gs).after ts fun c => decide (Q c) := by
  have hk : ∀ w ∈ ts ++ [c!"•"], NoBlank w := by
    intro w hw
    rcases List.mem_append.mp hw with hw | hw
    · exact (ha w hw).noBlank
    · rw [List.mem_singleton] at hw; rw [hw]; exact noBlank_wc
  have hlt : 0 < ts.length := List.length_pos_iff.mpr hts
  unfold Spec.Vocab.after vocab
  rw [List.countP_map]
  apply List.countP_congr
  intro g hg
  simp only [Function.comp, decide_eq_true_eq]
  constructor
  · rintro ⟨⟨h1, hq⟩, e⟩
    rw [wcLast_eq h1, join_inj_noBlank ?_ hk] at e
    · have e' := List.append_cancel_right e
      have hl := congrArg List.length e'
      rw [List.length_dropLast] at hl
      unfold Ngram.order at h1
      refine ⟨by omega, ?_, hq⟩
      rw [List.dropLast_eq_take] at e'
      rw [← hl]
      exact e'
    · intro w hw
      rcases List.mem_append.mp hw with hw | hw
      · exact noBlank_tokens ok hg w (List.mem_of_mem_dropLast hw)
      · rw [List.mem_singleton] at hw; rw [hw]; exact noBlank_wc
  · rintro ⟨h1, e, hq⟩
    have ho : 1 < g.order := by unfold Ngram.order; omega
    refine ⟨⟨ho, hq⟩, ?_⟩
    rw [wcLast_eq ho, List.dropLast_eq_take]
    have : g.tokens.length - 1 = ts.length := by omega
    rw [this, e]

theorem wc1_eq {ts : List Str} (hts : ts ≠ []) (ha : ∀ t ∈ ts, Alphabetic t) :
    Counter.get0 (gs.foldl mknCount {}).wc1 (join c!" " (ts ++ [c!"•"])) = (vocab gs).after ts (· == 1) := by
  rw [counter_fold mknCount MknCounts.wc1 (fun g => 1 < g.order ∧ g.count = 1) wcLast mknCount_wc1,
    after_eq ok hts ha (fun c => c = 1)]
  simp only [Counter.get0, Dict.get?_nil, Option.getD_none, Nat.zero_add]
  rfl

theorem wc2_eq {ts : List Str} (hts : ts ≠ []) (ha : ∀ t ∈ ts, Alphabetic t) :
    Counter.get0 (gs.foldl mknCount {}).wc2 (join c!" " (ts ++ [c!"•"])) = (vocab gs).after ts (· == 2) := by
  rw [counter_fold mknCount MknCounts.wc2 (fun g => 1 < g.order ∧ g.count = 2) wcLast mknCount_wc2,
    after_eq ok hts ha (fun c => c = 2)]
  simp only [Counter.get0, Dict.get?_nil, Option.getD_none, Nat.zero_add]
  rfl

theorem wc3_eq {ts : List Str} (hts : ts ≠ []) (ha : ∀ t ∈ ts, Alphabetic t) :
    Counter.get0 (gs.foldl mknCount {}).wc3 (join c!" " (ts ++ [c!"•"])) =
      (vocab gs).after ts (fun c => c ≠ 1 ∧ c ≠ 2) := by
  rw [counter_fold mknCount MknCounts.wc3 (fun g => 1 < g.order ∧ (g.count ≠ 1 ∧ g.count ≠ 2)) wcLast mknCount_wc3,
    after_eq ok hts ha (fun c => c ≠ 1 ∧ c ≠ 2)]
  simp only [Counter.get0, Dict.get?_nil, Option.getD_none, Nat.zero_add]

/-! ### Lookups -/

theorem gram_unique {g g' : Ngram} (hg : g ∈ gs) (hg' : g' ∈ gs) (h : g.tokens = g'.tokens) : g = g' := by
  have e : g.text = g'.text := by rw [ok.text g hg, ok.text g' hg', h]
  exact List.inj_on_of_nodup_map ok.nodup hg hg' e

theorem vocab_count {g : Ngram} (hg : g ∈ gs) : (vocab gs).count g.tokens = g.count := by
  unfold Spec.Vocab.count
  cases hf : (vocab gs).find? fun e => e.1 = g.tokens with
  | none =>
    rw [List.find?_eq_none] at hf
    exact absurd (decide_eq_true (rfl : g.tokens = g.tokens)) (hf (g.tokens, g.count) (List.mem_map.mpr ⟨g, hg, rfl⟩))
  | some e =>
    have h1 := List.find?_some hf
    have h2 := List.mem_of_find?_eq_some hf
    obtain ⟨g', hg', rfl⟩ := List.mem_map.mp h2
    simp only [decide_eq_true_eq] at h1
    rw [gram_unique ok hg' hg h1]
    rfl

theorem mem_lm_flat (g : Ngram) : g ∈ ((gs.foldl mknCount {}).lm.flatMap fun p => p.2) ↔ g ∈ gs := by
  rw [lm_fold]
  have hwf := groupByOrder_wf gs [] Dict.Wf.nil
  rw [List.mem_flatMap]
  constructor
  · rintro ⟨⟨o, l⟩, hp, hgl⟩
    have h1 := Dict.get?_of_mem hwf hp
    have h2 := groupByOrder_getD gs [] o
    rw [show (({} : MknCounts).lm) = [] from rfl] at *
    rw [h1] at h2
    simp only [Option.getD_some, Dict.get?_nil, Option.getD_none, List.nil_append] at h2
    rw [h2] at hgl
    exact (List.mem_filter.mp hgl).1
  · intro hg
    have hk : g.order ∈ Dict.keys (groupByOrder gs []) := (groupByOrder_keys gs [] _).mpr (Or.inr ⟨g, hg, rfl⟩)
    rw [← Dict.get?_isSome_iff] at hk
    obtain ⟨l, hl⟩ := Option.isSome_iff_exists.mp hk
    have h2 := groupByOrder_getD gs [] g.order
    rw [hl] at h2
    simp only [Option.getD_some, Dict.get?_nil, Option.getD_none, List.nil_append] at h2
    refine ⟨(g.order, l), Dict.mem_of_get? hl, ?_⟩
    rw [h2]
    simp [hg]

theorem lookup_eq {g : Ngram} (hg : g ∈ gs) :
    Dict.get? (Dict.ofPairs (((gs.foldl mknCount {}).lm.flatMap fun p => p.2).map fun g => (g.text, g))) g.text =
      some g := by
  rw [Dict.get?_ofPairs]
  set l := ((gs.foldl mknCount {}).lm.flatMap fun p => p.2) with hl
  have hk : g.text ∈ Dict.keys ((l.map fun g => (g.text, g)).reverse) := by
    unfold Dict.keys
    rw [List.map_reverse, List.mem_reverse, List.map_map]
    exact List.mem_map.mpr ⟨g, (mem_lm_flat ok g).mpr hg, rfl⟩
  rw [← Dict.get?_isSome_iff] at hk
  obtain ⟨g', hg'⟩ := Option.isSome_iff_exists.mp hk
  rw [hg']
  have := Dict.mem_of_get? hg'
  simp only [List.mem_reverse, List.mem_map] at this
  obtain ⟨g'', h1, h2⟩ := this
  have e1 := congrArg Prod.fst h2
  have e2 := congrArg Prod.snd h2
  simp only at e1 e2
  subst e2
  rw [List.inj_on_of_nodup_map ok.nodup ((mem_lm_flat ok g'').mp h1) hg e1]

end

end Model
