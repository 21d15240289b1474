import Verif.Lemmas.Smoothers

/-! C21: maximum likelihood estimation. -/

namespace Props
open Py Model

/-- The n-grams of an order, in store order. -/
def ofOrder (gs : List Ngram) (o : Nat) : List Ngram := gs.filter fun g => g.order = o

/-- C21: whatever the schedules, the smoother assigns count / total of the order to every n-gram of every order, in
place, and it can always return. Nothing depends on `nb` or on the schedules. -/
theorem C21_mle_probabilities (R : Rounding) (gs : List Ngram) (N nb : Nat) (hb : 1 ≤ nb) (hnb : nb ≤ 2 ^ 53)
    (hlen : gs.length ≤ 2 ^ 53) (hc : ∀ g ∈ gs, 1 ≤ g.count)
    (hrange : ∀ g ∈ gs, 1 ≤ g.order ∧ g.order ≤ N) (hall : ∀ o, 1 ≤ o → o ≤ N → ∃ g ∈ gs, g.order = o) :
    Spec.Returns (mleSmooth R gs N nb) fun out => ∀ o, 1 ≤ o → o ≤ N →
      (Dict.get? out o).getD [] = (ofOrder gs o).map fun g =>
        { g with proba := some (some ((g.count : ℚ) / ((ofOrder gs o).map Ngram.count).sum)) } := by
  obtain ⟨t, ht1, ht2⟩ := mleInit_eq gs N hrange
  set lm := groupByOrder gs [] with hlm
  have hget : ∀ o, (Dict.get? lm o).getD [] = ofOrder gs o := by
    intro o
    rw [hlm, groupByOrder_getD]
    rfl
  have hle : ∀ o, (ofOrder gs o).length ≤ 2 ^ 53 := fun o => le_trans (List.length_filter_le _ _) hlen
  have hspec := fun o => mleOrder_spec R (ofOrder gs o) nb hb hnb (hle o) (totalOf gs o)
  choose ret hret hstep using hspec
  have hne : ∀ o, 1 ≤ o → o ≤ N → ofOrder gs o ≠ [] := by
    intro o h1 h2 h
    obtain ⟨g, hg, hgo⟩ := hall o h1 h2
    have : g ∈ ofOrder gs o := by simp [ofOrder, hg, hgo]
    rw [h] at this
    cases this
  have hos : ∀ o, o ∈ (List.range N).map (· + 1) ↔ 1 ≤ o ∧ o ≤ N := by
    intro o
    simp only [List.mem_map, List.mem_range]
    constructor
    · rintro ⟨i, hi, rfl⟩; omega
    · rintro ⟨h1, h2⟩; exact ⟨o - 1, by omega, by omega⟩
  obtain ⟨D, hD1, hD2⟩ := forOrders_spec (fun o g => numDiv g.count (totalOf gs o)) (ofOrder gs)
    (fun sched d o => mleOrder R t nb (sched o) d o) ret ((List.range N).map (· + 1))
    (List.nodup_range.map (fun _ _ h => Nat.succ_injective h))
    (by
      intro o ho d hd hsome
      rw [hos] at ho
      have hsome' : Dict.get? d o = some (ofOrder gs o) := by
        obtain ⟨x, hx⟩ := Option.isSome_iff_exists.mp (hsome.mpr (hne o ho.1 ho.2))
        rw [hx] at hd ⊢
        rw [← hd]
        rfl
      obtain ⟨d', h1, h2, h3⟩ := hstep o t o (ht2 o ho.1 ho.2) d hsome'
      exact ⟨d', fun sched => h1 (sched o), h2, h3⟩)
    lm (fun o _ => hget o)
    (by
      intro o ho
      rw [hos] at ho
      rw [Dict.get?_isSome_iff, hlm, groupByOrder_keys]
      simp only [Dict.keys_nil, List.not_mem_nil, false_or]
      exact ⟨fun _ => hne o ho.1 ho.2, fun _ => hall o ho.1 ho.2⟩)
  refine returns_of_ret D ret hret ((List.range N).map (· + 1)) ?_ ?_
  · intro sched
    unfold mleSmooth
    rw [ht1]
    exact hD1 sched
  · intro o h1 h2
    rw [hD2 o, if_pos ((hos o).mpr ⟨h1, h2⟩)]
    apply List.map_congr_left
    intro g hg
    have hpos : 1 ≤ totalOf gs o := by
      have hgs : g ∈ gs := (List.mem_filter.mp hg).1
      have : g.count ≤ totalOf gs o := List.single_le_sum (by simp) _ (List.mem_map.mpr ⟨g, hg, rfl⟩)
      exact le_trans (hc g hgs) this
    have hne0 : ((totalOf gs o : ℕ) : ℚ) ≠ 0 := by exact_mod_cast Nat.ne_of_gt hpos
    unfold Ngram.withProba numDiv
    rw [if_neg hne0]
    rfl

/-- C21: those values are a probability distribution for each order that occurs. -/
theorem C21_mle_distribution (gs : List Ngram) (o : Nat) (hc : ∀ g ∈ gs, 1 ≤ g.count) (h : ∃ g ∈ gs, g.order = o) :
    (∀ g ∈ ofOrder gs o, 0 < (g.count : ℚ) / ((ofOrder gs o).map Ngram.count).sum ∧
      (g.count : ℚ) / ((ofOrder gs o).map Ngram.count).sum ≤ 1) ∧
    ((ofOrder gs o).map fun g => (g.count : ℚ) / ((ofOrder gs o).map Ngram.count).sum).sum = 1 := by
  have hc' : ∀ g ∈ ofOrder gs o, 1 ≤ g.count := fun g hg => hc g (List.mem_filter.mp hg).1
  have hne : ofOrder gs o ≠ [] := by
    obtain ⟨g, hg, hgo⟩ := h
    intro e
    have : g ∈ ofOrder gs o := by simp [ofOrder, hg, hgo]
    rw [e] at this
    cases this
  generalize ofOrder gs o = l at *
  have hle : ∀ g ∈ l, g.count ≤ (l.map Ngram.count).sum := fun g hg =>
    List.single_le_sum (by simp) _ (List.mem_map.mpr ⟨g, hg, rfl⟩)
  obtain ⟨g0, hg0⟩ := List.exists_mem_of_ne_nil l hne
  have hpos : (0 : ℚ) < ((l.map Ngram.count).sum : ℕ) := by
    have := le_trans (hc' g0 hg0) (hle g0 hg0)
    exact_mod_cast this
  generalize hT : (l.map Ngram.count).sum = T at *
  constructor
  · intro g hg
    have h1 : (0 : ℚ) < g.count := by exact_mod_cast hc' g hg
    refine ⟨by positivity, ?_⟩
    rw [div_le_one hpos]
    exact_mod_cast hle g hg
  · have : ∀ (l : List Ngram), (l.map fun g => (g.count : ℚ) / T).sum = ((l.map Ngram.count).sum : ℕ) / T := by
      intro l
      induction l with
      | nil => simp
      | cons g l ih => rw [List.map_cons, List.sum_cons, ih]; push_cast [List.map_cons, List.sum_cons]; ring
    rw [this, hT]
    exact div_self (ne_of_gt hpos)

/-- A store of three unigrams. -/
def demoGrams : List Ngram := [{ text := c!"a", count := 2 }, { text := c!"b", count := 1 }, { text := c!"a b", count := 1 }]

/-- Runs everything needed for two slices. -/
def demoMoves : List Move := [.main, .main, .worker 0, .worker 0, .worker 1, .worker 1, .main, .main]

example : mleSmooth Rounding.exact demoGrams 2 2 (fun _ => demoMoves) = .ok (some
    [(1, [{ text := c!"a", count := 2, proba := some (some (2 / 3)) }, { text := c!"b", count := 1, proba := some (some (1 / 3)) }]),
     (2, [{ text := c!"a b", count := 1, proba := some (some 1) }])]) := by decide +kernel

/-- C21, beyond the claim: when an order up to the maximum has no n-gram the smoother raises `KeyError`. -/
theorem C21_mle_missing_order (R : Rounding) (gs : List Ngram) (nb : Nat)
    (h : ∀ g ∈ gs, g.order ≠ 1) (N : Nat) (hN : 1 ≤ N)
    (hrange : ∀ g ∈ gs, 1 ≤ g.order ∧ g.order ≤ N) (sched : Nat → List Move) :
    mleSmooth R gs N nb sched = .error .key := by
  obtain ⟨t, ht1, ht2⟩ := mleInit_eq gs N hrange
  unfold mleSmooth
  rw [ht1]
  obtain ⟨N, rfl⟩ : ∃ M, N = M + 1 := ⟨N - 1, by omega⟩
  have hnone : Dict.get? (groupByOrder gs []) 1 = none := by
    rw [Dict.get?_eq_none_iff, groupByOrder_keys]
    simp only [Dict.keys_nil, List.not_mem_nil, false_or]
    rintro ⟨g, hg, e⟩
    exact h g hg e
  rw [List.range_succ_eq_map, List.map_cons]
  simp only [forOrders, mleOrder, Dict.get, Nat.zero_add, hnone, bind, Except.bind]

example : ∀ g ∈ [({ text := c!"a b" } : Ngram)], g.order ≠ 1 := by decide

end Props
