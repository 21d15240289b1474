import Verif.Lemmas.LangModel

namespace Model
open Py

theorem splitWsAux_noBlank : ∀ (t cur : Str), (∀ c ∈ cur, isSpace c = false) → ∀ w ∈ splitWsAux t cur, NoBlank w
  | [], cur, hc, w, hw => by
    unfold splitWsAux at hw
    split at hw
    · simp at hw
    · rename_i hne
      rw [List.mem_singleton] at hw
      subst hw
      refine ⟨by simpa using hne, ?_⟩
      intro c hcm
      exact hc c (List.mem_reverse.mp hcm)
  | a :: t, cur, hc, w, hw => by
    unfold splitWsAux at hw
    split at hw
    · split at hw
      · exact splitWsAux_noBlank t [] (by simp) w hw
      · rename_i hne
        rcases List.mem_cons.mp hw with rfl | hw
        · refine ⟨by simpa using hne, ?_⟩
          intro c hcm
          exact hc c (List.mem_reverse.mp hcm)
        · exact splitWsAux_noBlank t [] (by simp) w hw
    · rename_i ha
      refine splitWsAux_noBlank t (a :: cur) ?_ w hw
      intro c hcm
      rcases List.mem_cons.mp hcm with rfl | hcm
      · simpa using ha
      · exact hc c hcm

theorem splitWs_noBlank (t : Str) : ∀ w ∈ splitWs t, NoBlank w := splitWsAux_noBlank t [] (by simp)

/-- The continuations of a list of words: the n-grams consisting of these words and one more. -/
def contsOf (details : Dict Str Details) (ws : List Str) : List (Str × ℚ) :=
  details.filterMap fun e =>
    match (splitWs e.1).getLast? with
    | some last => if splitWs e.1 = ws ++ [last] ∧ ws ≠ [] then some (last, e.2.2.1) else none
    | none => none

theorem continuations_eq (details : Dict Str Details) {ws : List Str} (hw : ∀ w ∈ ws, NoBlank w) :
    continuations details (join c!" " ws) = contsOf details ws := by
  unfold continuations contsOf
  apply List.filterMap_congr
  intro e _
  have hn := splitWs_noBlank e.1
  cases hl : (splitWs e.1).getLast? with
  | none => rfl
  | some last =>
    simp only
    obtain ⟨pre, hpre⟩ := List.getLast?_eq_some_iff.mp hl
    have hd : (splitWs e.1).dropLast = pre := by rw [hpre]; simp
    have hiff : (1 < (splitWs e.1).length ∧ join c!" " (splitWs e.1).dropLast = join c!" " ws) ↔
        (splitWs e.1 = ws ++ [last] ∧ ws ≠ []) := by
      rw [hd, join_inj_noBlank (fun w h => hn w (by rw [hpre]; exact List.mem_append_left _ h)) hw, hpre]
      simp only [List.length_append, List.length_singleton, List.append_cancel_right_eq]
      constructor
      · rintro ⟨h1, rfl⟩
        refine ⟨rfl, ?_⟩
        rintro rfl
        simp at h1
      · rintro ⟨rfl, h⟩
        exact ⟨by have := List.length_pos_iff.mpr h; omega, rfl⟩
    simp only [hiff]

theorem nextLoop_eq (m : LM) (tokens : List Str) (limit : Option Int) : ∀ is : List Nat,
    (m.nextLoop tokens limit is = [] ∧ ∀ i ∈ is, Dict.get? m.nextTokens (join c!" " (sliceFrom tokens (-(i : Int)))) = none) ∨
    ∃ (pre : List Nat) (i : Nat) (post : List Nat) (l : List (Str × ℚ)), is = pre ++ i :: post ∧
      (∀ j ∈ pre, Dict.get? m.nextTokens (join c!" " (sliceFrom tokens (-(j : Int)))) = none) ∧
      Dict.get? m.nextTokens (join c!" " (sliceFrom tokens (-(i : Int)))) = some l ∧
      m.nextLoop tokens limit is = sliceLimit l limit
  | [] => Or.inl ⟨rfl, by simp⟩
  | i :: is => by
    unfold LM.nextLoop Dict.get
    cases hg : Dict.get? m.nextTokens (join c!" " (sliceFrom tokens (-(i : Int)))) with
    | some l => exact Or.inr ⟨[], i, is, l, rfl, by simp, hg, rfl⟩
    | none =>
      rcases nextLoop_eq m tokens limit is with ⟨h1, h2⟩ | ⟨pre, j, post, l, h1, h2, h3, h4⟩
      · left
        refine ⟨h1, ?_⟩
        intro j hj
        rcases List.mem_cons.mp hj with rfl | hj
        · exact hg
        · exact h2 j hj
      · right
        refine ⟨i :: pre, j, post, l, by rw [h1]; rfl, ?_, h3, h4⟩
        intro k hk
        rcases List.mem_cons.mp hk with rfl | hk
        · exact hg
        · exact h2 k hk

/-! ### Evidence -/

theorem best_eq_of_max {l : List (WithBot ℚ)} {x : WithBot ℚ} (h1 : x ∈ l) (h2 : ∀ y ∈ l, y ≤ x) : Spec.best l = x := by
  have hle : ∀ l : List (WithBot ℚ), ∀ y ∈ l, y ≤ Spec.best l := by
    intro l
    induction l with
    | nil => simp
    | cons a l ih =>
      intro y hy
      show y ≤ max a (Spec.best l)
      rcases List.mem_cons.mp hy with rfl | hy
      · exact le_max_left _ _
      · exact le_trans (ih y hy) (le_max_right _ _)
  have hge : ∀ l : List (WithBot ℚ), (∀ y ∈ l, y ≤ x) → Spec.best l ≤ x := by
    intro l
    induction l with
    | nil => intro _; exact bot_le
    | cons a l ih =>
      intro h
      exact max_le (h a (by simp)) (ih fun y hy => h y (List.mem_cons_of_mem _ hy))
  exact le_antisymm (hge l h2) (hle l x h1)

/-- What `candidates` returns, `[]` if it raises. -/
def candidateList (before after : List Str) (t : Str) (n : Nat) : List Str :=
  match ({ token := t, before := before, after := after } : TokenContext).candidates n with
  | .ok l => l
  | .error _ => []

/-- The vector of a token: for the orders `N, …, 2` the best log-probability of a candidate, then that of the token. -/
def evidence (m : LM) (before after : List Str) (t : Str) : List (WithBot ℚ) :=
  ((List.range (m.maxOrder - 1)).map fun k => Spec.best ((candidateList before after t (m.maxOrder - k)).map m.logp)) ++
    [m.logp t]

theorem ordersDown_eq (n : Nat) : ordersDown n = (List.range (n - 1)).map fun k => n - k := by
  unfold ordersDown
  apply List.ext_getElem
  · simp
  · intro i h1 h2
    simp only [List.length_reverse, List.length_map, List.length_range] at h1
    simp only [List.getElem_reverse, List.getElem_map, List.getElem_range, List.length_map, List.length_range]
    omega

theorem logpOrder_eq (m : LM) (before after : List Str) (t : Str) (n : Nat) (hn : 2 ≤ n) :
    m.logpOrder { token := t, before := before, after := after } n =
      .ok (Spec.best ((candidateList before after t n).map m.logp)) := by
  unfold LM.logpOrder candidateList TokenContext.candidates
  have h1 : (n : Int) > 1 := by omega
  simp only [h1, if_true, bind, Except.bind]
  generalize ((slideWindow _ _).map (join c!" ")) = cands
  cases cands with
  | nil => rfl
  | cons c cs =>
    simp only [List.isEmpty_cons, Bool.false_eq_true, if_false]
    obtain ⟨x, h2, h3, h4⟩ := pyMax_spec (id : WithBot ℚ → WithBot ℚ) (fun a b => decide (a < b)) (by simp)
      ((c :: cs).map m.logp) (by simp)
    rw [h2, best_eq_of_max h3 h4]

theorem logps_eq (m : LM) (before after : List Str) (t : Str) :
    m.logps { token := t, before := before, after := after } = .ok (evidence m before after t) := by
  unfold LM.logps evidence
  rw [mapM_ok _ (fun n => Spec.best ((candidateList before after t n).map m.logp))]
  · rw [ordersDown_eq, List.map_map]
    rfl
  · intro n hn
    rw [ordersDown_eq] at hn
    obtain ⟨k, hk, rfl⟩ := List.mem_map.mp hn
    rw [List.mem_range] at hk
    exact logpOrder_eq m before after t _ (by omega)

theorem length_evidence (m : LM) (before after : List Str) (t t' : Str) :
    (evidence m before after t).length = (evidence m before after t').length := by
  simp [evidence]

theorem lexLe_of_le {κ} [LinearOrder κ] : ∀ {a b : List κ}, a.length = b.length → a ≤ b → Spec.LexLe a b := by
  intro a b hl hab
  rcases lt_or_eq_of_le hab with h | h
  · right
    clear hab
    induction a generalizing b with
    | nil =>
      cases b with
      | nil => exact absurd h (lt_irrefl _)
      | cons _ _ => simp at hl
    | cons x a ih =>
      cases b with
      | nil => simp at hl
      | cons y b =>
        rw [List.cons_lt_cons_iff] at h
        rcases h with h | ⟨rfl, h⟩
        · exact ⟨[], x, y, a, b, rfl, rfl, h⟩
        · obtain ⟨pre, u, v, as, bs, h1, h2, h3⟩ := ih (by simpa using hl) h
          exact ⟨x :: pre, u, v, as, bs, by rw [h1]; rfl, by rw [h2]; rfl, h3⟩
  · exact Or.inl h

/-- The index found in a dictionary from values to indices is that of the last occurrence. -/
theorem get?_zipIdx {κ} [DecidableEq κ] (l : List κ) (k : κ) (hk : k ∈ l) :
    ∃ i, Dict.get? (Dict.ofPairs l.zipIdx) k = some i ∧ l[i]? = some k ∧ ∀ j, l[j]? = some k → j ≤ i := by
  rw [Dict.get?_ofPairs]
  suffices ∀ n, ∃ i, Dict.get? (l.zipIdx n).reverse k = some (n + i) ∧ l[i]? = some k ∧ ∀ j, l[j]? = some k → j ≤ i by
    obtain ⟨i, h⟩ := this 0
    exact ⟨i, by simpa using h⟩
  induction l with
  | nil => simp at hk
  | cons x l ih =>
    intro n
    rw [List.zipIdx_cons, List.reverse_cons, Dict.get?_append]
    by_cases hm : k ∈ l
    · obtain ⟨i, h1, h2, h3⟩ := ih hm (n + 1)
      refine ⟨i + 1, ?_, by simpa using h2, ?_⟩
      · rw [h1, Option.some_or]
        congr 1; omega
      · intro j hj
        cases j with
        | zero => omega
        | succ j => have := h3 j (by simpa using hj); omega
    · have hx : x = k := by
        rcases List.mem_cons.mp hk with h | h
        · exact h.symm
        · exact absurd h hm
      have hnone : Dict.get? (l.zipIdx (n + 1)).reverse k = none := by
        rw [Dict.get?_eq_none_iff]
        intro hmem
        apply hm
        unfold Dict.keys at hmem
        rw [List.map_reverse, List.mem_reverse] at hmem
        rwa [List.zipIdx_map_fst] at hmem
      refine ⟨0, ?_, by simp [hx], ?_⟩
      · rw [hnone, Option.none_or]
        simp [Dict.get?, hx]
      · intro j hj
        cases j with
        | zero => omega
        | succ j =>
          exfalso
          apply hm
          rw [List.getElem?_cons_succ] at hj
          exact List.mem_of_getElem? hj

theorem keys_ofPairs_mem {κ ν} [DecidableEq κ] (l : List (κ × ν)) (k : κ) :
    k ∈ Dict.keys (Dict.ofPairs l) ↔ k ∈ l.map Prod.fst := by
  rw [← Dict.get?_isSome_iff, Dict.get?_ofPairs, Dict.get?_isSome_iff]
  unfold Dict.keys
  simp

theorem bestToken_spec (m : LM) (tokens before after : List Str) (h : tokens.any m.contains = true) :
    ∃ (i : Nat) (t : Str), tokens[i]? = some t ∧ m.bestToken tokens before after = .ok (some t) ∧
      ∀ (j : Nat) (u : Str), tokens[j]? = some u → evidence m before after u ≤ evidence m before after t ∧
        (evidence m before after u = evidence m before after t → j ≤ i) := by
  unfold LM.bestToken
  rw [if_pos h, mapM_ok _ (evidence m before after) tokens (fun t _ => logps_eq m before after t)]
  simp only [bind, Except.bind]
  set vs := tokens.map (evidence m before after) with hvs
  have hne : Dict.keys (Dict.ofPairs vs.zipIdx) ≠ [] := by
    obtain ⟨t, ht, _⟩ := List.any_eq_true.mp h
    have hk : evidence m before after t ∈ Dict.keys (Dict.ofPairs vs.zipIdx) := by
      rw [keys_ofPairs_mem, List.zipIdx_map_fst]
      exact List.mem_map.mpr ⟨t, ht, rfl⟩
    exact List.ne_nil_of_mem hk
  obtain ⟨best, h1, h2, h3⟩ := pyMax_spec (id : List (WithBot ℚ) → _) tupleLt (fun a b => tupleLt_iff a b) _ hne
  rw [keys_ofPairs_mem, List.zipIdx_map_fst] at h2
  obtain ⟨i, h4, h5, h6⟩ := get?_zipIdx vs best h2
  rw [h1]
  simp only [Dict.get, h4]
  rw [hvs, List.getElem?_map] at h5
  cases ht : tokens[i]? with
  | none => rw [ht] at h5; simp at h5
  | some t =>
    rw [ht] at h5
    simp only [Option.map_some, Option.some.injEq] at h5
    obtain ⟨hi, hti⟩ := List.getElem?_eq_some_iff.mp ht
    refine ⟨i, t, ht, ?_, ?_⟩
    · rw [index_nat, dif_pos hi, hti]
      rfl
    · intro j u hu
      have hju : vs[j]? = some (evidence m before after u) := by rw [hvs, List.getElem?_map, hu]; rfl
      rw [h5]
      refine ⟨h3 _ ?_, ?_⟩
      · rw [keys_ofPairs_mem, List.zipIdx_map_fst]
        exact List.mem_of_getElem? hju
      · intro e
        exact h6 j (by rw [hju, e])

end Model
