import Verif.Lemmas.Frequency

/-! The answers of a maximum likelihood model in terms of numbers of occurrences. -/

namespace Model
open Py Props

section
variable {α β κ κ' : Type} [LinearOrder κ] [LinearOrder κ']

theorem sortDesc_filterMap (key : α → κ) (key' : β → κ) (g : α → Option β) (l : List α)
    (h : ∀ a ∈ l, ∀ x, g a = some x → key' x = key a) :
    (sortDesc key l).filterMap g = sortDesc key' (l.filterMap g) := by
  have flt : ∀ (l : List α) v, (∀ a ∈ l, ∀ x, g a = some x → key' x = key a) →
      (l.filterMap g).filter (fun x => decide (key' x = v)) = (l.filter fun a => decide (key a = v)).filterMap g := by
    intro l v
    induction l with
    | nil => intro _; rfl
    | cons a l ih =>
      intro h
      have ih := ih fun b hb => h b (List.mem_cons_of_mem _ hb)
      have ha := h a (by simp)
      rw [List.filterMap_cons, List.filter_cons]
      cases hg : g a with
      | none =>
        show (l.filterMap g).filter _ = _
        split
        · rw [List.filterMap_cons, hg]; exact ih
        · exact ih
      | some x =>
        have := ha x hg
        simp only [List.filter_cons, this]
        split
        · rw [List.filterMap_cons, hg]
          simp only [ih]
        · exact ih
  refine sorted_unique key' ?_ (sortDesc_sorted key' _) fun v => ?_
  · rw [List.pairwise_filterMap]
    refine (sortDesc_sorted key l).imp_of_mem fun {a b} ha hb hab x hx y hy => ?_
    rw [h a ((mem_sortDesc key).mp ha) x hx, h b ((mem_sortDesc key).mp hb) y hy]
    exact hab
  · rw [sortDesc_filter, flt l v h, flt _ v fun a ha => h a ((mem_sortDesc key).mp ha), sortDesc_filter]

/-- A list that is already sorted is the only stable way to sort it. -/
theorem stableDesc_sorted {key : α → κ} {l out : List α} (h : Spec.StableDesc key l out)
    (hl : l.Pairwise fun a b => key b ≤ key a) : out = l :=
  sorted_unique key h.sorted hl h.stable

/-- Lexicographic comparison depends only on the comparisons of the items. -/
theorem lexLe_transfer {ι : Type} (f g : ι → κ) (f' g' : ι → κ') : ∀ (l : List ι),
    (∀ i ∈ l, (f i < g i ↔ f' i < g' i) ∧ (g i < f i ↔ g' i < f' i)) →
    (Spec.LexLe (l.map f) (l.map g) → Spec.LexLe (l.map f') (l.map g')) ∧ (l.map f = l.map g ↔ l.map f' = l.map g')
  | [], _ => ⟨fun _ => Or.inl rfl, by simp⟩
  | i :: l, h => by
    obtain ⟨ih1, ih2⟩ := lexLe_transfer f g f' g' l fun j hj => h j (List.mem_cons_of_mem _ hj)
    obtain ⟨h1, h2⟩ := h i (by simp)
    have heq : f i = g i ↔ f' i = g' i := by
      rw [le_antisymm_iff, le_antisymm_iff, ← not_lt, ← not_lt, ← not_lt, ← not_lt, h1, h2]
    refine ⟨?_, ?_⟩
    · rintro (e | ⟨pre, x, y, as, bs, e1, e2, hxy⟩)
      · left
        rw [List.map_cons, List.map_cons, List.cons.injEq] at e
        rw [List.map_cons, List.map_cons, heq.mp e.1, ih2.mp e.2]
      · cases pre with
        | nil =>
          rw [List.map_cons, List.nil_append, List.cons.injEq] at e1 e2
          right
          refine ⟨[], f' i, g' i, l.map f', l.map g', rfl, rfl, h1.mp ?_⟩
          rw [e1.1, e2.1]; exact hxy
        | cons p pre =>
          rw [List.map_cons, List.cons_append, List.cons.injEq] at e1 e2
          have he := heq.mp (e1.1.trans e2.1.symm)
          rcases ih1 (Or.inr ⟨pre, x, y, as, bs, e1.2, e2.2, hxy⟩) with e | ⟨pre', x', y', as', bs', e1', e2', hxy'⟩
          · left; rw [List.map_cons, List.map_cons, he, e]
          · right
            exact ⟨f' i :: pre', x', y', as', bs', by rw [List.map_cons, e1']; rfl, by rw [List.map_cons, e2', he]; rfl, hxy'⟩
    · rw [List.map_cons, List.map_cons, List.cons.injEq, List.map_cons, List.map_cons, List.cons.injEq, heq, ih2]

end

theorem zipIdx_flatMap {β : Type} (mins : List Int) (g : Int × Nat → List β) :
    mins.zipIdx.flatMap g = (List.range mins.length).flatMap fun i => g (mins.getD i 0, i) := by
  rw [List.flatMap_def, List.flatMap_def]
  congr 1
  apply List.ext_getElem
  · simp
  · intro i h1 h2
    have : i < mins.length := by simpa using h2
    simp [this]

theorem filterMap_range_single {β γ : Type} (f : Nat → List β) (p : β → Option γ) (n : Nat)
    (h : ∀ k, k ≠ n → ∀ x ∈ f k, p x = none) (N : Nat) (hN : n < N) :
    ((List.range N).flatMap f).filterMap p = (f n).filterMap p := by
  have h0 : ∀ k, k ≠ n → (f k).filterMap p = [] := fun k hk => List.filterMap_eq_nil_iff.mpr (h k hk)
  have h1 : ∀ M, M ≤ n → ((List.range M).flatMap f).filterMap p = [] := by
    intro M hM
    rw [List.filterMap_eq_nil_iff]
    intro x hx
    obtain ⟨k, hk, hx⟩ := List.mem_flatMap.mp hx
    rw [List.mem_range] at hk
    exact h k (by omega) x hx
  induction N with
  | zero => omega
  | succ N ih =>
    rw [List.range_succ, List.flatMap_append, List.filterMap_append, List.flatMap_singleton]
    by_cases e : n = N
    · subst e
      rw [h1 n le_rfl, List.nil_append]
    · rw [ih (by omega), h0 N fun h => e h.symm, List.append_nil]

/-- A model loaded from the files of maximum likelihood estimation. -/
structure CountedLM (R : Rounding) (log : ℚ → ℚ) (docs : List (List (List Str))) (mins : List Int) (m : LM) : Prop where
  maxOrder : m.maxOrder = mins.length
  details : m.details = mins.zipIdx.flatMap fun x => freqRows R log (Spec.orderTexts (x.2 + 1) docs) x.1
  small : ∀ o, 1 ≤ o → o ≤ mins.length → (Spec.orderTexts o docs).length ≤ 2 ^ 51
  wf : m.details.Wf

theorem orderTexts_words {n : Nat} (hn : 0 < n) {docs : List (List (List Str))} {t : Str} (h : t ∈ Spec.orderTexts n docs) :
    (splitWs t).length = n := by
  obtain ⟨d, -, hd⟩ := List.mem_flatMap.mp h
  exact ngramTexts_words hn hd

theorem orderTexts_join {n : Nat} (hn : 0 < n) {docs : List (List (List Str))} {t : Str} (h : t ∈ Spec.orderTexts n docs) :
    join c!" " (splitWs t) = t := by
  obtain ⟨d, hd, l, hl, w, hw, h1, h2, rfl⟩ := (mem_orderTexts hn).mp h
  rw [tokens_windowText h2, windowText_join]

theorem mem_freqRows {R : Rounding} {log : ℚ → ℚ} {texts : List Str} {least : Int} {r : Str × Details} :
    r ∈ freqRows R log texts least ↔ r.1 ∈ texts ∧ least ≤ (texts.count r.1 : Int) ∧ r = freqRow R log texts r.1 := by
  unfold freqRows
  rw [List.mem_map]
  constructor
  · rintro ⟨t, ht, rfl⟩
    obtain ⟨h1, h2⟩ := mem_enough.mp ((mem_sortDesc _).mp ht)
    exact ⟨h1, h2, rfl⟩
  · rintro ⟨h1, h2, h3⟩
    exact ⟨r.1, (mem_sortDesc _).mpr (mem_enough.mpr ⟨h1, h2⟩), h3.symm⟩

section
variable {R : Rounding} {log : ℚ → ℚ} {docs : List (List (List Str))} {mins : List Int} {m : LM}

theorem CountedLM.rows (H : CountedLM R log docs mins m) : m.details = (List.range mins.length).flatMap fun i =>
    freqRows R log (Spec.orderTexts (i + 1) docs) (mins.getD i 0) := by
  rw [H.details, zipIdx_flatMap]

/-! #### `top_ngrams` -/

theorem stored_le (R : Rounding) {c d n : Nat} (hc : c ≤ n) (hd : d ≤ n) (hn : n ≤ 2 ^ 51) (h : c ≤ d) :
    stored R c n ≤ stored R d n := by
  by_contra hx
  exact absurd ((stored_lt_iff R hd hc hn).mp (not_le.mp hx)) (by omega)

theorem CountedLM.top (H : CountedLM R log docs mins m) {n : Nat} (h1 : 1 ≤ n) (h2 : n ≤ mins.length)
    (limit : Option Int) : m.topNgrams n limit =
      sliceLimit ((sortDesc (fun t => (Spec.orderTexts n docs).count t)
        (Spec.enough (Spec.orderTexts n docs) (mins.getD (n - 1) 0))).map fun t =>
          (t, ((Spec.orderTexts n docs).count t : Int),
            stored R ((Spec.orderTexts n docs).count t) (Spec.orderTexts n docs).length)) limit := by
  unfold LM.topNgrams
  have e : m.details.filter (fun e => decide (((splitWs e.1).length : Int) = (n : Int))) =
      freqRows R log (Spec.orderTexts n docs) (mins.getD (n - 1) 0) := by
    rw [H.rows]
    have := filter_range_single (fun i => freqRows R log (Spec.orderTexts (i + 1) docs) (mins.getD i 0))
      (fun e => decide (((splitWs e.1).length : Int) = (n : Int))) (n - 1)
      (by
        intro r hr
        have := orderTexts_words (Nat.succ_pos _) (mem_freqRows.mp hr).1
        simp only [decide_eq_true_eq]
        omega)
      (by
        intro k hk r hr
        have := orderTexts_words (Nat.succ_pos _) (mem_freqRows.mp hr).1
        simp only [decide_eq_false_iff_not]
        omega) mins.length (by omega)
    simp only [Nat.sub_add_cancel h1] at this
    exact this
  simp only [e]
  congr 1
  unfold freqRows
  rw [List.map_map]
  refine sortDesc_of_sorted _ ?_
  rw [List.pairwise_map]
  refine (sortDesc_sorted _ _).imp fun {a b} hab => ?_
  exact stored_le R List.count_le_length List.count_le_length (H.small n h1 h2) hab

theorem CountedLM.top_none (H : CountedLM R log docs mins m) {n : Int} (h : n < 1 ∨ (mins.length : Int) < n)
    (limit : Option Int) : m.topNgrams n limit = [] := by
  unfold LM.topNgrams
  have e : m.details.filter (fun e => decide (((splitWs e.1).length : Int) = n)) = [] := by
    rw [List.filter_eq_nil_iff]
    intro r hr
    rw [H.rows] at hr
    obtain ⟨i, hi, hr⟩ := List.mem_flatMap.mp hr
    rw [List.mem_range] at hi
    have := orderTexts_words (Nat.succ_pos _) (mem_freqRows.mp hr).1
    simp only [decide_eq_true_eq]
    omega
  simp only [e, List.map_nil]
  show sliceLimit [] limit = []
  cases limit with
  | none => rfl
  | some k => 
    have := cut_sliceLimit ([] : List (Str × Int × ℚ)) (some k)
    rcases this with h | h <;> simpa using h.2

/-! #### `next_word` -/

/-- The word after a context in an n-gram. -/
def nextIn (ws : List Str) (t : Str) : Option Str :=
  match (splitWs t).getLast? with
  | some last => if splitWs t = ws ++ [last] ∧ ws ≠ [] then some last else none
  | none => none

theorem nextIn_some {ws : List Str} {t x : Str} : nextIn ws t = some x ↔ splitWs t = ws ++ [x] ∧ ws ≠ [] := by
  unfold nextIn
  constructor
  · intro h
    split at h
    · rename_i last hl
      split at h
      · rename_i hs
        rw [Option.some.injEq] at h
        subst h
        exact hs
      · cases h
    · cases h
  · rintro ⟨h1, h2⟩
    have : (splitWs t).getLast? = some x := by rw [h1]; simp
    rw [this]
    simp [h1, h2]

theorem followers_eq (ws : List Str) (hw : ws ≠ []) (docs : List (List (List Str))) :
    Spec.followers ws docs = (Spec.orderTexts (ws.length + 1) docs).filterMap (nextIn ws) := by
  unfold Spec.followers Spec.orderTexts Spec.ngramTexts
  rw [List.filterMap_flatMap]
  congr 1
  funext sents
  rw [List.filterMap_flatMap]
  congr 1
  funext l
  have hlen : ∀ w ∈ Spec.windows (ws.length + 1) l, w.length = ws.length + 1 := fun w hw =>
    ((mem_windows (Nat.succ_pos _)).mp hw).1
  revert hlen
  generalize Spec.windows (ws.length + 1) l = W
  intro hlen
  induction W with
  | nil => rfl
  | cons w W ih =>
    have ih := ih fun v hv => hlen v (List.mem_cons_of_mem _ hv)
    have hwl := hlen w (by simp)
    rw [List.filter_cons, List.filter_cons]
    by_cases hp : ∀ t ∈ w, Spec.PlainWord t
    · have hp' : decide (∀ t ∈ w, Spec.PlainWord t) = true := by simpa using hp
      rw [if_pos hp', List.map_cons, List.filterMap_cons]
      have hne : w ≠ [] := by
        rintro rfl
        simp at hwl
      obtain ⟨v, x, rfl⟩ : ∃ v x, w = v ++ [x] := ⟨w.dropLast, w.getLast hne, (List.dropLast_append_getLast hne).symm⟩
      have ht : splitWs (Spec.windowText (v ++ [x])) = v.map lowerWord ++ [lowerWord x] := by
        rw [tokens_windowText hp, List.map_append]; rfl
      by_cases hc : v.map lowerWord = ws
      · have hn : nextIn ws (Spec.windowText (v ++ [x])) = some (lowerWord x) :=
          nextIn_some.mpr ⟨by rw [ht, hc], hw⟩
        have hc' : (v ++ [x]).dropLast.map (List.map Char.toLower) = ws := by
          rw [List.dropLast_concat]; exact hc
        rw [if_pos (by simpa using ⟨by simpa using hp, by simpa using hc'⟩), List.map_cons, hn]
        simp only [ih]
        congr 1
        simp [lowerWord]
      · have hn : nextIn ws (Spec.windowText (v ++ [x])) = none := by
          rw [Option.eq_none_iff_forall_ne_some]
          intro y hy
          have := (nextIn_some.mp hy).1
          rw [ht] at this
          exact hc (List.append_inj_left' this rfl)
        have hc' : ¬ (v ++ [x]).dropLast.map (List.map Char.toLower) = ws := by
          rw [List.dropLast_concat]; exact hc
        rw [if_neg, hn]
        · exact ih
        · intro h
          exact hc' (of_decide_eq_true h).2
    · rw [if_neg, if_neg (by simpa using hp : ¬ decide (∀ t ∈ w, Spec.PlainWord t) = true)]
      · exact ih
      · intro h
        exact hp (of_decide_eq_true h).1

theorem nextIn_inj {ws : List Str} {n : Nat} (hn : 0 < n) {docs : List (List (List Str))} {a b x : Str}
    (ha : a ∈ Spec.orderTexts n docs) (hb : b ∈ Spec.orderTexts n docs) (h1 : nextIn ws a = some x)
    (h2 : nextIn ws b = some x) : a = b := by
  rw [← orderTexts_join hn ha, ← orderTexts_join hn hb, (nextIn_some.mp h1).1, (nextIn_some.mp h2).1]

/-- Occurrences of the n-gram and of the word after the context. -/
theorem followers_count {ws : List Str} (hw : ws ≠ []) {docs : List (List (List Str))} {a x : Str}
    (ha : a ∈ Spec.orderTexts (ws.length + 1) docs) (h : nextIn ws a = some x) :
    (Spec.followers ws docs).count x = (Spec.orderTexts (ws.length + 1) docs).count a := by
  rw [followers_eq ws hw]
  exact count_filterMap (nextIn ws) _ h fun b hb hbx => nextIn_inj (Nat.succ_pos _) hb ha hbx h

theorem enough_followers {ws : List Str} (hw : ws ≠ []) (docs : List (List (List Str))) (least : Int) :
    Spec.enough (Spec.followers ws docs) least =
      (Spec.enough (Spec.orderTexts (ws.length + 1) docs) least).filterMap (nextIn ws) := by
  unfold Spec.enough
  have e : Spec.distinctInOrder (Spec.followers ws docs) =
      (Spec.distinctInOrder (Spec.orderTexts (ws.length + 1) docs)).filterMap (nextIn ws) := by
    rw [followers_eq ws hw]
    exact distinctInOrder_filterMap _ _ fun a ha b hb x => nextIn_inj (Nat.succ_pos _) ha hb
  rw [e]
  have hsub : ∀ t ∈ Spec.distinctInOrder (Spec.orderTexts (ws.length + 1) docs),
      t ∈ Spec.orderTexts (ws.length + 1) docs := fun t => mem_distinctInOrder.mp
  revert hsub
  generalize Spec.distinctInOrder (Spec.orderTexts (ws.length + 1) docs) = D
  intro hsub
  induction D with
  | nil => rfl
  | cons a D ih =>
    have ih := ih fun t ht => hsub t (List.mem_cons_of_mem _ ht)
    rw [List.filterMap_cons, List.filter_cons]
    cases hg : nextIn ws a with
    | none =>
      show (D.filterMap (nextIn ws)).filter _ = _
      split
      · rw [List.filterMap_cons, hg]; exact ih
      · exact ih
    | some x =>
      simp only [List.filter_cons, followers_count hw (hsub a (by simp)) hg]
      split
      · rw [List.filterMap_cons, hg]
        simp only [ih]
      · exact ih

theorem CountedLM.conts (H : CountedLM R log docs mins m) {ws : List Str} (hw : ws ≠ []) (hl : ws.length < mins.length) :
    contsOf m.details ws =
      (sortDesc (fun w => (Spec.followers ws docs).count w)
        (Spec.enough (Spec.followers ws docs) (mins.getD ws.length 0))).map fun w =>
          (w, stored R ((Spec.followers ws docs).count w) (Spec.orderTexts (ws.length + 1) docs).length) := by
  have e0 : contsOf m.details ws = m.details.filterMap fun e => (nextIn ws e.1).map fun w => (w, e.2.2.1) := by
    unfold contsOf
    refine List.filterMap_congr fun e _ => ?_
    unfold nextIn
    cases (splitWs e.1).getLast? with
    | none => rfl
    | some last =>
      simp only
      split <;> rfl
  rw [e0, H.rows, filterMap_range_single _ _ ws.length _ _ hl]
  · unfold freqRows
    rw [List.filterMap_map]
    set T := Spec.orderTexts (ws.length + 1) docs with hT
    have e1 : (sortDesc (fun t => T.count t) (Spec.enough T (mins.getD ws.length 0))).filterMap
        ((fun e : Str × Details => (nextIn ws e.1).map fun w => (w, e.2.2.1)) ∘ freqRow R log T) =
        ((sortDesc (fun t => T.count t) (Spec.enough T (mins.getD ws.length 0))).filterMap (nextIn ws)).map fun w =>
          (w, stored R ((Spec.followers ws docs).count w) T.length) := by
      rw [List.map_filterMap]
      refine List.filterMap_congr fun t ht => ?_
      have htT := (mem_enough.mp ((mem_sortDesc _).mp ht)).1
      show (nextIn ws t).map _ = (nextIn ws t).map _
      cases hg : nextIn ws t with
      | none => rfl
      | some x =>
        simp only [Option.map_some, freqRow]
        rw [followers_count hw htT hg]
    rw [e1, sortDesc_filterMap (fun t => T.count t) (fun w => (Spec.followers ws docs).count w) (nextIn ws) _
      fun a ha x hx => followers_count hw (mem_enough.mp ha).1 hx, enough_followers hw]
  · intro k hk r hr
    have h1 := orderTexts_words (Nat.succ_pos _) (mem_freqRows.mp hr).1
    have : nextIn ws r.1 = none := by
      rw [Option.eq_none_iff_forall_ne_some]
      intro y hy
      have := congrArg List.length (nextIn_some.mp hy).1
      rw [h1, List.length_append, List.length_singleton] at this
      omega
    rw [this]
    rfl

theorem followers_count_le {ws : List Str} (hw : ws ≠ []) (docs : List (List (List Str))) (w : Str) :
    (Spec.followers ws docs).count w ≤ (Spec.orderTexts (ws.length + 1) docs).length := by
  refine List.count_le_length.trans ?_
  rw [followers_eq ws hw]
  exact List.length_filterMap_le _ _

theorem CountedLM.conts_sorted (H : CountedLM R log docs mins m) {ws : List Str} (hw : ws ≠ [])
    (hl : ws.length < mins.length) : (contsOf m.details ws).Pairwise fun a b => b.2 ≤ a.2 := by
  rw [H.conts hw hl, List.pairwise_map]
  refine (sortDesc_sorted _ _).imp fun {a b} hab => ?_
  exact stored_le R (followers_count_le hw docs _) (followers_count_le hw docs _) (H.small _ (Nat.succ_pos _) hl) hab

/-! #### Comparing -/

/-- The log-probability of an n-gram with `c` of the `n` occurrences of its order. -/
def freqLog (R : Rounding) (log : ℚ → ℚ) (n c : Nat) : WithBot ℚ := if c = 0 then ⊥ else (log (stored R c n) : WithBot ℚ)

theorem stored_zero (R : Rounding) (n : Nat) : stored R 0 n = 0 := by
  unfold stored
  have : round17 (((0 : Nat) : ℚ) / n) = 0 := by
    rw [Nat.cast_zero, zero_div]
    unfold round17
    have : roundHalfEven ((0 : ℚ) * 10 ^ 17) = 0 := by rw [zero_mul]; decide +kernel
    rw [this]
    simp
  rw [this]
  exact_mod_cast R.nat 0 (by positivity)

theorem freqLog_lt_iff (hlog : ∀ p q, 0 < p → p < q → log p < log q) {c d n : Nat} (hc : c ≤ n) (hd : d ≤ n)
    (hn : n ≤ 2 ^ 51) : freqLog R log n c < freqLog R log n d ↔ c < d := by
  have hpos : ∀ c, c ≠ 0 → c ≤ n → 0 < stored R c n := by
    intro c h0 h1
    rw [← stored_zero R n]
    exact stored_lt R (by omega) h1 hn
  have key : ∀ {c d : Nat}, c < d → d ≤ n → freqLog R log n c < freqLog R log n d := by
    intro c d hcd hd
    unfold freqLog
    rw [if_neg (by omega : d ≠ 0)]
    split
    · exact WithBot.bot_lt_coe _
    · rename_i h0
      rw [WithBot.coe_lt_coe]
      exact hlog _ _ (hpos c h0 (by omega)) (stored_lt R hcd hd hn)
  refine ⟨fun h => ?_, fun h => key h hd⟩
  by_contra hx
  rcases Nat.lt_or_eq_of_le (Nat.not_lt.mp hx) with h1 | h1
  · exact lt_asymm h (key h1 hc)
  · rw [h1] at h; exact lt_irrefl _ h

theorem seen_le (n : Nat) (least : Int) (docs : List (List (List Str))) (t : Str) :
    Spec.seen n least docs t ≤ (Spec.orderTexts n docs).length := by
  unfold Spec.seen
  split
  · exact List.count_le_length
  · omega

theorem CountedLM.get? (H : CountedLM R log docs mins m) {n : Nat} (h1 : 1 ≤ n) (h2 : n ≤ mins.length) {g : Str}
    (hg : (splitWs g).length = n) (v : Details) : Dict.get? m.details g = some v ↔
      g ∈ Spec.orderTexts n docs ∧ mins.getD (n - 1) 0 ≤ ((Spec.orderTexts n docs).count g : Int) ∧
        (g, v) = freqRow R log (Spec.orderTexts n docs) g := by
  rw [← Dict.mem_iff_get? H.wf, H.rows, List.mem_flatMap]
  constructor
  · rintro ⟨i, hi, hr⟩
    obtain ⟨a1, a2, a3⟩ := mem_freqRows.mp hr
    have := orderTexts_words (Nat.succ_pos _) a1
    have e : i = n - 1 := by simp only at this; omega
    subst e
    simp only [Nat.sub_add_cancel h1] at a1 a2 a3
    exact ⟨a1, a2, a3⟩
  · rintro ⟨a1, a2, a3⟩
    refine ⟨n - 1, List.mem_range.mpr (by omega), mem_freqRows.mpr ?_⟩
    simp only [Nat.sub_add_cancel h1]
    exact ⟨a1, a2, a3⟩

theorem CountedLM.contains (H : CountedLM R log docs mins m) {n : Nat} (h1 : 1 ≤ n) (h2 : n ≤ mins.length) {g : Str}
    (hg : (splitWs g).length = n) : m.contains g = true ↔ 0 < Spec.seen n (mins.getD (n - 1) 0) docs g := by
  unfold LM.contains
  rw [Dict.has_iff, ← Dict.get?_isSome_iff, Option.isSome_iff_exists]
  unfold Spec.seen
  constructor
  · rintro ⟨v, hv⟩
    obtain ⟨a1, a2, -⟩ := (H.get? h1 h2 hg v).mp hv
    rw [if_pos a2]
    exact List.count_pos_iff.mpr a1
  · intro h
    split at h
    · rename_i hle
      exact ⟨_, (H.get? h1 h2 hg _).mpr ⟨List.count_pos_iff.mp h, hle, rfl⟩⟩
    · omega

theorem CountedLM.logp (H : CountedLM R log docs mins m) {n : Nat} (h1 : 1 ≤ n) (h2 : n ≤ mins.length) {g : Str}
    (hg : (splitWs g).length = n) : m.logp g =
      freqLog R log (Spec.orderTexts n docs).length (Spec.seen n (mins.getD (n - 1) 0) docs g) := by
  cases hc : Dict.get? m.details g with
  | none =>
    have : ¬ m.contains g = true := by
      unfold LM.contains
      rw [Dict.has_iff, ← Dict.get?_isSome_iff, hc]
      simp
    rw [H.contains h1 h2 hg] at this
    unfold LM.logp LM.detailsOf freqLog
    rw [hc, if_pos (by omega)]
    rfl
  | some v =>
    obtain ⟨a1, a2, a3⟩ := (H.get? h1 h2 hg v).mp hc
    have a3 := (Prod.mk.inj a3).2
    unfold LM.logp LM.detailsOf freqLog Spec.seen
    have : (Spec.orderTexts n docs).count g ≠ 0 := by
      have := List.count_pos_iff.mpr a1
      omega
    rw [hc, if_pos a2, if_neg this, Option.getD_some, a3]

theorem best_freqLog (hlog : ∀ p q, 0 < p → p < q → log p < log q) {n : Nat} (hn : n ≤ 2 ^ 51) : ∀ (l : List Nat),
    (∀ c ∈ l, c ≤ n) → Spec.best (l.map (freqLog R log n)) = freqLog R log n (l.foldr max 0) ∧ l.foldr max 0 ≤ n
  | [], _ => ⟨by simp [Spec.best, freqLog], by simp⟩
  | c :: l, h => by
    obtain ⟨ih1, ih2⟩ := best_freqLog hlog hn l fun d hd => h d (List.mem_cons_of_mem _ hd)
    have hc := h c (by simp)
    refine ⟨?_, by simp only [List.foldr_cons]; exact max_le hc ih2⟩
    show max (freqLog R log n c) (Spec.best (l.map (freqLog R log n))) = _
    rw [ih1, List.foldr_cons]
    rcases lt_or_ge c (l.foldr max 0) with hlt | hge
    · rw [max_eq_right hlt.le, max_eq_right ((freqLog_lt_iff hlog hc ih2 hn).mpr hlt).le]
    · rw [max_eq_left hge, max_eq_left]
      by_contra hx
      exact absurd ((freqLog_lt_iff hlog hc ih2 hn).mp (not_le.mp hx)) (by omega)

/-- Either a long enough left context or none. -/
theorem CountedLM.candidates {before after : List Str} {t : Str} {N n : Nat} (hn : 2 ≤ n) (hN : n ≤ N)
    (hb : N - 1 ≤ before.length ∨ before = []) : candidateList before after t n =
      (Spec.windowsAround n (before ++ [t] ++ after) before.length).map (List.intercalate c!" ") := by
  unfold candidateList
  rw [C33_candidates_partial before after t n hn (by
    rcases hb with h | h
    · left; omega
    · right; rw [h]; simp)]

theorem windowsAround_words {n : Nat} {words : List Str} (hw : ∀ w ∈ words, NoBlank w) {i : Nat} {v : List Str}
    (hv : v ∈ Spec.windowsAround n words i) : (splitWs (List.intercalate c!" " v)).length = n := by
  unfold Spec.windowsAround at hv
  obtain ⟨k, hk, rfl⟩ := List.mem_map.mp hv
  have hk := List.mem_range.mp (List.mem_filter.mp hk).1
  rw [← join_eq_intercalate, splitWs_join]
  · rw [List.length_take, List.length_drop]; omega
  · intro w hwm
    exact hw w (List.mem_of_mem_drop (List.mem_of_mem_take hwm))

end

end Model
