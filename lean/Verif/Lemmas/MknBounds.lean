import Verif.Lemmas.MknCalc
import Mathlib.Algebra.BigOperators.Group.List.Lemmas

namespace Model
open Py

/-! ### Stores made by the builder -/

theorem builder_store {T} {sentencize : T → Except PyErr (List (List Str))} {N p fuel : Nat} (hp : 1 ≤ p)
    {iter : List T} (hf : iter.length / p < fuel) {s : Store}
    (h : readTexts sentencize N p fuel iter [] = .ok (some s)) :
    ∃ docs, s = storeOf (Spec.corpusTexts N docs) := by
  have e := readTexts_eq sentencize N p hp fuel iter [] hf
  rw [show storeOf [] = [] from rfl, h] at e
  cases hm : iter.mapM sentencize with
  | error err => rw [hm] at e; simp [Except.map] at e
  | ok docs =>
    rw [hm] at e
    simp only [Except.map, Except.ok.injEq, Option.some.injEq, List.nil_append] at e
    exact ⟨docs, e⟩

theorem values_storeOf (texts : List Str) : Dict.values (storeOf texts) =
    (Spec.distinctInOrder texts).map fun t => { text := t, count := texts.count t } := by
  unfold Dict.values storeOf
  rw [List.map_map]
  rfl

theorem storeOf_gramsOk (N : Nat) (docs : List (List (List Str))) :
    GramsOk (Dict.values (storeOf (Spec.corpusTexts N docs))) N := by
  have hmem : ∀ g, g ∈ Dict.values (storeOf (Spec.corpusTexts N docs)) ↔ ∃ t ∈ Spec.corpusTexts N docs,
      g = { text := t, count := (Spec.corpusTexts N docs).count t } := by
    intro g
    rw [values_storeOf, List.mem_map]
    constructor
    · rintro ⟨t, ht, rfl⟩; exact ⟨t, mem_distinctInOrder.mp ht, rfl⟩
    · rintro ⟨t, ht, rfl⟩; exact ⟨t, mem_distinctInOrder.mpr ht, rfl⟩
  have hdesc : ∀ g ∈ Dict.values (storeOf (Spec.corpusTexts N docs)), ∃ w : List Str, 1 ≤ w.length ∧ w.length ≤ N ∧
      (∀ t ∈ w.map lowerWord, Alphabetic t) ∧ g.tokens = w.map lowerWord ∧ g.text = Spec.windowText w ∧
      Spec.windowText w ∈ Spec.corpusTexts N docs ∧ g.count = (Spec.corpusTexts N docs).count (Spec.windowText w) := by
    intro g hg
    obtain ⟨t, ht, rfl⟩ := (hmem g).mp hg
    obtain ⟨d, hd, l, hl, w, h0, hN, hwl, hplain, rfl⟩ := mem_corpusTexts.mp ht
    exact ⟨w, h0, hN, alphabetic_of_plain hplain, tokens_windowText hplain, rfl, ht, rfl⟩
  refine ⟨?_, ?_, ?_, ?_, ?_, ?_⟩
  · rw [values_storeOf, List.map_map]
    have : (Ngram.text ∘ fun t => ({ text := t, count := (Spec.corpusTexts N docs).count t } : Ngram)) = id := rfl
    rw [this, List.map_id]
    exact nodup_distinctInOrder _
  · intro g hg
    obtain ⟨w, _, _, _, h1, h2, _⟩ := hdesc g hg
    rw [h1, h2, windowText_join]
  · intro g hg
    obtain ⟨w, _, _, h0, h1, _⟩ := hdesc g hg
    rw [h1]
    exact h0
  · intro g hg
    obtain ⟨w, ha, hb, _, h1, _⟩ := hdesc g hg
    unfold Ngram.order
    rw [h1, List.length_map]
    exact ⟨ha, hb⟩
  · intro g hg
    obtain ⟨w, _, _, _, _, _, h1, h2⟩ := hdesc g hg
    rw [h2]
    exact List.count_pos_iff.mpr h1
  · intro g hg part hpart hne
    obtain ⟨w, ha, hb, h0, h1, h2, h3, h4⟩ := hdesc g hg
    rw [h1] at hpart
    obtain ⟨pre, post, hpp⟩ := hpart
    have hall : ∀ t ∈ pre ++ part ++ post, Alphabetic t := by rw [hpp]; exact h0
    have hle := count_corpus_le (N := N) docs hall hne (by rw [hpp, List.length_map]; exact hb)
    rw [hpp, ← windowText_join] at hle
    refine ⟨{ text := join c!" " part, count := (Spec.corpusTexts N docs).count (join c!" " part) },
      (hmem _).mpr ⟨_, ?_, rfl⟩, ?_, ?_⟩
    · rw [← List.count_pos_iff]
      exact Nat.lt_of_lt_of_le (List.count_pos_iff.mpr h3) hle
    · exact splitWs_join_alphabetic fun t ht => hall t (by simp [ht])
    · rw [h4]; exact hle

/-! ### Discounts -/

theorem discount_bounds {V : Spec.Vocab} {n : Nat} (h1 : V.nCount n 1 ≠ 0) (h2 : V.nCount n 2 ≠ 0)
    (h3 : V.nCount n 3 ≠ 0) (h4 : V.nCount n 4 ≠ 0) :
    (0 < V.D1 n ∧ V.D1 n < 1) ∧ V.D2 n < 2 ∧ V.D3 n < 3 := by
  unfold Spec.Vocab.D1 Spec.Vocab.D2 Spec.Vocab.D3 Spec.Vocab.Y
  have a : (0 : ℚ) < V.nCount n 1 := by exact_mod_cast Nat.pos_of_ne_zero h1
  have b : (0 : ℚ) < V.nCount n 2 := by exact_mod_cast Nat.pos_of_ne_zero h2
  have c : (0 : ℚ) < V.nCount n 3 := by exact_mod_cast Nat.pos_of_ne_zero h3
  have d : (0 : ℚ) < V.nCount n 4 := by exact_mod_cast Nat.pos_of_ne_zero h4
  generalize (V.nCount n 1 : ℚ) = x at *
  generalize (V.nCount n 2 : ℚ) = y at *
  generalize (V.nCount n 3 : ℚ) = z at *
  generalize (V.nCount n 4 : ℚ) = t at *
  have e : 1 - 2 * (x / (x + 2 * y)) * y / x = x / (x + 2 * y) := by
    field_simp
    ring
  rw [e]
  refine ⟨⟨by positivity, ?_⟩, ?_, ?_⟩
  · rw [div_lt_one (by positivity)]
    linarith
  · have : 0 < 3 * (x / (x + 2 * y)) * z / y := by positivity
    linarith
  · have : 0 < 4 * (x / (x + 2 * y)) * t / z := by positivity
    linarith

theorem rich_iff {V : Spec.Vocab} {N : Nat} (h : ¬ V.Poor N) {o : Nat} (h1 : 2 ≤ o) (h2 : o ≤ N) :
    V.nCount o 1 ≠ 0 ∧ V.nCount o 2 ≠ 0 ∧ V.nCount o 3 ≠ 0 ∧ V.nCount o 4 ≠ 0 := by
  rw [poor_iff] at h
  push Not at h
  exact h o ((mem_ordersFrom2 _ _).mpr ⟨h1, h2⟩)

/-! ### Unigrams -/

theorem sum_before (U : List Ngram) (hU : (U.map Ngram.tokens).Nodup) : ∀ (L : Spec.Vocab),
    (∀ e ∈ L, e.1.length = 2 → ∃ u ∈ U, u.tokens = e.1.drop 1) → (∀ u ∈ U, u.tokens.length = 1) →
    (U.map fun u => Spec.Vocab.before L u.tokens).sum = L.types 2
  | [], _, _ => by
    simp [Spec.Vocab.before, Spec.Vocab.types]
  | e :: L, h, h1 => by
    have ih := sum_before U hU L (fun e' he' => h e' (by simp [he'])) h1
    have hb : ∀ u ∈ U, Spec.Vocab.before (e :: L) u.tokens =
        Spec.Vocab.before L u.tokens + if (e.1.length = 2 ∧ e.1.drop 1 = u.tokens) then 1 else 0 := by
      intro u hu
      unfold Spec.Vocab.before
      rw [List.countP_cons, h1 u hu]
      congr 1
      by_cases hx : e.1.length = 2 ∧ e.1.drop 1 = u.tokens
      · rw [if_pos hx, if_pos]
        exact decide_eq_true hx
      · rw [if_neg hx, if_neg]
        intro hy
        exact hx (of_decide_eq_true hy)
    rw [List.map_congr_left hb]
    have hsum : ∀ (W : List Ngram) (f g : Ngram → Nat), (W.map fun u => f u + g u).sum = (W.map f).sum + (W.map g).sum := by
      intro W f g
      induction W with
      | nil => rfl
      | cons w W ihW => simp only [List.map_cons, List.sum_cons, ihW]; omega
    rw [hsum, ih]
    unfold Spec.Vocab.types
    rw [List.countP_cons]
    congr 1
    by_cases hl : e.1.length = 2
    · rw [if_pos (by simpa using hl)]
      obtain ⟨u, hu, hue⟩ := h e (by simp) hl
      simp only [hl, true_and]
      have : ∀ (W : List Ngram), (W.map fun u => if e.1.drop 1 = u.tokens then 1 else 0).sum =
          (W.map Ngram.tokens).count (e.1.drop 1) := by
        intro W
        induction W with
        | nil => rfl
        | cons w W ihW =>
          rw [List.map_cons, List.sum_cons, ihW, List.map_cons, List.count_cons]
          by_cases hw : e.1.drop 1 = w.tokens
          · simp [hw]; omega
          · have : ¬ w.tokens = e.1.drop 1 := fun x => hw x.symm
            rw [if_neg hw, if_neg (by simpa using fun x : w.tokens = e.1.tail => this (by simpa using x))]
            omega
      rw [this]
      exact List.count_eq_one_of_mem hU (List.mem_map.mpr ⟨u, hu, hue⟩)
    · rw [if_neg (by simpa using hl)]
      simp [hl]

/-! ### Bigrams -/

/-- Entries of the vocabulary extending a context by one word. -/
def ext (V : Spec.Vocab) (ctx : List Str) : Spec.Vocab :=
  V.filter fun e => decide (e.1.length = ctx.length + 1 ∧ e.1.take ctx.length = ctx)

theorem backoff_eq (V : Spec.Vocab) (n : Nat) (ctx : List Str) (h : ∀ e ∈ V, 1 ≤ e.2) :
    V.backoff n ctx = ((ext V ctx).map fun e => V.D n e.2).sum := by
  have key : ∀ (W : Spec.Vocab), (∀ e ∈ W, 1 ≤ e.2) → ((ext W ctx).map fun e => V.D n e.2).sum =
      Spec.Vocab.after W ctx (· == 1) * V.D1 n + Spec.Vocab.after W ctx (· == 2) * V.D2 n +
        Spec.Vocab.after W ctx (fun c => c ≠ 1 ∧ c ≠ 2) * V.D3 n := by
    intro W hW
    induction W with
    | nil => simp [ext, Spec.Vocab.after]
    | cons e W ih =>
      have ih := ih fun e' he' => hW e' (by simp [he'])
      have he := hW e (by simp)
      unfold Spec.Vocab.after at ih ⊢
      unfold ext at ih ⊢
      rw [List.filter_cons]
      simp only [List.countP_cons]
      by_cases hx : e.1.length = ctx.length + 1 ∧ e.1.take ctx.length = ctx
      · rw [if_pos (decide_eq_true hx), List.map_cons, List.sum_cons, ih]
        obtain ⟨hx1, hx2⟩ := hx
        rcases hc : e.2 with _ | _ | _ | c
        · omega
        · simp [hx1, hx2, Spec.Vocab.D]; ring
        · simp [hx1, hx2, Spec.Vocab.D]; ring
        · simp [hx1, hx2, Spec.Vocab.D]; ring
      · have hx' : ¬ (decide (e.1.length = ctx.length + 1 ∧ e.1.take ctx.length = ctx) = true) := by simpa using hx
        rw [if_neg hx', ih]
        have : ∀ P : Prop, ¬ (e.1.length = ctx.length + 1 ∧ e.1.take ctx.length = ctx ∧ P) := by
          rintro P ⟨a, b, _⟩; exact hx ⟨a, b⟩
        simp only [this, decide_false, Bool.false_eq_true, if_false, Nat.add_zero]
  exact (key V h).symm

/-- A text that extends a context by one word. -/
def extends1 (ctx : List Str) (t : Str) : Bool :=
  decide ((splitWs t).length = ctx.length + 1 ∧ (splitWs t).take ctx.length = ctx)

theorem countP_sentence_le (l : List Str) {ctx : List Str} (hall : ∀ t ∈ ctx, Alphabetic t) (hctx : ctx ≠ []) :
    (((Spec.windows (ctx.length + 1) l).filter fun w => ∀ t ∈ w, Spec.PlainWord t).map
        Spec.windowText).countP (extends1 ctx) ≤
    (((Spec.windows ctx.length l).filter fun w => ∀ t ∈ w, Spec.PlainWord t).map
        Spec.windowText).count (join c!" " ctx) := by
  rw [List.count, List.countP_map, List.countP_map, List.countP_filter, List.countP_filter]
  unfold Spec.windows
  rw [List.countP_map, List.countP_map]
  have hp : 0 < ctx.length := List.length_pos_iff.mpr hctx
  apply countP_range_le (a := 0)
  intro k hk
  simp only [Function.comp, Bool.and_eq_true, beq_iff_eq, decide_eq_true_eq, extends1]
  rintro ⟨⟨h1, h3⟩, h2⟩
  refine ⟨by omega, ?_⟩
  rw [tokens_windowText h2] at h1 h3
  have hsub : (l.drop (k + 0)).take ctx.length = ((l.drop k).take (ctx.length + 1)).take ctx.length := by
    rw [List.take_take]
    congr 1
    omega
  constructor
  · rw [windowText_join, hsub, List.map_take, h3]
  · intro t ht
    rw [hsub] at ht
    exact h2 t (List.mem_of_mem_take ht)

theorem countP_ngramTexts_le (sents : List (List Str)) {ctx : List Str} (hall : ∀ t ∈ ctx, Alphabetic t)
    (hctx : ctx ≠ []) : (Spec.ngramTexts (ctx.length + 1) sents).countP (extends1 ctx) ≤
    (Spec.ngramTexts ctx.length sents).count (join c!" " ctx) := by
  unfold Spec.ngramTexts
  induction sents with
  | nil => simp
  | cons l sents ih =>
    rw [List.flatMap_cons, List.flatMap_cons, List.countP_append, List.count_append]
    exact Nat.add_le_add (countP_sentence_le l hall hctx) ih

theorem countP_ngramTexts_ne (sents : List (List Str)) {ctx : List Str} {n : Nat}
    (hn : 0 < n) (h : n ≠ ctx.length + 1) : (Spec.ngramTexts n sents).countP (extends1 ctx) = 0 := by
  rw [List.countP_eq_zero]
  intro t ht
  rw [mem_ngramTexts hn] at ht
  obtain ⟨l, _, w, h1, _, h3, rfl⟩ := ht
  simp only [extends1, tokens_windowText h3, decide_eq_true_eq, List.length_map]
  omega

theorem countP_flatMap_range (N : Nat) (f : Nat → List Str) (p : Str → Bool) (m : Nat) (hm : m < N)
    (h : ∀ n, n ≠ m → (f n).countP p = 0) : ((List.range N).flatMap f).countP p = (f m).countP p := by
  induction N with
  | zero => omega
  | succ N ih =>
    rw [List.range_succ, List.flatMap_append, List.countP_append, List.flatMap_singleton]
    by_cases e : m = N
    · subst e
      have : ((List.range m).flatMap f).countP p = 0 := by
        rw [List.countP_eq_zero]
        intro t ht
        obtain ⟨n, hn, ht⟩ := List.mem_flatMap.mp ht
        rw [List.mem_range] at hn
        exact List.countP_eq_zero.mp (h n (by omega)) t ht
      rw [this, Nat.zero_add]
    · rw [ih (by omega), h N (Ne.symm e), Nat.add_zero]

theorem countP_corpus_le {N : Nat} (docs : List (List (List Str))) {ctx : List Str} (hall : ∀ t ∈ ctx, Alphabetic t)
    (hctx : ctx ≠ []) (hN : ctx.length + 1 ≤ N) :
    (Spec.corpusTexts N docs).countP (extends1 ctx) ≤ (Spec.corpusTexts N docs).count (join c!" " ctx) := by
  have hp : 0 < ctx.length := List.length_pos_iff.mpr hctx
  rw [count_corpusTexts docs hall hp (by omega)]
  unfold Spec.corpusTexts
  induction docs with
  | nil => simp
  | cons d docs ih =>
    rw [List.flatMap_cons, List.countP_append, List.map_cons, List.sum_cons,
      countP_flatMap_range N _ _ ctx.length (by omega)
        (fun n hn => countP_ngramTexts_ne d (Nat.succ_pos n) (by omega))]
    exact Nat.add_le_add (countP_ngramTexts_le d hall hctx) ih

theorem sum_ext_le (N : Nat) (docs : List (List (List Str))) {ctx : List Str} (hall : ∀ t ∈ ctx, Alphabetic t)
    (hctx : ctx ≠ []) (hN : ctx.length + 1 ≤ N) :
    ((ext (vocab (Dict.values (storeOf (Spec.corpusTexts N docs)))) ctx).map Prod.snd).sum ≤
      (Spec.corpusTexts N docs).count (join c!" " ctx) := by
  refine le_trans (Nat.le_of_eq ?_) (countP_corpus_le docs hall hctx hN)
  generalize Spec.corpusTexts N docs = C
  rw [values_storeOf]
  unfold ext vocab
  rw [List.map_map, List.filter_map, List.map_map, ← List.countP_reverse,
    ← List.sum_map_count_dedup_filter_eq_countP (extends1 ctx) C.reverse]
  unfold Spec.distinctInOrder
  rw [List.filter_reverse, List.map_reverse, List.sum_reverse]
  congr 1
  apply List.map_congr_left
  intro t _
  simp only [Function.comp, List.count_reverse]
  congr!

theorem vocab_count_storeOf {N : Nat} {docs : List (List (List Str))} {ws : List Str} (hall : ∀ t ∈ ws, Alphabetic t)
    (hmem : join c!" " ws ∈ Spec.corpusTexts N docs) :
    (vocab (Dict.values (storeOf (Spec.corpusTexts N docs)))).count ws =
      (Spec.corpusTexts N docs).count (join c!" " ws) := by
  have hg : ({ text := join c!" " ws, count := (Spec.corpusTexts N docs).count (join c!" " ws) } : Ngram) ∈
      Dict.values (storeOf (Spec.corpusTexts N docs)) := by
    rw [values_storeOf]
    exact List.mem_map.mpr ⟨_, mem_distinctInOrder.mpr hmem, rfl⟩
  have := vocab_count (storeOf_gramsOk N docs) hg
  rw [show Ngram.tokens { text := join c!" " ws, count := (Spec.corpusTexts N docs).count (join c!" " ws) } = ws from
    splitWs_join_alphabetic hall] at this
  exact this

/-- With discounts between 0 and the counts, an interpolation with a probability is a probability. -/
theorem pTop_bounds {V : Spec.Vocab} (hc : ∀ e ∈ V, 1 ≤ e.2) {g : List Str} {c : Nat} (hg : (g, c) ∈ V)
    (hcount : V.count g = c) (hlen : 1 ≤ g.length)
    (hsum : ((ext V g.dropLast).map Prod.snd).sum ≤ V.count g.dropLast)
    (hD : ∀ k : Nat, 1 ≤ k → 0 ≤ V.D g.length k ∧ V.D g.length k ≤ k)
    (hq : 0 ≤ V.pCont g.tail ∧ V.pCont g.tail ≤ 1) : 0 ≤ V.pTop g ∧ V.pTop g ≤ 1 := by
  have hge : (g, c) ∈ ext V g.dropLast := by
    unfold ext
    rw [List.mem_filter]
    refine ⟨hg, decide_eq_true ⟨?_, ?_⟩⟩
    · rw [List.length_dropLast]; simp only; omega
    · rw [List.length_dropLast, List.dropLast_eq_take]
  have hext : ∀ e ∈ ext V g.dropLast, 1 ≤ e.2 := fun e he => hc e (List.mem_filter.mp he).1
  have key : ∀ (E : Spec.Vocab), (∀ e ∈ E, 1 ≤ e.2) →
      0 ≤ (E.map fun e => V.D g.length e.2).sum ∧
      (E.map fun e => V.D g.length e.2).sum ≤ ((E.map Prod.snd).sum : ℕ) := by
    intro E hE
    induction E with
    | nil => simp
    | cons e E ih =>
      obtain ⟨i1, i2⟩ := ih fun e' he' => hE e' (by simp [he'])
      obtain ⟨d1, d2⟩ := hD e.2 (hE e (by simp))
      simp only [List.map_cons, List.sum_cons]
      push_cast
      constructor <;> linarith
  have key2 : ∀ (E : Spec.Vocab), (∀ e ∈ E, 1 ≤ e.2) → (g, c) ∈ E →
      (c : ℚ) - V.D g.length c + (E.map fun e => V.D g.length e.2).sum ≤ ((E.map Prod.snd).sum : ℕ) := by
    intro E hE hmem
    induction E with
    | nil => cases hmem
    | cons e E ih =>
      have hE' : ∀ e' ∈ E, 1 ≤ e'.2 := fun e' he' => hE e' (by simp [he'])
      simp only [List.map_cons, List.sum_cons]
      push_cast
      rcases List.mem_cons.mp hmem with rfl | h
      · have := (key E hE').2
        simp only
        linarith
      · have := ih hE' h
        have := (hD e.2 (hE e (by simp))).2
        linarith
  have h1 : 1 ≤ c := hc _ hg
  have hCpos : 0 < V.count g.dropLast := by
    have : c ≤ ((ext V g.dropLast).map Prod.snd).sum :=
      List.single_le_sum (by simp) _ (List.mem_map.mpr ⟨_, hge, rfl⟩)
    omega
  have hC : (0 : ℚ) < V.count g.dropLast := by exact_mod_cast hCpos
  obtain ⟨d1, d2⟩ := hD c h1
  unfold Spec.Vocab.pTop
  rw [hcount, max_eq_left (by linarith), backoff_eq V _ _ hc]
  obtain ⟨k1, _⟩ := key _ hext
  have k2 := key2 _ hext hge
  generalize ((ext V g.dropLast).map fun e => V.D g.length e.2).sum = S at *
  have hsum' : ((((ext V g.dropLast).map Prod.snd).sum : ℕ) : ℚ) ≤ V.count g.dropLast := by exact_mod_cast hsum
  rw [div_mul_eq_mul_div, ← add_div]
  constructor
  · apply div_nonneg _ hC.le
    have := mul_nonneg k1 hq.1
    linarith
  · rw [div_le_one hC]
    have := mul_le_of_le_one_right k1 hq.2
    linarith

end Model
