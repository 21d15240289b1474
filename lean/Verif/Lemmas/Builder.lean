import Verif.Model.Builder
import Verif.Spec.Builder
import Verif.Props.Mle
import Verif.Props.Mkn
import Verif.Props.LangModel
import Verif.Lemmas.TrainingData

namespace Model
open Py Props

theorem mem_orderTexts {n : Nat} {docs : List (List (List Str))} {t : Str} (hn : 0 < n) : t ∈ Spec.orderTexts n docs ↔
    ∃ sents ∈ docs, ∃ l ∈ sents, ∃ w, w.length = n ∧ w <:+: l ∧ (∀ x ∈ w, Spec.PlainWord x) ∧ Spec.windowText w = t := by
  unfold Spec.orderTexts
  simp only [List.mem_flatMap, mem_ngramTexts hn]

theorem count_flatMap {α : Type} (l : List α) (f : α → List Str) (t : Str) :
    (l.flatMap f).count t = (l.map fun x => (f x).count t).sum := by
  induction l with
  | nil => rfl
  | cons a l ih => rw [List.flatMap_cons, List.count_append, ih, List.map_cons, List.sum_cons]

/-- The texts of an order are those of the corpus with that many words, counted alike. -/
theorem orderTexts_spec {N n : Nat} {docs : List (List (List Str))} (hn : 0 < n) (hN : n ≤ N) (t : Str) :
    (t ∈ Spec.orderTexts n docs ↔ t ∈ Spec.corpusTexts N docs ∧ (splitWs t).length = n) ∧
    (t ∈ Spec.orderTexts n docs → (Spec.orderTexts n docs).count t = (Spec.corpusTexts N docs).count t) := by
  constructor
  · rw [mem_orderTexts hn, mem_corpusTexts]
    constructor
    · rintro ⟨d, hd, l, hl, w, hw, h1, h2, rfl⟩
      refine ⟨⟨d, hd, l, hl, w, by omega, by omega, h1, h2, rfl⟩, ?_⟩
      rw [tokens_windowText h2, List.length_map, hw]
    · rintro ⟨⟨d, hd, l, hl, w, -, -, h1, h2, rfl⟩, hw⟩
      rw [tokens_windowText h2, List.length_map] at hw
      exact ⟨d, hd, l, hl, w, hw, h1, h2, rfl⟩
  · intro h
    obtain ⟨d, hd, l, hl, w, hw, h1, h2, rfl⟩ := (mem_orderTexts hn).mp h
    have hal := alphabetic_of_plain h2
    rw [windowText_join, count_corpusTexts docs hal (by rw [List.length_map]; omega) (by rw [List.length_map]; omega),
      List.length_map, hw]
    exact count_flatMap _ _ _

/-- The n-grams of an order in the store. -/
theorem ofOrder_mem {N n : Nat} {docs : List (List (List Str))} (hn : 0 < n) (hN : n ≤ N) (g : Ngram) :
    g ∈ ofOrder (Dict.values (storeOf (Spec.corpusTexts N docs))) n ↔
      g.text ∈ Spec.orderTexts n docs ∧ g = { text := g.text, count := (Spec.orderTexts n docs).count g.text } := by
  unfold ofOrder
  rw [List.mem_filter, values_storeOf, List.mem_map, decide_eq_true_eq]
  constructor
  · rintro ⟨⟨t, ht, rfl⟩, ho⟩
    have hm := ((orderTexts_spec hn hN t).1).mpr ⟨mem_distinctInOrder.mp ht, ho⟩
    exact ⟨hm, by rw [(orderTexts_spec hn hN t).2 hm]⟩
  · rintro ⟨hm, hg⟩
    obtain ⟨h1, h2⟩ := ((orderTexts_spec hn hN g.text).1).mp hm
    refine ⟨⟨g.text, mem_distinctInOrder.mpr h1, ?_⟩, h2⟩
    rw [← (orderTexts_spec hn hN g.text).2 hm]
    exact hg.symm

theorem ofOrder_nodup (gs : List Ngram) (n : Nat) (h : (gs.map Ngram.text).Nodup) : ((ofOrder gs n).map Ngram.text).Nodup :=
  h.sublist (List.filter_sublist.map _)

/-- The counts of an order add up to the number of its windows. -/
theorem ofOrder_total {N n : Nat} {docs : List (List (List Str))} (hn : 0 < n) (hN : n ≤ N) :
    ((ofOrder (Dict.values (storeOf (Spec.corpusTexts N docs))) n).map Ngram.count).sum =
      (Spec.orderTexts n docs).length := by
  set gs := Dict.values (storeOf (Spec.corpusTexts N docs)) with hgs
  have hp : ((ofOrder gs n).map Ngram.text).Perm (Spec.orderTexts n docs).dedup := by
    rw [List.perm_ext_iff_of_nodup (ofOrder_nodup gs n (storeOf_gramsOk N docs).nodup) (List.nodup_dedup _)]
    intro t
    rw [List.mem_dedup, List.mem_map]
    constructor
    · rintro ⟨g, hg, rfl⟩; exact ((ofOrder_mem hn hN g).mp hg).1
    · intro ht
      exact ⟨⟨t, (Spec.orderTexts n docs).count t, none⟩, (ofOrder_mem hn hN _).mpr ⟨ht, rfl⟩, rfl⟩
  have hc : (ofOrder gs n).map Ngram.count = ((ofOrder gs n).map Ngram.text).map fun t => (Spec.orderTexts n docs).count t := by
    rw [List.map_map]
    refine List.map_congr_left fun g hg => ?_
    exact congrArg Ngram.count ((ofOrder_mem hn hN g).mp hg).2
  rw [hc, (hp.map _).sum_eq]
  convert List.sum_map_count_dedup_eq_length (Spec.orderTexts n docs)
  rfl

/-- n-grams written with a probability. -/
def entriesOf (gs : List Ngram) (P : Ngram → ℚ) : List Entry := gs.map fun g => ⟨g.text, g.count, P g⟩

theorem orderFile_eq {d : Dict Nat (List Ngram)} {o : Nat} {gs : List Ngram} {P : Ngram → ℚ}
    (h : (Dict.get? d o).getD [] = gs.map fun g => { g with proba := some (some (P g)) }) :
    orderFile d o = .ok (writeNgramFile (entriesOf gs P)) := by
  unfold orderFile
  rw [h]
  have : (gs.map fun g => ({ g with proba := some (some (P g)) } : Ngram)).mapM Ngram.entry = .ok (entriesOf gs P) := by
    rw [List.mapM_map]
    exact mapM_ok_of fun g _ => rfl
  rw [this]
  rfl

theorem gramsOk_writable {gs : List Ngram} {N : Nat} (h : GramsOk gs N) {g : Ngram} (hg : g ∈ gs) : Writable g.text := by
  have key : ∀ c ∈ g.text, c.isAlpha = true ∨ c = ' ' := by
    rw [h.text g hg]
    have hal := h.alph g hg
    generalize g.tokens = ts at hal
    induction ts with
    | nil => intro c hc; cases hc
    | cons t ts ih =>
      intro c hc
      cases ts with
      | nil =>
        simp only [join] at hc
        exact Or.inl ((hal t (by simp)).2 c (by simpa using hc))
      | cons u us =>
        rw [join_cons (by simp)] at hc
        rcases List.mem_append.mp hc with hc | hc
        · rcases List.mem_append.mp hc with hc | hc
          · exact Or.inl ((hal t (by simp)).2 c hc)
          · simp at hc; exact Or.inr hc
        · exact ih (fun t ht => hal t (List.mem_cons_of_mem _ ht)) c hc
  refine ⟨?_, ?_, ?_⟩ <;>
  · intro hc
    rcases key _ hc with h | h <;> revert h <;> decide

/-- The call once the texts are read. -/
theorem call_eq {T : Type} {b : Builder} (hb : 1 ≤ b.nbProcesses) (R : Rounding)
    {sentencize : T → Except PyErr (List (List Str))} {texts : List T} {docs : List (List (List Str))}
    (hd : texts.mapM sentencize = .ok docs) {fuel : Nat} (hf : texts.length / b.nbProcesses < fuel)
    (sched : Nat → List Move) : b.call R sentencize fuel texts sched =
      (match b.smooth R (Dict.values (storeOf (Spec.corpusTexts b.maxOrder docs))) sched with
       | .error e => .error e
       | .ok none => .ok none
       | .ok (some d) => (((List.range b.maxOrder).map (· + 1)).mapM (orderFile d)).map some) := by
  have hr : readTexts sentencize b.maxOrder b.nbProcesses fuel texts [] =
      .ok (some (storeOf (Spec.corpusTexts b.maxOrder docs))) := by
    have := readTexts_eq sentencize b.maxOrder b.nbProcesses hb fuel texts [] hf
    rw [show storeOf [] = [] from rfl, hd] at this
    simpa [Except.map] using this
  unfold Builder.call
  rw [hr]
  show (do
    match ← b.smooth R (Dict.values (storeOf (Spec.corpusTexts b.maxOrder docs))) sched with
    | none => return none
    | some d =>
      let files ← ((List.range b.maxOrder).map (· + 1)).mapM (orderFile d)
      return some files) = _
  cases b.smooth R (Dict.values (storeOf (Spec.corpusTexts b.maxOrder docs))) sched with
  | error e => rfl
  | ok r =>
    cases r with
    | none => rfl
    | some d =>
      show (do
        let files ← ((List.range b.maxOrder).map (· + 1)).mapM (orderFile d)
        return some files) = (((List.range b.maxOrder).map (· + 1)).mapM (orderFile d)).map some
      cases ((List.range b.maxOrder).map (· + 1)).mapM (orderFile d) <;> rfl

/-- What the files of the builder hold when every n-gram of an order `1..N` has a probability. -/
theorem call_returns {T : Type} {b : Builder} (hb : 1 ≤ b.nbProcesses) (R : Rounding)
    {sentencize : T → Except PyErr (List (List Str))} {texts : List T} {docs : List (List (List Str))}
    (hd : texts.mapM sentencize = .ok docs) {fuel : Nat} (hf : texts.length / b.nbProcesses < fuel) (P : Nat → Ngram → ℚ)
    (hs : Spec.Returns (b.smooth R (Dict.values (storeOf (Spec.corpusTexts b.maxOrder docs)))) fun d =>
      ∀ o, 1 ≤ o → o ≤ b.maxOrder → (Dict.get? d o).getD [] =
        (ofOrder (Dict.values (storeOf (Spec.corpusTexts b.maxOrder docs))) o).map fun g =>
          { g with proba := some (some (P o g)) }) :
    Spec.Returns (b.call R sentencize fuel texts) fun files =>
      files = ((List.range b.maxOrder).map (· + 1)).map fun o =>
        writeNgramFile (entriesOf (ofOrder (Dict.values (storeOf (Spec.corpusTexts b.maxOrder docs))) o) (P o)) := by
  have hc := call_eq hb R hd hf
  have hok : ∀ d, (∀ o, 1 ≤ o → o ≤ b.maxOrder → (Dict.get? d o).getD [] =
        (ofOrder (Dict.values (storeOf (Spec.corpusTexts b.maxOrder docs))) o).map fun g =>
          { g with proba := some (some (P o g)) }) →
      ((List.range b.maxOrder).map (· + 1)).mapM (orderFile d) =
        .ok (((List.range b.maxOrder).map (· + 1)).map fun o =>
          writeNgramFile (entriesOf (ofOrder (Dict.values (storeOf (Spec.corpusTexts b.maxOrder docs))) o) (P o))) := by
    intro d h
    refine mapM_ok_of fun o ho => ?_
    obtain ⟨i, hi, rfl⟩ := List.mem_map.mp ho
    rw [List.mem_range] at hi
    exact orderFile_eq (h (i + 1) (by omega) (by omega))
  constructor
  · intro sched
    rw [hc]
    rcases hs.1 sched with h | ⟨d, h, hP⟩
    · rw [h]; exact Or.inl rfl
    · rw [h]
      refine Or.inr ⟨_, ?_, rfl⟩
      simp only [hok d hP, Except.map]
  · intro sched
    obtain ⟨more, d, h⟩ := hs.2 sched
    have hP : ∀ o, 1 ≤ o → o ≤ b.maxOrder → (Dict.get? d o).getD [] =
        (ofOrder (Dict.values (storeOf (Spec.corpusTexts b.maxOrder docs))) o).map fun g =>
          { g with proba := some (some (P o g)) } := by
      rcases hs.1 (fun o => sched o ++ more o) with h' | ⟨d', h', hP⟩
      · rw [h] at h'; cases h'
      · rw [h] at h'; cases h'; exact hP
    refine ⟨more, ((List.range b.maxOrder).map (· + 1)).map fun o =>
      writeNgramFile (entriesOf (ofOrder (Dict.values (storeOf (Spec.corpusTexts b.maxOrder docs))) o) (P o)), ?_⟩
    rw [hc, h]
    simp only [hok d hP, Except.map]

/-- Loading such files. -/
theorem load_built (R : Rounding) (log : ℚ → ℚ) (N : Nat) (docs : List (List (List Str))) (P : Nat → Ngram → ℚ)
    (hP : ∀ o, 1 ≤ o → o ≤ N → ∀ g ∈ ofOrder (Dict.values (storeOf (Spec.corpusTexts N docs))) o,
      0 < P o g → 1 / (2 * 10 ^ 17) < P o g) (mins : List Int) (hm : mins.length ≤ N) :
    ∃ m, LM.load R log (mins.zip (((List.range N).map (· + 1)).map fun o =>
        writeNgramFile (entriesOf (ofOrder (Dict.values (storeOf (Spec.corpusTexts N docs))) o) (P o)))) = .ok m ∧
      m.maxOrder = mins.length ∧
      ∀ t (n : Int) (q : ℚ) (l : WithBot ℚ), Dict.get? m.details t = some (n, q, l) ↔
        ∃ (i : Nat) (mn : Int), mins[i]? = some mn ∧ t ∈ Spec.orderTexts (i + 1) docs ∧
          (n = (Spec.orderTexts (i + 1) docs).count t ∧ mn ≤ n ∧
            ∃ p, p = P (i + 1) { text := t, count := (Spec.orderTexts (i + 1) docs).count t } ∧ 0 < p ∧
              q = R.fl (round17 p) ∧ l = (log q : WithBot ℚ)) := by
  set gs := Dict.values (storeOf (Spec.corpusTexts N docs)) with hgs
  have hok : GramsOk gs N := storeOf_gramsOk N docs
  let ps : Parts := mins.zipIdx.map fun x => (x.1, entriesOf (ofOrder gs (x.2 + 1)) (P (x.2 + 1)))
  have hfiles : mins.zip (((List.range N).map (· + 1)).map fun o => writeNgramFile (entriesOf (ofOrder gs o) (P o))) =
      ps.files := by
    unfold Parts.files
    simp only [ps, List.map_map, Function.comp_def]
    apply List.ext_getElem
    · simp; omega
    · intro i h1 h2
      simp
  have hps : ∀ p ∈ ps, ∃ i, i < N ∧ mins[i]? = some p.1 ∧ p.2 = entriesOf (ofOrder gs (i + 1)) (P (i + 1)) := by
    intro p hp
    obtain ⟨x, hx, rfl⟩ := List.mem_map.mp hp
    have := List.mem_zipIdx_iff_getElem?.mp hx
    exact ⟨x.2, lt_of_lt_of_le (List.getElem?_eq_some_iff.mp this).1 hm, this, rfl⟩
  rw [hfiles]
  have hx0 : ∀ p ∈ ps, ∀ e ∈ p.2, Writable e.text := by
    intro p hp e he
    obtain ⟨i, hi, hmi, hpe⟩ := hps p hp
    rw [hpe] at he
    obtain ⟨g, hg, rfl⟩ := List.mem_map.mp he
    exact gramsOk_writable hok (List.mem_filter.mp hg).1
  have hx1 : (ps.flatMap fun p => p.2.map Entry.text).Nodup := by
    have : (ps.flatMap fun p => p.2.map Entry.text) = mins.zipIdx.flatMap fun x => (ofOrder gs (x.2 + 1)).map Ngram.text := by
      simp only [ps, List.flatMap_map, entriesOf, List.map_map, Function.comp_def]
    rw [this, List.nodup_flatMap]
    refine ⟨fun x _ => ofOrder_nodup gs _ hok.nodup, ?_⟩
    have hnd : (mins.zipIdx.map Prod.snd).Nodup := by
      rw [List.zipIdx_map_snd]
      exact List.nodup_range'
    rw [List.Nodup, List.pairwise_map] at hnd
    refine hnd.imp ?_
    intro x y hxy t hx hy
    obtain ⟨g, hg, rfl⟩ := List.mem_map.mp hx
    obtain ⟨g', hg', he⟩ := List.mem_map.mp hy
    have e1 : g.order = x.2 + 1 := of_decide_eq_true (List.mem_filter.mp hg).2
    have e2 : g'.order = y.2 + 1 := of_decide_eq_true (List.mem_filter.mp hg').2
    unfold Ngram.order Ngram.tokens at e1 e2
    rw [he, e1] at e2
    omega
  have hx2 : ∀ p ∈ ps, ∀ e ∈ p.2, 0 < e.proba → 1 / (2 * 10 ^ 17) < e.proba := by
    intro p hp e he h0
    obtain ⟨i, hi, hmi, hpe⟩ := hps p hp
    rw [hpe] at he
    obtain ⟨g, hg, rfl⟩ := List.mem_map.mp he
    exact hP (i + 1) (by omega) (by omega) g hg h0
  obtain ⟨m, h1, h2, h3⟩ := C27_write_load_partial R log ps hx0 hx1 hx2
  refine ⟨m, h1, by rw [h2]; simp [ps], ?_⟩
  intro t n q l
  rw [h3]
  constructor
  · rintro ⟨p, hp, e, he, h0, hmn, rfl, rfl, hq, hl⟩
    obtain ⟨i, hi, hmi, hpe⟩ := hps p hp
    rw [hpe] at he
    obtain ⟨g, hg, rfl⟩ := List.mem_map.mp he
    obtain ⟨hg1, hg2⟩ := (ofOrder_mem (Nat.succ_pos i) (by omega) g).mp hg
    have hcnt : g.count = (Spec.orderTexts (i + 1) docs).count g.text := congrArg Ngram.count hg2
    refine ⟨i, p.1, hmi, hg1, by rw [hcnt], hmn, P (i + 1) g, by rw [← hg2], h0, hq, hl⟩
  · rintro ⟨i, mn, hmi, ht, hn, hmn, p, hp, h0, hq, hl⟩
    have hi := (List.getElem?_eq_some_iff.mp hmi).1
    refine ⟨(mn, entriesOf (ofOrder gs (i + 1)) (P (i + 1))), ?_, ⟨t, (Spec.orderTexts (i + 1) docs).count t, p⟩, ?_, h0,
      by rw [← hn]; exact hmn, rfl, hn, hq, hl⟩
    · exact List.mem_map.mpr ⟨(mn, i), List.mem_zipIdx_iff_getElem?.mpr hmi, rfl⟩
    · exact List.mem_map.mpr ⟨_, (ofOrder_mem (Nat.succ_pos i) (by omega)
        { text := t, count := (Spec.orderTexts (i + 1) docs).count t }).mpr ⟨ht, rfl⟩, by rw [hp]⟩

end Model
