import Verif.Spec.Corpora
import Verif.Props.Builder
import Verif.Lemmas.Frequency

/-! Corpora with the same sentences, and models with the same details. -/

namespace Model
open Py Props

theorem orderTexts_flatten (n : Nat) (docs : List (List (List Str))) :
    Spec.orderTexts n docs = Spec.ngramTexts n docs.flatten := by
  unfold Spec.orderTexts Spec.ngramTexts
  induction docs with
  | nil => rfl
  | cons d docs ih => rw [List.flatMap_cons, ih, List.flatten_cons, List.flatMap_append]

theorem orderTexts_perm {a b : List (List (List Str))} (h : Spec.SameSentences a b) (n : Nat) :
    (Spec.orderTexts n a).Perm (Spec.orderTexts n b) := by
  rw [orderTexts_flatten, orderTexts_flatten]
  exact h.flatMap_right _

theorem corpusTexts_orders (N : Nat) (docs : List (List (List Str))) :
    (Spec.corpusTexts N docs).Perm ((List.range N).flatMap fun n => Spec.orderTexts (n + 1) docs) := by
  unfold Spec.corpusTexts Spec.orderTexts
  induction docs with
  | nil => simp
  | cons d docs ih =>
    simp only [List.flatMap_cons]
    exact (ih.append_left _).trans (List.flatMap_append_perm _ _ _)

theorem corpusTexts_perm {a b : List (List (List Str))} (h : Spec.SameSentences a b) (N : Nat) :
    (Spec.corpusTexts N a).Perm (Spec.corpusTexts N b) := by
  refine (corpusTexts_orders N a).trans (List.Perm.trans ?_ (corpusTexts_orders N b).symm)
  exact List.Perm.flatMap_left _ fun n _ => orderTexts_perm h (n + 1)

theorem corpusVocab_perm {a b : List (List (List Str))} (h : Spec.SameSentences a b) (N : Nat) :
    (Spec.corpusVocab N a).Perm (Spec.corpusVocab N b) := by
  unfold Spec.corpusVocab
  have hp := corpusTexts_perm h N
  have hd : (Spec.distinctInOrder (Spec.corpusTexts N a)).Perm (Spec.distinctInOrder (Spec.corpusTexts N b)) := by
    rw [List.perm_ext_iff_of_nodup (nodup_distinctInOrder _) (nodup_distinctInOrder _)]
    intro t
    rw [mem_distinctInOrder, mem_distinctInOrder, hp.mem_iff]
  have e : (fun t => (splitWs t, (Spec.corpusTexts N a).count t)) = fun t => (splitWs t, (Spec.corpusTexts N b).count t) := by
    funext t
    rw [hp.count_eq]
  rw [e]
  exact hd.map _

theorem corpusVocab_nodup (N : Nat) (docs : List (List (List Str))) : ((Spec.corpusVocab N docs).map Prod.fst).Nodup := by
  have ok := storeOf_gramsOk N docs
  rw [← grams_corpus]
  unfold grams
  rw [List.map_map]
  have h1 := ok.nodup
  have h2 : (Dict.values (storeOf (Spec.corpusTexts N docs))).map Ngram.text =
      ((Dict.values (storeOf (Spec.corpusTexts N docs))).map Ngram.tokens).map (join c!" ") := by
    rw [List.map_map]
    exact List.map_congr_left fun g hg => ok.text g hg
  rw [h2] at h1
  exact List.Nodup.of_map _ h1

/-! ### Formulas on permuted vocabularies -/

section
variable {V W : Spec.Vocab}

theorem vocab_count_perm (h : V.Perm W) (hn : (V.map Prod.fst).Nodup) (ts : List Str) : V.count ts = W.count ts := by
  have hw : (W.map Prod.fst).Nodup := (h.map _).nodup_iff.mp hn
  have key : ∀ {U : Spec.Vocab}, (U.map Prod.fst).Nodup → ∀ c, (ts, c) ∈ U → U.count ts = c := by
    intro U hU c hc
    unfold Spec.Vocab.count
    cases hf : U.find? fun e => e.1 = ts with
    | none =>
      rw [List.find?_eq_none] at hf
      exact absurd (hf _ hc) (by simp)
    | some e =>
      have h1 := List.mem_of_find?_eq_some hf
      have h2 : e.1 = ts := by simpa using List.find?_some hf
      have : e = (ts, c) := List.inj_on_of_nodup_map hU h1 hc h2
      rw [this]
      rfl
  have none : ∀ {U : Spec.Vocab}, (∀ c, (ts, c) ∉ U) → U.count ts = 0 := by
    intro U hU
    unfold Spec.Vocab.count
    cases hf : U.find? fun e => e.1 = ts with
    | none => rfl
    | some e =>
      have h1 := List.mem_of_find?_eq_some hf
      have h2 : e.1 = ts := by simpa using List.find?_some hf
      exact absurd (by rw [← h2]; exact h1) (hU e.2)
  by_cases hx : ∃ c, (ts, c) ∈ V
  · obtain ⟨c, hc⟩ := hx
    rw [key hn c hc, key hw c (h.mem_iff.mp hc)]
  · rw [none fun c hc => hx ⟨c, hc⟩, none fun c hc => hx ⟨c, h.mem_iff.mpr hc⟩]

theorem D_perm (h : V.Perm W) (n c : Nat) : V.D n c = W.D n c := by
  have e : ∀ n c, V.nCount n c = W.nCount n c := fun n c => h.countP_eq _
  match c with
  | 0 => rfl
  | 1 => simp only [Spec.Vocab.D, Spec.Vocab.D1, Spec.Vocab.Y, e]
  | 2 => simp only [Spec.Vocab.D, Spec.Vocab.D2, Spec.Vocab.Y, e]
  | c + 3 => simp only [Spec.Vocab.D, Spec.Vocab.D3, Spec.Vocab.Y, e]

theorem backoff_perm (h : V.Perm W) (n : Nat) (ctx : List Str) : V.backoff n ctx = W.backoff n ctx := by
  have e : ∀ P, V.after ctx P = W.after ctx P := fun P => h.countP_eq _
  have e1 : V.D1 n = W.D1 n := D_perm h n 1
  have e2 : V.D2 n = W.D2 n := D_perm h n 2
  have e3 : V.D3 n = W.D3 n := D_perm h n 3
  unfold Spec.Vocab.backoff
  simp only [e, e1, e2, e3]

theorem pCont_perm (h : V.Perm W) : ∀ ts : List Str, V.pCont ts = W.pCont ts
  | [] => by rw [Spec.Vocab.pCont, Spec.Vocab.pCont]
  | [w] => by
    rw [Spec.Vocab.pCont, Spec.Vocab.pCont]
    have e1 : V.before [w] = W.before [w] := h.countP_eq _
    have e2 : V.types 2 = W.types 2 := h.countP_eq _
    rw [e1, e2]
  | w :: v :: ts => by
    rw [Spec.Vocab.pCont, Spec.Vocab.pCont]
    have e1 : ∀ g, V.before g = W.before g := fun g => h.countP_eq _
    have e2 : ∀ g, V.around g = W.around g := fun g => h.countP_eq _
    simp only [e1, e2, D_perm h, backoff_perm h, pCont_perm h (v :: ts)]

theorem mkn_perm (h : V.Perm W) (hn : (V.map Prod.fst).Nodup) (ts : List Str) : V.mkn ts = W.mkn ts := by
  unfold Spec.Vocab.mkn Spec.Vocab.pTop
  simp only [pCont_perm h, vocab_count_perm h hn, D_perm h, backoff_perm h]

theorem Poor_perm (h : V.Perm W) (N : Nat) : V.Poor N ↔ W.Poor N := by
  unfold Spec.Vocab.Poor
  simp only [h.mem_iff]

end

/-! ### Models with the same details -/

theorem sliceLimit_map {α β : Type} (f : α → β) (l : List α) (limit : Option Int) :
    (sliceLimit l limit).map f = sliceLimit (l.map f) limit := by
  cases limit with
  | none => rfl
  | some k =>
    have h1 := cut_sliceLimit l (some k)
    have h2 := cut_sliceLimit (l.map f) (some k)
    rcases h1 with ⟨a, e1⟩ | ⟨a, e1⟩ <;> rcases h2 with ⟨b, e2⟩ | ⟨b, e2⟩
    · rw [e1, e2, List.map_take]
    · omega
    · omega
    · rw [e1, e2, List.map_take, List.length_map]

/-- Sorting the same items differently ordered gives the same keys. -/
theorem sortDesc_keys {α κ : Type} [LinearOrder κ] (key : α → κ) {a b : List α} (h : a.Perm b) :
    (sortDesc key a).map key = (sortDesc key b).map key := by
  have hs : ∀ l : List α, ((sortDesc key l).map key).Pairwise fun x y => y ≤ x := fun l => by
    rw [List.pairwise_map]
    exact sortDesc_sorted key l
  refine sorted_unique id (hs a) (hs b) fun v => ?_
  have hp : ((sortDesc key a).map key).Perm ((sortDesc key b).map key) :=
    (((sortDesc_perm key a).trans h).trans (sortDesc_perm key b).symm).map key
  have hr : ∀ l : List κ, l.filter (fun x => decide (id x = v)) = List.replicate (l.count v) v := by
    intro l
    rw [List.eq_replicate_iff]
    constructor
    · rw [← List.countP_eq_length_filter]
      exact List.countP_congr fun x _ => by simp
    · intro x hx
      simpa using (List.mem_filter.mp hx).2
  rw [hr, hr, hp.count_eq]

/-- Details with the count multiplied by `k`. -/
def scaled (k : Nat) (d : Details) : Details := (k * d.1, d.2)

theorem scaledAnswers {k : Nat} (hk : 1 ≤ k) {R R' : Rounding} {log log' : ℚ → ℚ} {f f' : List (Int × Str)} {m m' : LM}
    (h : LM.load R log f = .ok m) (h' : LM.load R' log' f' = .ok m') (ho : m.maxOrder = m'.maxOrder)
    (hg : ∀ t, (Dict.get? m.details t).map (scaled k) = Dict.get? m'.details t) : Spec.ScaledAnswers k m m' := by
  have H := load_ok h
  have H' := load_ok h'
  have hperm : (m.details.map fun e => (e.1, scaled k e.2)).Perm m'.details := by
    have hn : (m.details.map fun e => (e.1, scaled k e.2)).Nodup := by
      apply List.Nodup.of_map Prod.fst
      rw [List.map_map]
      exact H.wf
    rw [List.perm_ext_iff_of_nodup hn (List.Nodup.of_map _ H'.wf)]
    rintro ⟨t, v⟩
    rw [Dict.mem_iff_get? H'.wf, ← hg, List.mem_map, Option.map_eq_some_iff]
    constructor
    · rintro ⟨⟨t', w⟩, hw, e⟩
      cases e
      exact ⟨w, (Dict.mem_iff_get? H.wf).mp hw, rfl⟩
    · rintro ⟨w, hw, rfl⟩
      exact ⟨(t, w), (Dict.mem_iff_get? H.wf).mpr hw, rfl⟩
  have hd : ∀ t, m'.detailsOf t = scaled k (m.detailsOf t) := by
    intro t
    unfold LM.detailsOf
    rw [← hg]
    cases Dict.get? m.details t with
    | none => simp [scaled]
    | some x => rfl
  have hlogp : m.logp = m'.logp := by
    funext t
    unfold LM.logp
    rw [hd]
    rfl
  have hc : m.contains = m'.contains := by
    funext t
    unfold LM.contains Dict.has
    rw [← hg, Option.isSome_map]
  have hlogps : m.logps = m'.logps := by
    funext c
    unfold LM.logps LM.logpOrder
    rw [hlogp, ho]
  have hconts : ∀ ctx, (continuations m.details ctx).Perm (continuations m'.details ctx) :=
    fun ctx => by
      have := hperm.filterMap fun e =>
        match (splitWs e.1).getLast? with
        | some last => if 1 < (splitWs e.1).length ∧ join c!" " (splitWs e.1).dropLast = ctx then some (last, e.2.2.1) else none
        | none => none
      rw [List.filterMap_map] at this
      exact this
  have hnext : ∀ ctx, (2 ≤ m.maxOrder) → 
      (Dict.get? m.nextTokens ctx = none ∧ Dict.get? m'.nextTokens ctx = none) ∨
      (Dict.get? m.nextTokens ctx = some (sortDesc Prod.snd (continuations m.details ctx)) ∧
        Dict.get? m'.nextTokens ctx = some (sortDesc Prod.snd (continuations m'.details ctx))) := by
    intro ctx h2
    rw [H.next ctx (by rw [← H.maxOrder]; omega), H'.next ctx (by rw [← H'.maxOrder, ← ho]; omega)]
    by_cases hx : continuations m.details ctx = []
    · left
      have : continuations m'.details ctx = [] := by
        have := hconts ctx
        rw [hx] at this
        exact this.nil_eq.symm
      rw [if_pos hx, if_pos this]
      exact ⟨rfl, rfl⟩
    · right
      have : continuations m'.details ctx ≠ [] := fun e => hx (by
        have := hconts ctx
        rw [e] at this
        exact this.eq_nil)
      rw [if_neg hx, if_neg this]
      exact ⟨rfl, rfl⟩
  have hloop : ∀ tokens limit (is : List Nat), 2 ≤ m.maxOrder →
      (m.nextLoop tokens limit is = [] ∧ m'.nextLoop tokens limit is = []) ∨
      ∃ ctx, m.nextLoop tokens limit is = sliceLimit (sortDesc Prod.snd (continuations m.details ctx)) limit ∧
        m'.nextLoop tokens limit is = sliceLimit (sortDesc Prod.snd (continuations m'.details ctx)) limit := by
    intro tokens limit is h2
    induction is with
    | nil => exact Or.inl ⟨rfl, rfl⟩
    | cons i is ih =>
      unfold LM.nextLoop Dict.get
      rcases hnext (join c!" " (sliceFrom tokens (-(i : Int)))) h2 with ⟨e1, e2⟩ | ⟨e1, e2⟩
      · rw [e1, e2]
        exact ih
      · rw [e1, e2]
        exact Or.inr ⟨_, rfl, rfl⟩
  have hword : ∀ tokens limit, (m.nextWord tokens limit = [] ∧ m'.nextWord tokens limit = []) ∨
      ∃ ctx, m.nextWord tokens limit = sliceLimit (sortDesc Prod.snd (continuations m.details ctx)) limit ∧
        m'.nextWord tokens limit = sliceLimit (sortDesc Prod.snd (continuations m'.details ctx)) limit := by
    intro tokens limit
    unfold LM.nextWord
    rw [← ho]
    by_cases h2 : 2 ≤ m.maxOrder
    · exact hloop tokens limit _ h2
    · have : m.maxOrder - 1 = 0 := by omega
      rw [this]
      exact Or.inl ⟨rfl, rfl⟩
  have htop : ∀ n : Int, (((m.details.filter fun e => ((splitWs e.1).length : Int) = n).map fun e =>
        (e.1, e.2.1, e.2.2.1)).map fun e => (e.1, (k : Int) * e.2.1, e.2.2)).Perm
      ((m'.details.filter fun e => ((splitWs e.1).length : Int) = n).map fun e => (e.1, e.2.1, e.2.2.1)) := by
    intro n
    have := (hperm.filter fun e => ((splitWs e.1).length : Int) = n).map fun e => (e.1, e.2.1, e.2.2.1)
    rw [List.filter_map, List.map_map] at this
    rw [List.map_map]
    exact this
  refine ⟨fun g c => ?_, fun g => congrFun hc g, ?_, fun gs => ?_, fun tokens before after => ?_,
    fun n => ?_, fun n limit => ?_, fun tokens => ?_, fun tokens limit => ?_⟩
  · unfold LM.hasNgram
    rw [hd]
    have hk' : (0 : Int) < k := by omega
    have e1 : ((k : Int) * c < 1) ↔ c < 1 := by
      constructor <;> intro h <;> nlinarith
    have e2 : ((k : Int) * c ≤ k * (m.detailsOf g).1) ↔ c ≤ (m.detailsOf g).1 := mul_le_mul_iff_right₀ hk'
    simp only [e1, scaled, e2]
  · have := hperm.length_eq
    rw [List.length_map] at this
    exact this
  · unfold LM.bestNgram
    rw [hc, hlogp]
  · unfold LM.bestToken
    rw [hc, hlogps]
  · exact (((sortDesc_perm _ _).map _).trans (htop n)).trans (sortDesc_perm _ _).symm
  · unfold LM.topNgrams
    simp only
    rw [sliceLimit_map, sliceLimit_map, ← sortDesc_keys _ (htop n)]
    congr 1
    rw [sortDesc_map (fun e : Str × Int × ℚ => e.2.2) (fun e : Str × Int × ℚ => (e.1, (k : Int) * e.2.1, e.2.2)), List.map_map]
    rfl
  · rcases hword tokens none with ⟨e1, e2⟩ | ⟨ctx, e1, e2⟩
    · rw [e1, e2]
    · rw [e1, e2]
      exact ((sortDesc_perm _ _).trans (hconts ctx)).trans (sortDesc_perm _ _).symm
  · rcases hword tokens limit with ⟨e1, e2⟩ | ⟨ctx, e1, e2⟩
    · rw [e1, e2]
    · rw [e1, e2, sliceLimit_map, sliceLimit_map, sortDesc_keys _ (hconts ctx)]

theorem sameAnswers {R R' : Rounding} {log log' : ℚ → ℚ} {f f' : List (Int × Str)} {m m' : LM}
    (h : LM.load R log f = .ok m) (h' : LM.load R' log' f' = .ok m') (ho : m.maxOrder = m'.maxOrder)
    (hg : ∀ t, Dict.get? m.details t = Dict.get? m'.details t) : Spec.SameAnswers m m' := by
  have e1 : scaled 1 = id := by
    funext d
    unfold scaled
    simp
  have H := scaledAnswers (le_refl 1) h h' ho fun t => by rw [e1, Option.map_id]; exact hg t
  refine ⟨fun g c => ?_, H.contains, H.len, H.bestNgram, H.bestToken, fun n => ?_, H.topProbas, H.next, H.nextProbas⟩
  · have := H.has g c
    rwa [Nat.cast_one, one_mul] at this
  · have := H.top n
    simp only [Nat.cast_one, one_mul] at this
    rwa [show (fun e : Str × Int × ℚ => (e.1, e.2.1, e.2.2)) = id from rfl, List.map_id] at this

theorem get?_ext {m m' : LM} (h : ∀ t (n : Int) (q : ℚ) (l : WithBot ℚ),
    Dict.get? m.details t = some (n, q, l) ↔ Dict.get? m'.details t = some (n, q, l)) (t : Str) :
    Dict.get? m.details t = Dict.get? m'.details t := by
  apply Option.ext
  rintro ⟨n, q, l⟩
  exact h t n q l

end Model
